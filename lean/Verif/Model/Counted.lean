import Verif.Model.Evolution

/-! # Runs that record the calls of the evaluator

The functions of `Model/Evolution.lean` from the population evaluator upwards, once more, on a state that has a record of the
calls of `evaluate_individual` beside the run.  Everything else is taken from there.  (`C129_same` proves that the record is
all that is added.) -/

namespace Verif.Evo
open PyM
variable {G κ : Type}

/-- A call of `evaluate_individual`: in which generation, of which individual, with which genome. -/
structure Call (G : Type) where
  gen : Nat
  ref : Nat
  genome : G

/-- Work on the world, with the record of calls beside it. -/
def onWorld {α : Type} (m : WM G α) : PyM (World G × List (Call G)) α := zoom Prod.fst (fun w x => (w, x.2)) m

/-- Work on the run, with the record of calls beside it. -/
def onRun {α : Type} (m : RM G κ α) : PyM (Run G κ × List (Call G)) α := zoom Prod.fst (fun s x => (s, x.2)) m

/-- Work on the world of a run and the record of calls. -/
def besideRun {α : Type} (m : PyM (World G × List (Call G)) α) : PyM (Run G κ × List (Call G)) α :=
  zoom (fun x => (x.1.w, x.2)) (fun y x => ({ x.1 with w := y.1 }, y.2)) m

/-- `evaluate_individual` of the individual at `r` (`runEval`), recorded — simple_individual_evaluator.py:36-39. -/
def callEval (c : SubCfg G) (gen : Nat) (r : Nat) : PyM (World G × List (Call G)) ℚ := do
  let i ← onWorld (deref r)
  modify fun x => (x.1, x.2 ++ [⟨gen, r, i.genome⟩])
  onWorld (rand (c.evaluate i.genome))

/-- `evaluateMap` — simple_population_evaluator.py:57-73. -/
def countedMap (size : G → Nat) (c : SubCfg G) (gen : Nat) (order : List Nat) (inds : List Nat) :
    PyM (World G × List (Call G)) Nat := do
  let scores ← executorMap order (callEval c gen) inds
  onWorld do
    forL (fun (p : Nat × ℚ) => setFitness p.1 (.num p.2)) (inds.zip scores)
    match inds with
    | [] => raise .indexError
    | b :: rest => bestLoop size b rest

/-- `evaluateSubmit` — simple_population_evaluator.py:49-56, 61-73. -/
def countedSubmit (size : G → Nat) (c : SubCfg G) (gen : Nat) (order : List Nat) (inds : List Nat) :
    PyM (World G × List (Call G)) Nat := do
  let results ← executorMap order (fun r => do
    let v ← callEval c gen r
    onWorld (setFitness r (.num v))
    PyM.pure r) inds
  onWorld do
    forL (fun (p : Nat × Nat) => setFitness p.1 (.obj p.2)) (inds.zip results)
    match inds with
    | [] => raise .indexError
    | b :: rest => bestLoop size b rest

/-- `evaluateBody` — simple_population_evaluator.py:23-73. -/
def countedBody (c : Cfg G κ) : PyM (Run G κ × List (Call G)) Nat := do
  let x ← PyM.get
  match c.subs, x.1.inds with
  | [sub], [some is] =>
    if x.1.shutdown && !is.isEmpty then raise .runtimeError
    else besideRun (if c.submit then countedSubmit c.size sub x.1.genNum (c.sched x.1.genNum is.length) is
                    else countedMap c.size sub x.1.genNum (c.sched x.1.genNum is.length) is)
  | [_], [none] => raise .typeError
  | _, _ => raise .valueError

/-- `evaluatePopulation` — population_evaluator.py, event_based_operator.py:24-41. -/
def countedPopulation (c : Cfg G κ) : PyM (Run G κ × List (Call G)) Nat := do
  onRun (publish "population_evaluator" "before_operator")
  let r ← countedBody c
  onRun (publish "population_evaluator" "after_operator")
  PyM.pure r

/-- `initRun` — algorithm.py:212-226. -/
def countedInit (c : Cfg G κ) : PyM (Run G κ × List (Call G)) Unit := do
  let x ← PyM.get
  onRun (setSeed c x.1.randomSeed)
  onRun (createPopulation c)
  let b ← countedPopulation c
  onRun (modify fun s => { s with bestOfRun := some b })
  onRun (publish "algorithm" "init")

/-- `generationIteration` — simple_evolution.py:169-197. -/
def countedGeneration (c : Cfg G κ) : PyM (Run G κ × List (Call G)) Unit := do
  onRun (breed c)
  let b ← countedPopulation c
  onRun (modify fun s => { s with bestOfGen := some b })
  onRun (recordBest c b)
  onRun (recordWorst c)

/-- `mainLoop` — algorithm.py:276-292. -/
def countedLoop (c : Cfg G κ) : (n gen : Nat) → PyM (Run G κ × List (Call G)) Unit
  | 0, _ => PyM.pure ()
  | n + 1, gen => do
    onRun (modify fun s => { s with genNum := gen })
    onRun (updateGen gen)
    let x ← PyM.get
    onRun (setSeed c (nextSeed x.1.genSeed))
    onRun (modify fun s => { s with genSeed := nextSeed s.genSeed })
    countedGeneration c
    let stop ← onRun (shouldTerminate c gen)
    if stop then do
      onRun (modify fun s => { s with finalGen := some gen })
      onRun (publish "algorithm" "after_generation")
    else do
      onRun (publish "algorithm" "after_generation")
      countedLoop c n (gen + 1)

/-- `afterInit` — algorithm.py:180-186. -/
def countedAfterInit (c : Cfg G κ) : PyM (Run G κ × List (Call G)) Unit := do
  let x ← PyM.get
  let stop ← onRun (shouldTerminate c x.1.genNum)
  if stop then do
    onRun (modify fun s => { s with finalGen := some 0 })
    onRun (publish "algorithm" "after_generation")
  else countedLoop c c.maxGen 1

/-- `evolve`, with a record of the calls of the evaluator — algorithm.py:172-189, simple_evolution.py:219-225. -/
def countedEvolve (c : Cfg G κ) : PyM (Run G κ × List (Call G)) Unit := do
  countedInit c
  countedAfterInit c
  onRun (publish "algorithm" "evolution_finished")
  onRun (modify fun s => { s with shutdown := true })

end Verif.Evo
