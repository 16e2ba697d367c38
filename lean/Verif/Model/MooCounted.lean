import Verif.Model.Counted
import Verif.Model.NSGA2Evolution

/-! # Multi-objective runs that record the calls of the evaluator

The functions of `Model/NSGA2Evolution.lean` from the population evaluator upwards, once more, on a state that has a record of
the calls of `evaluate_individual` beside the run.  Everything else is taken from there.  (`C130_same` proves that the record
is all that is added.) -/

namespace Verif.Moo
open PyM
variable {G : Type}

/-- Work on the world, with the record of calls beside it. -/
def beside {α σ : Type} (m : PyM σ α) : PyM (σ × List (Evo.Call G)) α := zoom Prod.fst (fun w x => (w, x.2)) m

/-- Work on the world of a run and the record of calls. -/
def besideM {α : Type} (m : PyM (MWorld G × List (Evo.Call G)) α) : PyM (MRun G × List (Evo.Call G)) α :=
  zoom (fun x => (x.1.w, x.2)) (fun y x => ({ x.1 with w := y.1 }, y.2)) m

/-- `runEvalM`, recorded — simple_individual_evaluator.py:36-39. -/
def mcallEval (c : MSub G) (gen : Nat) (r : Nat) : PyM (MWorld G × List (Evo.Call G)) (List ℚ) := do
  let x ← PyM.get
  modify fun y => (y.1, y.2 ++ [⟨gen, r, x.1.genome r⟩])
  beside (mrand (c.evaluate (x.1.genome r)))

/-- `evaluateM` — simple_population_evaluator.py:57-73. -/
def mcountedMap (c : MSub G) (gen : Nat) (order inds : List Nat) : PyM (MWorld G × List (Evo.Call G)) Nat := do
  let scores ← Evo.executorMap order (mcallEval c gen) inds
  beside do
    forL (fun (p : Nat × List ℚ) => assign p.1 p.2) (inds.zip scores)
    match inds with
    | [] => raise .indexError
    | b :: rest => winner b rest

/-- `mevaluateBody`. -/
def mcountedBody (c : MCfg G) : PyM (MRun G × List (Evo.Call G)) Nat := do
  let is ← beside individuals
  let x ← PyM.get
  besideM (mcountedMap c.sub x.1.genNum (c.sched x.1.genNum is.length) is)

/-- `mevaluate` — population_evaluator.py, event_based_operator.py:24-41. -/
def mcountedPopulation (c : MCfg G) : PyM (MRun G × List (Evo.Call G)) Nat := do
  beside (mpublish "population_evaluator" "before_operator")
  let r ← mcountedBody c
  beside (mpublish "population_evaluator" "after_operator")
  PyM.pure r

/-- `minit` — algorithm.py:212-226. -/
def mcountedInit (c : MCfg G) : PyM (MRun G × List (Evo.Call G)) Unit := do
  let x ← PyM.get
  beside (msetSeed c x.1.randomSeed)
  beside (mcreate c)
  let b ← mcountedPopulation c
  beside (modify fun s => { s with bestOfRun := some b })
  beside (mpublish "algorithm" "init")

/-- `mgeneration` — nsga2_evolution.py:82-104. -/
def mcountedGeneration (c : MCfg G) : PyM (MRun G × List (Evo.Call G)) Unit := do
  beside (mbreed c)
  let _ ← mcountedPopulation c
  beside (msort c)
  beside mfronts

/-- `mloop` — algorithm.py:276-292. -/
def mcountedLoop (c : MCfg G) : (n gen : Nat) → PyM (MRun G × List (Evo.Call G)) Unit
  | 0, _ => PyM.pure ()
  | n + 1, gen => do
    beside (modify fun s => { s with genNum := gen })
    let _ ← beside individuals
    let x ← PyM.get
    beside (msetSeed c (Evo.nextSeed x.1.genSeed))
    beside (modify fun s => { s with genSeed := Evo.nextSeed s.genSeed })
    mcountedGeneration c
    let stop ← beside (mstop c gen)
    if stop then do
      beside (modify fun s => { s with finalGen := some gen })
      beside (mpublish "algorithm" "after_generation")
    else do
      beside (mpublish "algorithm" "after_generation")
      mcountedLoop c n (gen + 1)

/-- `mafterInit` — algorithm.py:180-186. -/
def mcountedAfterInit (c : MCfg G) : PyM (MRun G × List (Evo.Call G)) Unit := do
  let x ← PyM.get
  let stop ← beside (mstop c x.1.genNum)
  if stop then do
    beside (modify fun s => { s with finalGen := some 0 })
    beside (mpublish "algorithm" "after_generation")
  else mcountedLoop c c.maxGen 1

/-- `mevolve`, with a record of the calls of the evaluator — algorithm.py:172-189, nsga2_evolution.py:152-158. -/
def mcountedEvolve (c : MCfg G) : PyM (MRun G × List (Evo.Call G)) Unit := do
  mcountedInit c
  mcountedAfterInit c
  beside (mpublish "algorithm" "evolution_finished")
  beside mfinish

end Verif.Moo
