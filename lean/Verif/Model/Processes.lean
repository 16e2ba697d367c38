import Verif.Model.NSGA2Evolution

/-!
# Runs with a process executor

`executor="process"` (algorithm.py:153-162): the calls of `evaluate_individual` are made in other processes, on copies of the
evaluator and of the individuals, and with the random generators of those processes.  Everything else is as in
`Model/Evolution` and `Model/NSGA2Evolution`.

Simplifications: the evaluator and the individuals can be pickled; `executor_method="map"` only (with `"submit"` copies of the
individuals come back; see `C34` and `C149` for what becomes of that method); evaluators keep no state of their own.
-/

namespace Verif.Evo
open PyM
variable {G κ : Type}

/-- `evaluate_individual` in another process: `own r` is the state of the random generator there when the task for the
individual at `r` begins, whatever it may be.  The generator of the run is not touched — simple_population_evaluator.py:57-60. -/
def procEval (c : SubCfg G) (own : Nat → Tape) (r : Nat) : WM G ℚ := do
  let i ← deref r
  PyM.ofExcept (c.evaluate i.genome (own r)).1

/-- `evaluateMap` with a process executor — simple_population_evaluator.py:57-73. -/
def procMap (size : G → Nat) (c : SubCfg G) (own : Nat → Tape) (order : List Nat) (inds : List Nat) : WM G Nat := do
  let scores ← executorMap order (procEval c own) inds
  forL (fun (p : Nat × ℚ) => setFitness p.1 (.num p.2)) (inds.zip scores)
  match inds with
  | [] => raise .indexError
  | b :: rest => bestLoop size b rest

/-- `evaluateBody` with a process executor — simple_population_evaluator.py:23-73; `own g` is `own` in generation `g`. -/
def procBody (c : Cfg G κ) (own : Nat → Nat → Tape) : RM G κ Nat := do
  let s ← PyM.get
  match c.subs, s.inds with
  | [sub], [some is] =>
    if s.shutdown && !is.isEmpty then raise .runtimeError
    else world (procMap c.size sub (own s.genNum) (c.sched s.genNum is.length) is)
  | [_], [none] => raise .typeError
  | _, _ => raise .valueError

/-- `initRun`, with the population evaluator's `_evaluate` as a parameter — algorithm.py:212-226. -/
def initBy (body : RM G κ Nat) (c : Cfg G κ) : RM G κ Unit := do
  let s ← PyM.get
  setSeed c s.randomSeed
  createPopulation c
  let b ← act "population_evaluator" body
  modify fun s => { s with bestOfRun := some b }
  publish "algorithm" "init"

/-- `generationIteration` — simple_evolution.py:169-197. -/
def generationBy (body : RM G κ Nat) (c : Cfg G κ) : RM G κ Unit := do
  breed c
  let b ← act "population_evaluator" body
  modify fun s => { s with bestOfGen := some b }
  recordBest c b
  recordWorst c

/-- `mainLoop` — algorithm.py:276-292. -/
def loopBy (body : RM G κ Nat) (c : Cfg G κ) : (n gen : Nat) → RM G κ Unit
  | 0, _ => pure ()
  | n + 1, gen => do
    modify fun s => { s with genNum := gen }
    updateGen gen
    let s ← PyM.get
    setSeed c (nextSeed s.genSeed)
    modify fun s => { s with genSeed := nextSeed s.genSeed }
    generationBy body c
    let stop ← shouldTerminate c gen
    if stop then do
      modify fun s => { s with finalGen := some gen }
      publish "algorithm" "after_generation"
    else do
      publish "algorithm" "after_generation"
      loopBy body c n (gen + 1)

/-- `afterInit` — algorithm.py:180-186. -/
def afterInitBy (body : RM G κ Nat) (c : Cfg G κ) : RM G κ Unit := do
  let s ← PyM.get
  let stop ← shouldTerminate c s.genNum
  if stop then do
    modify fun s => { s with finalGen := some 0 }
    publish "algorithm" "after_generation"
  else loopBy body c c.maxGen 1

/-- `evolve` — algorithm.py:172-189, simple_evolution.py:219-225. -/
def evolveBy (body : RM G κ Nat) (c : Cfg G κ) : RM G κ Unit := do
  initBy body c
  afterInitBy body c
  publish "algorithm" "evolution_finished"
  modify fun s => { s with shutdown := true }

/-- A run with `executor="process"`. -/
def procEvolve (c : Cfg G κ) (own : Nat → Nat → Tape) : RM G κ Unit := evolveBy (procBody c own) c

end Verif.Evo

namespace Verif.Moo
open PyM
variable {G : Type}

/-- `evaluate_individual` in another process. -/
def procEvalM (c : MSub G) (own : Nat → Tape) (r : Nat) : MM G (List ℚ) := do
  let w ← PyM.get
  PyM.ofExcept (c.evaluate (w.genome r) (own r)).1

/-- `mevaluateBody` with a process executor — simple_population_evaluator.py:57-73. -/
def mprocBody (c : MCfg G) (own : Nat → Nat → Tape) : MRM G Nat := do
  let is ← individuals
  let s ← PyM.get
  mworld (do
    let scores ← Evo.executorMap (c.sched s.genNum is.length) (procEvalM c.sub (own s.genNum)) is
    forL (fun (p : Nat × List ℚ) => assign p.1 p.2) (is.zip scores)
    match is with
    | [] => raise .indexError
    | b :: rest => winner b rest)

/-- `minit` — algorithm.py:212-226. -/
def minitBy (body : MRM G Nat) (c : MCfg G) : MRM G Unit := do
  let s ← PyM.get
  msetSeed c s.randomSeed
  mcreate c
  let b ← mact "population_evaluator" body
  modify fun s => { s with bestOfRun := some b }
  mpublish "algorithm" "init"

/-- `mgeneration` — nsga2_evolution.py:82-104. -/
def mgenerationBy (body : MRM G Nat) (c : MCfg G) : MRM G Unit := do
  mbreed c
  let _ ← mact "population_evaluator" body
  msort c
  mfronts

/-- `mloop` — algorithm.py:276-292. -/
def mloopBy (body : MRM G Nat) (c : MCfg G) : (n gen : Nat) → MRM G Unit
  | 0, _ => PyM.pure ()
  | n + 1, gen => do
    modify fun s => { s with genNum := gen }
    let _ ← individuals
    let s ← PyM.get
    msetSeed c (Evo.nextSeed s.genSeed)
    modify fun s => { s with genSeed := Evo.nextSeed s.genSeed }
    mgenerationBy body c
    let stop ← mstop c gen
    if stop then do
      modify fun s => { s with finalGen := some gen }
      mpublish "algorithm" "after_generation"
    else do
      mpublish "algorithm" "after_generation"
      mloopBy body c n (gen + 1)

/-- `mafterInit` — algorithm.py:180-186. -/
def mafterInitBy (body : MRM G Nat) (c : MCfg G) : MRM G Unit := do
  let s ← PyM.get
  let stop ← mstop c s.genNum
  if stop then do
    modify fun s => { s with finalGen := some 0 }
    mpublish "algorithm" "after_generation"
  else mloopBy body c c.maxGen 1

/-- `mevolve` — algorithm.py:172-189, nsga2_evolution.py:152-158. -/
def mevolveBy (body : MRM G Nat) (c : MCfg G) : MRM G Unit := do
  minitBy body c
  mafterInitBy body c
  mpublish "algorithm" "evolution_finished"
  mfinish

/-- A run of NSGA-II with `executor="process"`. -/
def mprocEvolve (c : MCfg G) (own : Nat → Nat → Tape) : MRM G Unit := mevolveBy (mprocBody c own) c

end Verif.Moo
