import Verif.Model.Selection

/-! # Breeding, evaluation and the evolutionary loop

`SimpleBreeder`, `SimplePopulationEvaluator`, `Algorithm`, `SimpleEvolution`.  Events are published to
an observer that records, for every event of the algorithm, a snapshot of everything it can see. -/

namespace Verif.Evo
open PyM
variable {G κ : Type}

/-- What a `Subpopulation` object is configured with — subpopulation.py:122-138.  The probabilities of
the selection methods are never used.  `evaluate` is the `evaluate_individual` method of the
subpopulation's `SimpleIndividualEvaluator`: it may raise and may draw random numbers.  Simplification:
it reads the genome only and does not modify the individual. -/
structure SubCfg (G : Type) where
  /-- `create_individuals(n_individuals, higher_is_better)` of each creator. -/
  creators : List (Nat → Bool → WM G (List Nat))
  /-- `random.choices(creators, weights=pcr)[0]`, as the index drawn. -/
  pick : Rand Nat
  ops : List (Op G)
  sels : List (Sel G)
  popSize : Nat
  nElite : Int
  hib : Bool
  evaluate : G → Rand ℚ

/-- `range(0, n, step)` for a positive step. -/
def rangeStep (n step : Nat) : List Nat :=
  (List.range ((n + step - 1) / step)).map (· * step)

/-- The inner loop of `SimpleBreeder._apply_operators` — simple_breeder.py:94-98. -/
def applyChunks (o : Op G) : List Nat → List Nat → WM G (List Nat)
  | [], inds => pure inds
  | i :: is, inds => do
    let res ← applyOperator o (Py.slice inds i ((i + o.arity : Nat) : Int))
    applyChunks o is (Py.setSlice inds i ((i + o.arity : Nat) : Int) res)

/-- `SimpleBreeder._apply_operators` — simple_breeder.py:92-99.  `range` with step 0 is a
`ValueError`. -/
def applyOperators : List (Op G) → List Nat → WM G (List Nat)
  | [], inds => pure inds
  | o :: os, inds => do
    if o.arity = 0 then raise .valueError
    else do
      let inds' ← applyChunks o (rangeStep inds.length o.arity) inds
      applyOperators os inds'

/-- The arity check of `SimpleBreeder.apply_breed` — simple_breeder.py:44-49. -/
def checkArities {σ : Type} (popSize : Nat) : List Nat → PyM σ Unit
  | [] => pure ()
  | a :: as =>
    if a = 0 then raise .zeroDivisionError
    else if popSize % a ≠ 0 then raise .valueError
    else checkArities popSize as

/-- The elites — simple_breeder.py:51-61. -/
def eliteStage (size : G → Nat) (c : SubCfg G) (inds : List Nat) : WM G (List Nat) :=
  if 0 < c.nElite then elitismSelect size c.nElite c.hib inds [] else pure []

/-- Elitism and selection — simple_breeder.py:51-65. -/
def selectStage (size : G → Nat) (c : SubCfg G) (inds : List Nat) : WM G (List Nat) := do
  let next ← eliteStage size c inds
  match c.sels with
  | [] => raise .indexError
  | s :: _ => s.select inds next

/-- `SimpleBreeder.apply_breed` for one sub-population — simple_breeder.py:36-73.  Returns the new
`individuals`. -/
def breedSub (size : G → Nat) (c : SubCfg G) (inds : List Nat) : WM G (List Nat) := do
  checkArities c.popSize (c.sels.map (·.arity) ++ c.ops.map (·.arity))
  let selected ← selectStage size c inds
  applyOperators c.ops selected

/-! ## Evaluation -/

/-- Look up the result of task `i`. -/
def lookupResult {σ α : Type} (rs : List (Nat × α)) (i : Nat) : PyM σ α :=
  match rs.find? (fun p => p.1 == i) with
  | some p => pure p.2
  | none => raise .runtimeError

/-- Run task number `i`: `task` on the individual at position `i`. -/
def runTask {σ α : Type} (task : Nat → PyM σ α) (refs : List Nat) (i : Nat) : PyM σ (Nat × α) :=
  match refs[i]? with
  | none => raise .indexError
  | some r => do
    let v ← task r
    pure (i, v)

/-- `executor.map(f, refs)`: one task per individual, run in the order `order` (a permutation of the
positions, any order the workers may follow), results delivered by position.  Simplifications: tasks are
atomic; an exception aborts at once. -/
def executorMap {σ α : Type} (order : List Nat) (task : Nat → PyM σ α) (refs : List Nat) :
    PyM σ (List α) := do
  let rs ← mapL (runTask task refs) order
  mapL (lookupResult rs) (List.range refs.length)

/-- The loop of `SimplePopulationEvaluator._evaluate` that finds the best individual —
simple_population_evaluator.py:68-71. -/
def bestLoop (size : G → Nat) : (best : Nat) → List Nat → WM G Nat
  | b, [] => pure b
  | b, i :: is => do
    let better ← reading fun h => betterOf size h i (some b)
    bestLoop size (if better then i else b) is

/-- `evaluate_individual` of the individual at `r`. -/
def runEval (c : SubCfg G) (r : Nat) : WM G ℚ := do
  let i ← deref r
  rand (c.evaluate i.genome)

/-- `SimplePopulationEvaluator._evaluate` on the single sub-population with `executor_method="map"` —
simple_population_evaluator.py:57-73. -/
def evaluateMap (size : G → Nat) (c : SubCfg G) (order : List Nat) (inds : List Nat) :
    WM G Nat := do
  let scores ← executorMap order (runEval c) inds
  forL (fun (p : Nat × ℚ) => setFitness p.1 (.num p.2)) (inds.zip scores)
  match inds with
  | [] => raise .indexError
  | b :: rest => bestLoop size b rest

/-- The same with `executor_method="submit"` — simple_population_evaluator.py:49-56, 61-73: the task is
`evaluate`, which stores the score and returns *the individual* (simple_individual_evaluator.py:36-39);
the loop then stores that individual as the fitness value.  (Thread executor: tasks share objects.) -/
def evaluateSubmit (size : G → Nat) (c : SubCfg G) (order : List Nat) (inds : List Nat) :
    WM G Nat := do
  let results ← executorMap order (fun r => do
    let v ← runEval c r
    setFitness r (.num v)
    pure r) inds
  forL (fun (p : Nat × Nat) => setFitness p.1 (.obj p.2)) (inds.zip results)
  match inds with
  | [] => raise .indexError
  | b :: rest => bestLoop size b rest

/-! ## The algorithm -/

/-- What an observer sees when the algorithm publishes an event — simple_evolution.py:235-254. -/
structure Snapshot (G : Type) where
  heap : List (Ind G)
  inds : List (Option (List Nat))
  bestOfRun : Option Nat
  bestOfGen : Option Nat
  genNum : Nat
  genSeed : Nat

/-- A published event: the publisher, the event name, what could be seen. -/
structure Event (G : Type) where
  publisher : String
  name : String
  snap : Snapshot G

/-- The state of a `SimpleEvolution` run: the world, the `individuals` of each sub-population, the
attributes of the algorithm, the states of the termination checkers, and what the observer recorded. -/
structure Run (G κ : Type) where
  w : World G
  inds : List (Option (List Nat))
  bestOfRun : Option Nat
  bestOfGen : Option Nat
  worstOfGen : Option Nat
  genNum : Nat
  randomSeed : Nat
  genSeed : Nat
  finalGen : Option Nat
  checkers : List κ
  shutdown : Bool
  log : List (Event G)

/-- A termination checker: `should_terminate(population, best_individual, gen_number)`, with the state
of the checker object. -/
abbrev Checker (G κ : Type) :=
  κ → (heap : List (Ind G)) → (inds : List (Option (List Nat))) → (best : Option Nat) → (gen : Nat) →
    Except Err Bool × κ

/-- The `termination_checker` argument: none, one, or a list — algorithm.py:401-421. -/
inductive Checkers (G κ : Type)
  | none
  | one (c : Checker G κ)
  | many (cs : List (Checker G κ))

/-- Configuration of a run.  `stream seed` is the output of the generators after `set_seed(seed)`
(random/rng.py:23-34; both modules are one tape here).  `sched gen n` is the order in which the workers
happen to run the `n` evaluation tasks of generation `gen`. -/
structure Cfg (G κ : Type) where
  size : G → Nat
  subs : List (SubCfg G)
  stream : Nat → Tape
  maxGen : Nat
  checker : Checkers G κ
  sched : Nat → Nat → List Nat
  submit : Bool

/-- Computations of the algorithm. -/
abbrev RM (G κ : Type) := PyM (Run G κ)

/-- Work on the world. -/
def world {α : Type} (m : WM G α) : RM G κ α :=
  zoom (fun s => s.w) (fun w s => { s with w := w }) m

/-- What can be seen of a run. -/
def Run.snapshot (s : Run G κ) : Snapshot G :=
  ⟨s.w.heap, s.inds, s.bestOfRun, s.bestOfGen, s.genNum, s.genSeed⟩

/-- `publish(event)` — before_after_publisher.py:32-35.  Observers are passive. -/
def publish (publisher name : String) : RM G κ Unit :=
  modify fun s => { s with log := s.log ++ [⟨publisher, name, s.snapshot⟩] }

/-- `Operator.act` — event_based_operator.py:24-41 and before_after_publisher.py:40-44. -/
def act {α : Type} (publisher : String) (m : RM G κ α) : RM G κ α := do
  publish publisher "before_operator"
  let r ← m
  publish publisher "after_operator"
  pure r

/-- `set_random_seed` / `set_generation_seed`: seed the generators — rng.py:23-34. -/
def setSeed (c : Cfg G κ) (seed : Nat) : RM G κ Unit :=
  modify fun s => { s with w := { s.w with tape := c.stream seed } }

/-- `Subpopulation.create_subpopulation_individuals` — subpopulation.py:140-151. -/
def createSub (c : SubCfg G) : Option (List Nat) → WM G (Option (List Nat))
  | some is => pure (some is)
  | none => do
    let k ← rand c.pick
    match c.creators[k]? with
    | none => raise .indexError
    | some create => do
      let is ← create c.popSize c.hib
      pure (some is)

/-- `Population.create_population_individuals` — population.py:15-17. -/
def createPopulation (c : Cfg G κ) : RM G κ Unit := do
  let s ← PyM.get
  let is ← world (mapL (fun (p : SubCfg G × Option (List Nat)) => createSub p.1 p.2)
    (c.subs.zip s.inds))
  modify fun s => { s with inds := is }

/-- `SimplePopulationEvaluator._evaluate(population)` — simple_population_evaluator.py:23-73: exactly one
sub-population; submitting to an executor that was shut down is a `RuntimeError`; iterating over
`individuals = None` is a `TypeError`. -/
def evaluateBody (c : Cfg G κ) : RM G κ Nat := do
  let s ← PyM.get
  match c.subs, s.inds with
  | [sub], [some is] =>
    if s.shutdown && !is.isEmpty then raise .runtimeError
    else world (if c.submit then evaluateSubmit c.size sub (c.sched s.genNum is.length) is
                else evaluateMap c.size sub (c.sched s.genNum is.length) is)
  | [_], [none] => raise .typeError
  | _, _ => raise .valueError

/-- `population_evaluator.act(population)` — population_evaluator.py, event_based_operator.py:24-41. -/
def evaluatePopulation (c : Cfg G κ) : RM G κ Nat := act "population_evaluator" (evaluateBody c)

/-- `Breeder.breed` / `SimpleBreeder.apply_breed` — breeder.py:23-42, simple_breeder.py:35-73. -/
def breedAll (size : G → Nat) : List (SubCfg G × Option (List Nat)) →
    WM G (List (Option (List Nat)))
  | [] => pure []
  | (_, none) :: _ => raise .typeError
  | (c, some is) :: rest => do
    let is' ← breedSub size c is
    let rest' ← breedAll size rest
    pure (some is' :: rest')

/-- The body of `Breeder.breed(population)`.  (Between sub-populations Python has already replaced the
earlier ones; the replacement is done at the end here, which makes a difference only if an exception is
raised.) -/
def breedBody (c : Cfg G κ) : RM G κ Unit := do
  let s ← PyM.get
  let is ← world (breedAll c.size (c.subs.zip s.inds))
  modify fun s => { s with inds := is }

/-- `Breeder.breed(population)` — breeder.py:23-34. -/
def breed (c : Cfg G κ) : RM G κ Unit := act "breeder" (breedBody c)

/-- `Algorithm.initialize` — algorithm.py:212-226 (and simple_evolution.py:159-167: registering the
statistics, which are passive observers).  `initialize()` of the operators does nothing. -/
def initRun (c : Cfg G κ) : RM G κ Unit := do
  let s ← PyM.get
  setSeed c s.randomSeed
  createPopulation c
  let b ← evaluatePopulation c
  modify fun s => { s with bestOfRun := some b }
  publish "algorithm" "init"

/-- Consult the checkers of a list one after the other, collecting all answers — the list
comprehension of algorithm.py:410-417 (the list is built before `any` looks at it). -/
def consult (heap : List (Ind G)) (inds : List (Option (List Nat))) (best : Option Nat) (gen : Nat) :
    List (Checker G κ) → List κ → Except Err (List Bool) × List κ
  | c :: cs, k :: ks =>
    match c k heap inds best gen with
    | (.error e, k') => (.error e, k' :: ks)
    | (.ok b, k') =>
      match consult heap inds best gen cs ks with
      | (.error e, ks') => (.error e, k' :: ks')
      | (.ok bs, ks') => (.ok (b :: bs), k' :: ks')
  | _, ks => (.ok [], ks)

/-- `Algorithm.should_terminate` — algorithm.py:401-421. -/
def shouldTerminate (c : Cfg G κ) (gen : Nat) : RM G κ Bool := fun s =>
  match c.checker with
  | .none => (.ok false, s)
  | .one t =>
    match s.checkers with
    | k :: ks =>
      match t k s.w.heap s.inds s.bestOfRun gen with
      | (r, k') => (r, { s with checkers := k' :: ks })
    | [] => (.error .attributeError, s)
  | .many ts =>
    match consult s.w.heap s.inds s.bestOfRun gen ts s.checkers with
    | (.error e, ks) => (.error e, { s with checkers := ks })
    | (.ok bs, ks) => (.ok (bs.any id), { s with checkers := ks })

/-- `Algorithm.update_gen` — algorithm.py:294-305. -/
def updateGen (gen : Nat) : RM G κ Unit := do
  let s ← PyM.get
  forL (fun (is : Option (List Nat)) =>
    match is with
    | none => raise .typeError
    | some is => world (forL (fun r => update r fun i => { i with gen := gen }) is)) s.inds

/-- `Algorithm.next_seed` — algorithm.py:390-399. -/
def nextSeed (seed : Nat) : Nat := (seed + 1) % 2 ^ 32

/-- The update of `best_of_run_` — simple_evolution.py:192-193. -/
def recordBest (c : Cfg G κ) (b : Nat) : RM G κ Unit := do
  let s ← PyM.get
  let better ← world (reading fun h => betterOf c.size h b s.bestOfRun)
  if better then modify fun s => { s with bestOfRun := some b } else pure ()

/-- The update of `worst_of_gen` — simple_evolution.py:195-197. -/
def recordWorst (c : Cfg G κ) : RM G κ Unit := do
  let s ← PyM.get
  match c.subs, s.inds with
  | sub :: _, some is :: _ => do
    let w ← world (reading fun h => worstIndividual c.size h sub.hib is)
    modify fun s => { s with worstOfGen := some w }
  | _, _ => raise .indexError

/-- `SimpleEvolution.generation_iteration` — simple_evolution.py:169-197. -/
def generationIteration (c : Cfg G κ) : RM G κ Unit := do
  breed c
  let b ← evaluatePopulation c
  modify fun s => { s with bestOfGen := some b }
  recordBest c b
  recordWorst c

/-- `Algorithm.evolve_main_loop` — algorithm.py:276-292.  `n` generations are left, `gen` is the next
one. -/
def mainLoop (c : Cfg G κ) : (n gen : Nat) → RM G κ Unit
  | 0, _ => pure ()
  | n + 1, gen => do
    modify fun s => { s with genNum := gen }
    updateGen gen
    let s ← PyM.get
    setSeed c (nextSeed s.genSeed)
    modify fun s => { s with genSeed := nextSeed s.genSeed }
    generationIteration c
    let stop ← shouldTerminate c gen
    if stop then do
      modify fun s => { s with finalGen := some gen }
      publish "algorithm" "after_generation"
    else do
      publish "algorithm" "after_generation"
      mainLoop c n (gen + 1)

/-- The part of `Algorithm.evolve` between `initialize` and `evolution_finished` — algorithm.py:180-186. -/
def afterInit (c : Cfg G κ) : RM G κ Unit := do
  let s ← PyM.get
  let stop ← shouldTerminate c s.genNum
  if stop then do
    modify fun s => { s with finalGen := some 0 }
    publish "algorithm" "after_generation"
  else mainLoop c c.maxGen 1

/-- `Algorithm.evolve` — algorithm.py:172-189, `SimpleEvolution.finish` — simple_evolution.py:219-225
(shut the executor down, show the best individual). -/
def evolve (c : Cfg G κ) : RM G κ Unit := do
  initRun c
  afterInit c
  publish "algorithm" "evolution_finished"
  modify fun s => { s with shutdown := true }

end Verif.Evo
