import Verif.Model.NSGA2
import Verif.Model.Evolution

/-!
# NSGA-II: breeding and the evolutionary loop

`eckity/multi_objective_evolution/nsga2_breeder.py`, `nsga2_evolution.py`, with the methods of `Algorithm`,
`SimpleBreeder`, `GeneticOperator`, `TournamentSelection` and `SimplePopulationEvaluator` they use.

Individuals are references; `fits` and `genome` are their attributes.  The genealogy attributes (`id`,
`cloned_from`, `parents`, `applied_operators`, `selected_by`, `gen`) are left out: they are modelled in
`Model/Individual.lean` and nothing here reads them.  There is one sub-population (the evaluator raises for any
other number); events are recorded by passive observers.
-/

namespace Verif.Moo
open PyM

/-- The individuals created so far and the random generator. -/
structure MWorld (G : Type) where
  fits : Heap
  genome : Nat → G
  next : Nat
  tape : Tape

/-- Computations on the world. -/
abbrev MM (G : Type) := PyM (MWorld G)

variable {G : Type}

/-- Draw from the random generator. -/
def mrand {α : Type} (m : Rand α) : MM G α :=
  zoom (fun w => w.tape) (fun t w => { w with tape := t }) m

/-- Change the fitness object of an individual. -/
def setFit (r : Nat) (f : Fit) : MM G Unit :=
  modify fun w => { w with fits := fun x => if x = r then f else w.fits x }

/-- `ind.fitness.set_not_evaluated()` -/
def resetFit (r : Nat) : MM G Unit := do
  let w ← PyM.get
  setFit r (w.fits r).reset

/-- `Individual.clone` — individual.py:62-68: a new object with a copy of the genome and of the fitness. -/
def cloneM (r : Nat) : MM G Nat := do
  let w ← PyM.get
  PyM.set { w with
    fits := fun x => if x = w.next then (w.fits r).copy else w.fits x
    genome := fun x => if x = w.next then w.genome r else w.genome x
    next := w.next + 1 }
  PyM.pure w.next

/-- A genetic operator: `apply` may modify the individuals and returns individuals (`none` for `None`). -/
structure MOp (G : Type) where
  probability : ℚ
  arity : Nat
  apply : List Nat → MM G (Option (List Nat))

/-- `GeneticOperator.apply_operator` — genetic_operator.py:29-59. -/
def applyOp (o : MOp G) (inds : List Nat) : MM G (List Nat) := do
  let u ← mrand Rand.random
  if u ≤ o.probability then do
    forL resetFit inds
    match ← o.apply inds with
    | none => raise .typeError
    | some res => PyM.pure res
  else PyM.pure inds

/-- The inner loop of `SimpleBreeder._apply_operators` — simple_breeder.py:94-98. -/
def applyChunksM (o : MOp G) : List Nat → List Nat → MM G (List Nat)
  | [], inds => PyM.pure inds
  | i :: is, inds => do
    let res ← applyOp o (Py.slice inds i ((i + o.arity : Nat) : Int))
    applyChunksM o is (Py.setSlice inds i ((i + o.arity : Nat) : Int) res)

/-- `SimpleBreeder._apply_operators` — simple_breeder.py:92-99. -/
def applyOps : List (MOp G) → List Nat → MM G (List Nat)
  | [], inds => PyM.pure inds
  | o :: os, inds => do
    if o.arity = 0 then raise .valueError
    else do
      let inds' ← applyChunksM o (Evo.rangeStep inds.length o.arity) inds
      applyOps os inds'

/-- A selection method: `select(source_inds, dest_inds)` extends `dest_inds` in place and returns it, as all
selection methods of the library do. -/
structure MSel (G : Type) where
  arity : Nat
  select : List Nat → List Nat → MM G (List Nat)

/-- `_pick_tournament_winner`, the loop — tournament_selection.py:82-84. -/
def winner : (w : Nat) → List Nat → MM G Nat
  | w, [] => PyM.pure w
  | w, p :: ps => do
    let s ← PyM.get
    let b ← mrand ((s.fits p).betterThan (s.fits w))
    winner (if b then p else w) ps

/-- `_pick_tournament_winner` — tournament_selection.py:80-87. -/
def pickM (tournament : List Nat) : MM G Nat :=
  match tournament with
  | [] => raise .indexError
  | t :: ts => do
    let w ← winner t ts
    cloneM w

/-- `TournamentSelection.select` — tournament_selection.py:42-78.  A negative number of tournaments means
none. -/
def tournamentM (tournamentSize : Nat) (replace : Bool) (source dest : List Nat) : MM G (List Nat) := do
  if !replace && decide (source.length < tournamentSize) then raise .valueError
  else do
    let tours ← mrand (replicateM (source.length - dest.length)
      (if replace then Rand.choices source tournamentSize else Rand.sample tournamentSize source))
    let winners ← mapL pickM tours
    PyM.pure (dest ++ winners)

/-- What the sub-population is configured with.  `create` yields the initial individuals; `evaluate` is
`evaluate_individual`: it reads the genome, may raise and draw.  Simplification: `higher_is_better` of the
sub-population, used for the direction of the elite sort, is a bool. -/
structure MSub (G : Type) where
  create : MM G (List Nat)
  ops : List (MOp G)
  sels : List (MSel G)
  popSize : Nat
  nElite : Int
  hib : Bool
  evaluate : G → Rand (List ℚ)

/-- `a <= b` for lists of numbers. -/
def lexLe : List ℚ → List ℚ → Bool
  | [], _ => true
  | _ :: _, [] => false
  | a :: as, b :: bs => if a < b then true else if b < a then false else lexLe as bs

/-- The sort keys of `ElitismSelection` — elitism_selection.py:13. -/
def lexKeys (h : Heap) : List Nat → Except Err (List (Nat × List ℚ))
  | [] => .ok []
  | r :: rs => match (h r).pure with
    | .error e => .error e
    | .ok v => match lexKeys h rs with
      | .error e => .error e
      | .ok ks => .ok ((r, v) :: ks)

/-- `ElitismSelection.select` — elitism_selection.py:10-21: the augmented fitness is the list of objectives, so
the order is lexicographic. -/
def elitesM (numElites : Int) (hib : Bool) (source dest : List Nat) : MM G (List Nat) := do
  let w ← PyM.get
  let ks ← ofExcept (lexKeys w.fits source)
  let sorted := (Py.sortBy (fun a b => if hib then lexLe b.2 a.2 else lexLe a.2 b.2) ks).map Prod.fst
  let clones ← mapL cloneM (Py.slice sorted 0 numElites)
  PyM.pure (dest ++ clones)

/-- The elite stage of both breeders — nsga2_breeder.py:30-33, simple_breeder.py:51-61. -/
def eliteStageM (c : MSub G) (inds : List Nat) : MM G (List Nat) :=
  if 0 < c.nElite then elitesM c.nElite c.hib inds [] else PyM.pure []

/-- `NSGA2Breeder._create_next_gen` — nsga2_breeder.py:42-55.  Returns the sub-population's `individuals`, which
the operators replace in place, and the next generation. -/
def createNextGen (c : MSub G) (inds : List Nat) : MM G (List Nat × List Nat) := do
  let old ← mapL cloneM inds
  let new ← applyOps c.ops inds
  forL resetFit (old ++ new)
  PyM.pure (new, old ++ new)

/-- `NSGA2Breeder.apply_breed` — nsga2_breeder.py:11-40.  The elites are thrown away. -/
def nsga2Breed (c : MSub G) (inds : List Nat) : MM G (List Nat) := do
  let _ ← eliteStageM c inds
  let (inds', next) ← createNextGen c inds
  match c.sels with
  | [] => raise .indexError
  | s :: _ => s.select inds' next

/-- `SimpleBreeder.apply_breed` — simple_breeder.py:36-73. -/
def simpleBreed (c : MSub G) (inds : List Nat) : MM G (List Nat) := do
  Evo.checkArities c.popSize (c.sels.map (·.arity) ++ c.ops.map (·.arity))
  let elites ← eliteStageM c inds
  match c.sels with
  | [] => raise .indexError
  | s :: _ => do
    let selected ← s.select inds elites
    applyOps c.ops selected

/-- `evaluate_individual` of an individual. -/
def runEvalM (c : MSub G) (r : Nat) : MM G (List ℚ) := do
  let w ← PyM.get
  mrand (c.evaluate (w.genome r))

/-- `ind.fitness.set_fitness(score)` -/
def assign (r : Nat) (v : List ℚ) : MM G Unit := do
  let w ← PyM.get
  let f ← ofExcept ((w.fits r).set v)
  setFit r f

/-- `SimplePopulationEvaluator._evaluate` with `executor_method="map"` — simple_population_evaluator.py:57-73. -/
def evaluateM (c : MSub G) (order inds : List Nat) : MM G Nat := do
  let scores ← Evo.executorMap order (runEvalM c) inds
  forL (fun (p : Nat × List ℚ) => assign p.1 p.2) (inds.zip scores)
  match inds with
  | [] => raise .indexError
  | b :: rest => winner b rest

/-- `NSGA2FrontSorting.select_for_population(population)` — nsga2_front_sorting.py:17-21, with the default size.
The loop always ends within `fuel` rounds (theorem `C50_terminates`); running out of them is an error here. -/
def sortM (order : Nat → List Nat → List Nat) (inds : List Nat) : MM G (List Nat) := do
  let w ← PyM.get
  match select order (inds.length + 1) w.fits inds [] none with
  | none => raise .runtimeError
  | some (.error e) => raise e
  | some (.ok (h, dest)) => do
    PyM.set { w with fits := h }
    PyM.pure dest

/-- What an observer sees at an event — nsga2_evolution.py:160-178. -/
structure MEvent where
  publisher : String
  name : String
  fits : Heap
  inds : List Nat
  bestOfRun : Option Nat
  bestOfGen : Option (List Nat)
  genNum : Nat

/-- The state of an `NSGA2Evolution` run.  `inds = none`: not created yet. -/
structure MRun (G : Type) where
  w : MWorld G
  inds : Option (List Nat)
  bestOfRun : Option Nat
  bestOfGen : Option (List Nat)
  genNum : Nat
  randomSeed : Nat
  genSeed : Nat
  finalGen : Option Nat
  log : List MEvent

/-- Configuration of a run.  `nsga2Breeder = false` is the default breeder, a `SimpleBreeder` —
nsga2_evolution.py:23.  `setOrder gen` is the iteration order of the sets of that generation's sorting, `sched`
that of the workers. -/
structure MCfg (G : Type) where
  sub : MSub G
  nsga2Breeder : Bool
  stream : Nat → Tape
  maxGen : Nat
  checker : (heap : Heap) → (inds : List Nat) → (best : Option Nat) → (gen : Nat) → Except Err Bool
  sched : Nat → Nat → List Nat
  setOrder : Nat → Nat → List Nat → List Nat

/-- Computations of the algorithm. -/
abbrev MRM (G : Type) := PyM (MRun G)

/-- Work on the world. -/
def mworld {α : Type} (m : MM G α) : MRM G α :=
  zoom (fun s => s.w) (fun w s => { s with w := w }) m

/-- `publish(event)`. -/
def mpublish (publisher name : String) : MRM G Unit :=
  modify fun s => { s with log := s.log ++ [⟨publisher, name, s.w.fits, s.inds.getD [], s.bestOfRun, s.bestOfGen, s.genNum⟩] }

/-- `Operator.act` — event_based_operator.py:24-41 and before_after_publisher.py:40-44. -/
def mact {α : Type} (publisher : String) (m : MRM G α) : MRM G α := do
  mpublish publisher "before_operator"
  let r ← m
  mpublish publisher "after_operator"
  PyM.pure r

/-- Seed the generators. -/
def msetSeed (c : MCfg G) (seed : Nat) : MRM G Unit :=
  modify fun s => { s with w := { s.w with tape := c.stream seed } }

/-- The individuals; `None` is not iterable. -/
def individuals : MRM G (List Nat) := do
  let s ← PyM.get
  match s.inds with
  | none => raise .typeError
  | some is => PyM.pure is

/-- The work of the population evaluator. -/
def mevaluateBody (c : MCfg G) : MRM G Nat := do
  let is ← individuals
  let s ← PyM.get
  mworld (evaluateM c.sub (c.sched s.genNum is.length) is)

/-- `population_evaluator.act(population)` — population_evaluator.py, event_based_operator.py:24-41. -/
def mevaluate (c : MCfg G) : MRM G Nat := mact "population_evaluator" (mevaluateBody c)

/-- `create_subpopulation_individuals` — subpopulation.py:140-151. -/
def mcreate (c : MCfg G) : MRM G Unit := do
  let s ← PyM.get
  match s.inds with
  | some _ => PyM.pure ()
  | none => do
    let is ← mworld c.sub.create
    modify fun s => { s with inds := some is }

/-- `Algorithm.initialize` — algorithm.py:212-226. -/
def minit (c : MCfg G) : MRM G Unit := do
  let s ← PyM.get
  msetSeed c s.randomSeed
  mcreate c
  let b ← mevaluate c
  modify fun s => { s with bestOfRun := some b }
  mpublish "algorithm" "init"

/-- The work of the breeder. -/
def mbreedBody (c : MCfg G) : MRM G Unit := do
  let is ← individuals
  let is' ← mworld (if c.nsga2Breeder then nsga2Breed c.sub is else simpleBreed c.sub is)
  modify fun s => { s with inds := some is' }

/-- `self.breeder.breed(self.population)` — breeder.py:23-34. -/
def mbreed (c : MCfg G) : MRM G Unit := mact "breeder" (mbreedBody c)

/-- `self.NSGA2FrontSorting.select_for_population(self.population)` -/
def msort (c : MCfg G) : MRM G Unit := do
  let is ← individuals
  let s ← PyM.get
  let is' ← mworld (sortM (c.setOrder s.genNum) is)
  modify fun s => { s with inds := some is' }

/-- `_get_pareto_fronts` — nsga2_evolution.py:106-120. -/
def mfronts : MRM G Unit := do
  let is ← individuals
  modify fun s => { s with bestOfGen := some (is.filter fun r => decide ((s.w.fits r).rank = some 1)) }

/-- `NSGA2Evolution.generation_iteration` — nsga2_evolution.py:82-104. -/
def mgeneration (c : MCfg G) : MRM G Unit := do
  mbreed c
  let _ ← mevaluate c
  msort c
  mfronts

/-- `should_terminate` — algorithm.py:401-421, with one checker. -/
def mstop (c : MCfg G) (gen : Nat) : MRM G Bool := do
  let s ← PyM.get
  ofExcept (c.checker s.w.fits (s.inds.getD []) s.bestOfRun gen)

/-- `Algorithm.evolve_main_loop` — algorithm.py:276-292.  `n` generations are left, `gen` is the next one.
(`update_gen` only sets `gen` attributes; iterating over `None` is a `TypeError`.) -/
def mloop (c : MCfg G) : (n gen : Nat) → MRM G Unit
  | 0, _ => PyM.pure ()
  | n + 1, gen => do
    modify fun s => { s with genNum := gen }
    let _ ← individuals
    let s ← PyM.get
    msetSeed c (Evo.nextSeed s.genSeed)
    modify fun s => { s with genSeed := Evo.nextSeed s.genSeed }
    mgeneration c
    let stop ← mstop c gen
    if stop then do
      modify fun s => { s with finalGen := some gen }
      mpublish "algorithm" "after_generation"
    else do
      mpublish "algorithm" "after_generation"
      mloop c n (gen + 1)

/-- `Algorithm.evolve` after `initialize` — algorithm.py:180-186. -/
def mafterInit (c : MCfg G) : MRM G Unit := do
  let s ← PyM.get
  let stop ← mstop c s.genNum
  if stop then do
    modify fun s => { s with finalGen := some 0 }
    mpublish "algorithm" "after_generation"
  else mloop c c.maxGen 1

/-- `NSGA2Evolution.finish` — nsga2_evolution.py:152-158: show the best individual and its fitness. -/
def mfinish : MRM G Unit := do
  let s ← PyM.get
  match s.bestOfRun with
  | none => raise .attributeError
  | some r => do
    let _ ← ofExcept (s.w.fits r).pure
    PyM.pure ()

/-- `Algorithm.evolve` — algorithm.py:172-189. -/
def mevolve (c : MCfg G) : MRM G Unit := do
  minit c
  mafterInit c
  mpublish "algorithm" "evolution_finished"
  mfinish

/-- `ThresholdFromTargetTerminationChecker(threshold=0).should_terminate`, the default checker of
`NSGA2Evolution` (nsga2_evolution.py:29) — threshold_from_target_termination_checker.py:26-47.  The fitness is a
list, from which no number can be subtracted. -/
def defaultChecker (heap : Heap) (_ : List Nat) (best : Option Nat) (_ : Nat) : Except Err Bool :=
  match best with
  | none => .error .attributeError
  | some r => match (heap r).pure with
    | .error e => .error e
    | .ok _ => .error .typeError

end Verif.Moo
