import Verif.Model.Evolution

/-!
# Constructing a `SimpleEvolution` or an `NSGA2Evolution`

`SimpleEvolution.__init__` — simple_evolution.py:84-157 — and `Algorithm.__init__`, `_validate_population_type`,
`_validate_statistics_type` — algorithm.py:100-163, 228-274.  Arguments are classified by the `isinstance` tests
that the constructors make.  Left out: `events` and `event_names` (see `Model.Publisher`), the termination checker,
`max_workers` and the initial values of `best_of_run_` etc., none of which is validated; constructing the executor
itself (`ThreadPoolExecutor(max_workers)` raises for `max_workers ≤ 0`).
-/

namespace Verif.Construction

/-- The argument `population`; `S` are the `Subpopulation` objects, `none` in a list is an object of another class. -/
inductive PopArg (S : Type)
  | none
  | population (subs : List S)
  | sub (s : S)
  | list (xs : List (Option S))
  | other

/-- The argument `statistics`; `T` are the `Statistics` objects. -/
inductive StatArg (T : Type)
  | none
  | stat (t : T)
  | list (xs : List (Option T))
  | other

/-- The arguments `breeder` and `population_evaluator`: `None`, an object of the required class
(also the default breeder, if the argument is omitted), another one. -/
inductive PartArg (P : Type)
  | none
  | simple (p : P)
  | other

/-- The constructor's arguments, and the digits of the clock (`int(pre_dec_pnt + post_dec_pnt)`). -/
structure Args (S T B E : Type) where
  population : PopArg S
  statistics : StatArg T
  breeder : PartArg B
  evaluator : PartArg E
  executor : String
  randomSeed : Option Nat
  generationSeed : Option Nat
  clock : Nat

/-- The attributes set. -/
structure Alg (S T B E : Type) where
  subs : List S
  statistics : List T
  breeder : B
  evaluator : E
  executor : String
  randomSeed : Nat
  generationSeed : Nat
  deriving DecidableEq

variable {S T B E : Type}

/-- The loops `for sub_pop in population: if not isinstance(...): raise ValueError`. -/
def instances {X : Type} : List (Option X) → Except Err (List X)
  | [] => .ok []
  | none :: _ => .error .valueError
  | some x :: xs =>
    match instances xs with
    | .ok ys => .ok (x :: ys)
    | .error e => .error e

/-- `_validate_population_type(population)` — algorithm.py:228-254.  A `Population` object is not looked into. -/
def validatePopulation : PopArg S → Except Err (List S)
  | .none => .error .valueError
  | .population subs => .ok subs
  | .sub s => .ok [s]
  | .list xs => if xs.length = 0 then .error .valueError else instances xs
  | .other => .error .valueError

/-- `_validate_statistics_type(statistics)` — algorithm.py:256-274; `None` is no list. -/
def validateStatistics : StatArg T → Except Err (List T)
  | .none => .error .valueError
  | .stat t => .ok [t]
  | .list xs => instances xs
  | .other => .error .valueError

/-- The seeds — algorithm.py:135-147. -/
def seeds (random generation : Option Nat) (clock : Nat) : Nat × Nat :=
  let r := match random with
    | none => clock % 2 ^ 32
    | some r => r
  (r, match generation with
    | none => r
    | some g => g)

/-- `Algorithm.__init__` — algorithm.py:100-163, with the breeder and the evaluator as given. -/
def algorithmInit (a : Args S T B E) (stats : StatArg T) (b : B) (e : E) : Except Err (Alg S T B E) :=
  match validatePopulation a.population with
  | .error x => .error x
  | .ok subs =>
    match validateStatistics stats with
    | .error x => .error x
    | .ok ss =>
      let (r, g) := seeds a.randomSeed a.generationSeed a.clock
      if a.executor = "thread" then .ok ⟨subs, ss, b, e, a.executor, r, g⟩
      else if a.executor = "process" then .ok ⟨subs, ss, b, e, a.executor, r, g⟩
      else .error .valueError

/-- `if statistics is None: statistics = []` — simple_evolution.py:115-116. -/
def StatArg.orEmpty : StatArg T → StatArg T
  | .none => .list []
  | st => st

/-- `if breeder is None: breeder = SimpleBreeder()`, the same for the evaluator — simple_evolution.py:118-122. -/
def PartArg.orNew {P : Type} (new : P) : PartArg P → PartArg P
  | .none => .simple new
  | p => p

/-- `SimpleEvolution.__init__` — simple_evolution.py:84-157; `newB` and `newE` are the objects made by
`SimpleBreeder()` and `SimplePopulationEvaluator()`. -/
def simpleEvolutionInit (newB : B) (newE : E) (a : Args S T B E) : Except Err (Alg S T B E) :=
  match a.breeder.orNew newB with
  | .simple b =>
    match a.evaluator.orNew newE with
    | .simple e => algorithmInit a a.statistics.orEmpty b e
    | _ => .error .valueError
  | _ => .error .valueError

/-- `NSGA2Evolution.__init__` — nsga2_evolution.py:19-79: `None` statistics are none; the rest goes to `Algorithm.__init__`
as it is.  Neither the breeder nor the evaluator is looked at, so that the attributes are the arguments; a breeder or evaluator
that is left out is the default object of line 23 or 24, a `simple` one. -/
def nsga2Init (a : Args S T B E) : Except Err (Alg S T (PartArg B) (PartArg E)) :=
  algorithmInit ⟨a.population, a.statistics, .simple a.breeder, .simple a.evaluator, a.executor, a.randomSeed, a.generationSeed, a.clock⟩
    a.statistics.orEmpty a.breeder a.evaluator

end Verif.Construction
