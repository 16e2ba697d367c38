import Verif.Model.NSGA2Evolution

/-! # Lists of termination checkers in NSGA-II

`Algorithm` accepts one termination checker, a list of them, or `None`.  In `Verif.Model.NSGA2Evolution` a configuration has one
function `checker`; here it is made from a list.  Simplification: the checkers keep no state between generations, which is so
for `ThresholdFromTargetTerminationChecker` and `CrowdingTerminationChecker`, but not for
`BestFitnessStagnationTerminationChecker`. -/

namespace Verif.Moo

/-- A termination checker without state: `should_terminate(population, best_individual, gen_number)` —
termination_checker.py:12-32. -/
abbrev MChecker := (heap : Heap) → (inds : List Nat) → (best : Option Nat) → (gen : Nat) → Except Err Bool

/-- The list comprehension over the checkers in `should_terminate` — algorithm.py:410-416: all checkers are asked, in order,
unless one of them raises. -/
def answers (heap : Heap) (inds : List Nat) (best : Option Nat) (gen : Nat) : List MChecker → Except Err (List Bool)
  | [] => .ok []
  | k :: ks => do
    let a ← k heap inds best gen
    let as ← answers heap inds best gen ks
    .ok (a :: as)

/-- `should_terminate` with a list of checkers: `any` of the answers — algorithm.py:409-417. -/
def listChecker (ks : List MChecker) : MChecker := fun heap inds best gen => do
  let as ← answers heap inds best gen ks
  .ok (as.any id)

/-- `should_terminate` with `termination_checker=None` — algorithm.py:407-408. -/
def noChecker : MChecker := fun _ _ _ _ => .ok false

/-! ## The stagnation checker -/

/-- State of a `BestFitnessStagnationTerminationChecker` whose individuals have several objectives —
best_fitness_stagnation_termination_checker.py:16-20. -/
structure MStag where
  bestFitnesses : Option (List (List ℚ))
  generations : Nat

/-- `sub_pop.get_best_individual().get_pure_fitness()` — subpopulation.py:159-165: the first in the order of the lists of
objectives, which is lexicographic. -/
def bestObjectives (heap : Heap) (hib : Bool) (inds : List Nat) : Except Err (List ℚ) := do
  let ks ← lexKeys heap inds
  match Py.sortBy (fun a b => if hib then lexLe b.2 a.2 else lexLe a.2 b.2) ks with
  | [] => .error .indexError
  | k :: _ => .ok k.2

/-- `BestFitnessStagnationTerminationChecker.should_terminate` — best_fitness_stagnation_termination_checker.py:43-51 — with one
sub-population: if there are earlier values, `math.isclose` is called with two lists of objectives, which is a `TypeError`. -/
def mstagnation (hib : Bool) (k : MStag) (heap : Heap) (inds : List Nat) : Except Err Bool × MStag :=
  match bestObjectives heap hib inds with
  | .error e => (.error e, k)
  | .ok v =>
    match k.bestFitnesses with
    | some (_ :: _) => (.error .typeError, k)
    | _ => (.ok false, ⟨some [v], 0⟩)

/-- The state after the checker, at first in state `k`, was shown these populations, as long as it did not raise. -/
def mstagAfter (hib : Bool) : List (Heap × List Nat) → MStag → MStag
  | [], k => k
  | p :: ps, k => mstagAfter hib ps (mstagnation hib k p.1 p.2).2

/-- A new checker — best_fitness_stagnation_termination_checker.py:16-20. -/
def MStag.new : MStag := ⟨none, 0⟩

/-- The answers of a new checker in a run.  Simplification: a configuration has no place for the state of checkers, but the
state only matters in so far as the checker has been asked before: the answer is that of the new checker in generation 0, and
afterwards that of a checker which has seen a population (`mstagRun_answers`: whichever populations these were). -/
def mstagRun (hib : Bool) : MChecker := fun heap inds _ gen =>
  if gen = 0 then (mstagnation hib .new heap inds).1 else (mstagnation hib ⟨some [[]], 0⟩ heap inds).1

end Verif.Moo
