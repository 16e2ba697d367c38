import Verif.Model.Evolution

/-! # Termination checkers -/

namespace Verif.Evo
variable {G : Type}

/-- `ThresholdFromTargetTerminationChecker.should_terminate` —
threshold_from_target_termination_checker.py:26-47.  The checker has no state. -/
def threshold (optimal thr : ℚ) : Checker G Unit := fun _ heap _ best _ =>
  match best with
  | none => (.error .attributeError, ())
  | some r =>
    match pureOf heap r with
    | .error e => (.error e, ())
    | .ok (.num x) => (.ok (decide (|x - optimal| ≤ thr)), ())
    | .ok _ => (.error .typeError, ())

/-- State of a `BestFitnessStagnationTerminationChecker` —
best_fitness_stagnation_termination_checker.py:16-20. -/
structure Stag where
  bestFitnesses : Option (List FVal)
  generations : Nat

/-- `[ind.get_pure_fitness() for ind in population.get_best_individuals()]` —
best_fitness_stagnation_termination_checker.py:43, population.py:29-32.  `hibs` are the
`higher_is_better` of the sub-populations. -/
def bestFitnesses (size : G → Nat) (heap : List (Ind G)) :
    List Bool → List (Option (List Nat)) → Except Err (List FVal)
  | h :: hs, some is :: iss =>
    match bestIndividual size heap h is with
    | .error e => .error e
    | .ok r =>
      match pureOf heap r with
      | .error e => .error e
      | .ok v =>
        match bestFitnesses size heap hs iss with
        | .error e => .error e
        | .ok vs => .ok (v :: vs)
  | _ :: _, none :: _ => .error .typeError
  | _, _ => .ok []

/-- `math.isclose(a, b)` with the default tolerances (over exact rationals). -/
def isclose : FVal → FVal → Except Err Bool
  | .num a, .num b => .ok (decide (|a - b| ≤ max |a| |b| / 10 ^ 9))
  | _, _ => .error .typeError

/-- `all([math.isclose(a, b) for a, b in zip(best_fitnesses, self.best_fitnesses)])`. -/
def allClose : List FVal → List FVal → Except Err Bool
  | a :: as, b :: bs =>
    match isclose a b with
    | .error e => .error e
    | .ok c =>
      match allClose as bs with
      | .error e => .error e
      | .ok cs => .ok (c && cs)
  | _, _ => .ok true

/-- The comparison and the update of the state —
best_fitness_stagnation_termination_checker.py:44-50.  A missing or empty list of earlier values is
falsy. -/
def stagStep (n : Int) (k : Stag) (vs : List FVal) : Except Err Bool × Stag :=
  match k.bestFitnesses with
  | some (w :: ws) =>
    match allClose vs (w :: ws) with
    | .error e => (.error e, k)
    | .ok true => (.ok (decide (n ≤ ((k.generations + 1 : Nat) : Int))), { k with generations := k.generations + 1 })
    | .ok false => (.ok false, ⟨some vs, 0⟩)
  | _ => (.ok false, ⟨some vs, 0⟩)

/-- `BestFitnessStagnationTerminationChecker.should_terminate` —
best_fitness_stagnation_termination_checker.py:22-50. -/
def stagnation (size : G → Nat) (hibs : List Bool) (n : Int) : Checker G Stag := fun k heap inds _ _ =>
  match bestFitnesses size heap hibs inds with
  | .error e => (.error e, k)
  | .ok vs => stagStep n k vs

end Verif.Evo
