import Verif.Model.Evolution

/-!
# Looking for an individual in a population

`eckity/population.py`, `eckity/subpopulation.py`.
-/

namespace Verif.Evo

/-- `Population.find_individual_subpopulation(individual)` — population.py:19-26, with `Subpopulation.contains_individual`
— subpopulation.py:180-181.  No class of individuals defines `__eq__`, so `in` compares identities.  The result is the
position of the sub-population; `in None` is a `TypeError`. -/
def findSub : List (Option (List Nat)) → Nat → Except Err Nat
  | [], _ => .error .valueError
  | none :: _, _ => .error .typeError
  | some is :: rest, r =>
    if is.contains r then .ok 0
    else match findSub rest r with
      | .ok k => .ok (k + 1)
      | .error e => .error e

end Verif.Evo
