import Verif.Model.Creation
import Verif.Py.Float

/-! # `Subpopulation.__init__` and the choice of a creator -/

namespace Verif.Evo
open PyM
variable {G : Type}

/-- The `creators` argument; `none` in a list is an object that is no `Creator`. -/
inductive CreatorsArg (G : Type) where
  | notGiven
  | one (c : Nat → Bool → WM G (List Nat))
  | list (cs : List (Option (Nat → Bool → WM G (List Nat))))
  | other

/-- The arguments of `Subpopulation` — subpopulation.py:64-75; `individuals` is stored as it is. -/
structure SubArgs (G : Type) where
  creators : CreatorsArg G := .notGiven
  pcr : Option (List ℚ) := none
  operators : Option (List (Op G)) := none
  selections : Option (List (Sel G)) := none
  elitismRate : ℚ := 0
  popSize : Nat := 200
  hib : Bool := false

/-- The check of the `creators` argument — subpopulation.py:78-95. -/
def checkCreators : CreatorsArg G → Except Err (List (Nat → Bool → WM G (List Nat)))
  | .notGiven => .error .valueError
  | .one c => .ok [c]
  | .list cs =>
    if cs.length = 0 then .error .valueError
    else if cs.any (·.isNone) then .error .valueError
    else .ok (cs.filterMap id)
  | .other => .error .valueError

/-- `list(itertools.accumulate(weights))`, started with the sum `s` so far. -/
def accumulate (s : ℚ) : List ℚ → List ℚ
  | [] => []
  | w :: ws => (s + w) :: accumulate (s + w) ws

/-- The loop of `bisect.bisect_right(a, x, lo, hi)`; `fuel` bounds the number of steps. -/
def bisectLoop (a : List ℚ) (x : ℚ) : (fuel lo hi : Nat) → Nat
  | 0, lo, _ => lo
  | fuel + 1, lo, hi =>
    if lo < hi then
      let mid := (lo + hi) / 2
      if x < a.getD mid 0 then bisectLoop a x fuel lo mid
      else bisectLoop a x fuel (mid + 1) hi
    else lo

/-- `bisect.bisect_right(a, x, 0, hi)`. -/
def bisectRight (a : List ℚ) (x : ℚ) (hi : Nat) : Nat := bisectLoop a x hi 0 hi

/-- `random.choices(range(len(weights)), weights=weights)[0]` (CPython `random.py`); exact arithmetic. -/
def weightedIndex (weights : List ℚ) : Rand Nat := do
  let cum := accumulate 0 weights
  let total := cum.getLast?.getD 0
  if total ≤ 0 then raise .valueError
  else do
    let u ← Rand.random
    pure (bisectRight cum (u * total) (cum.length - 1))

/-- `Subpopulation.__init__` — subpopulation.py:77-138, with the float arithmetic `A`.  The product
`elitism_rate * population_size` is exact; the warning of line 132-136 is not modelled.  The default
selection method is a tournament of size 10 with replacement. -/
def makeSub (A : Py.Arith) (size : G → Nat) (evaluate : G → Rand ℚ) (a : SubArgs G) :
    Except Err (SubCfg G) :=
  match checkCreators a.creators with
  | .error e => .error e
  | .ok cs =>
    let pcr := a.pcr.getD (cs.map fun _ => A.inv cs.length)
    if cs.length ≠ pcr.length then .error .valueError
    else if A.sum pcr ≠ 1 then .error .valueError
    else match a.operators with
      | none => .error .valueError
      | some ops => .ok
        { creators := cs, pick := weightedIndex pcr, ops := ops
          sels := a.selections.getD [tournament size 10 true]
          popSize := a.popSize, nElite := Py.round (a.elitismRate * a.popSize), hib := a.hib
          evaluate := evaluate }

end Verif.Evo
