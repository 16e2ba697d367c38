import Verif.Model.Individual
import Mathlib.Algebra.Order.Field.Rat
import Mathlib.Tactic.Linarith

/-! # Specification of fitness comparison, independent of the model's helper functions -/

namespace Verif.Evo

/-- The number two individuals are compared by: the pure fitness, made worse by `weight * size` if bloat
control is on. -/
def score (hib : Bool) (bloat : Option ℚ) (q : ℚ) (size : Nat) : ℚ :=
  match bloat, hib with
  | none, _ => q
  | some w, true => q - w * size
  | some w, false => q + w * size

/-- `a` is strictly preferred to `b`. -/
def Preferred (hib : Bool) (a b : ℚ) : Prop := if hib then b < a else a < b

/-- The fitness object holds the number `q`, compared in the given direction with the given bloat
weight. -/
structure Holds (f : Fit) (hib : Bool) (bloat : Option ℚ) (q : ℚ) : Prop where
  value : f.value = .num q
  evaluated : f.evaluated = true
  dir : f.hib = hib
  bloat : f.bloat = bloat

end Verif.Evo
