import Mathlib.Data.EReal.Basic
import Mathlib.Data.Real.Basic

/-!
# Numbers as numpy knows them

Real numbers, the infinities and NaN.  Simplification: the two zeros are identified.
-/

namespace Verif

inductive Num
  | fin (x : ℝ)
  | posInf
  | negInf
  | nan

/-- The place of a number on the extended real line; NaN has none. -/
noncomputable def Num.ereal : Num → Option EReal
  | .fin x => some (x : EReal)
  | .posInf => some ⊤
  | .negInf => some ⊥
  | .nan => none

end Verif
