import Verif.Model.Selection

/-! # The operator that does nothing -/

namespace Verif.Evo
open PyM
variable {G : Type}

/-- `IdentityTransformation` — eckity/genetic_operators/mutations/identity_transformation.py:4-22: `apply` returns the
individuals it is given. -/
def identityOp (probability : ℚ) : Op G where
  name := "IdentityTransformation"
  probability := probability
  arity := 1
  apply := fun refs => pure (some refs)

end Verif.Evo
