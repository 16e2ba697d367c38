import Verif.Spec.Library

/-! # Specification: typed programs in runs -/

namespace Verif.GP

/-- The individual has the configuration `cfg` and its node list is the listing of a well-typed program
of type `τ` over its function set. -/
def WellTyped (cfg : GP.Cfg) (τ : Option Ty) (i : GP.Ind) : Prop :=
  i.cfg = cfg ∧ ∃ p, Represents i p ∧ p.HasType τ

/-- The function at the root of the tree, if there is one. -/
def Ind.rootFn (i : GP.Ind) : Option Fn :=
  match i.tree.head? with
  | some (.func f) => some f
  | _ => none

end Verif.GP
