import Verif.Spec.TypedRun
import Verif.Spec.Complete

/-! # Specification: what the programs of a run are made of -/

namespace Verif.GP
open Verif.Evo

/-- The individual has the configuration `c` and lists a well-typed program of its root type all of
whose functions are from the function set, and all of whose terminals are entries of the terminal set
or constants in the ERC range, with the right type. -/
def MadeOf (c : GP.Cfg) (i : GP.Ind) : Prop :=
  i.cfg = c ∧ ∃ p, Represents i p ∧ p.HasType c.rootType ∧ p.DrawnFrom c

/-- A terminal that is offered, or a float that has taken the place of an offered constant of the same
node type. -/
def Cfg.LeafOrNoise (c : GP.Cfg) (v : Val) (ty : Option Ty) : Prop :=
  c.Leaf v ty ∨ (∃ q, v.data = .float q) ∧ ∃ w, c.Leaf w ty ∧ w.data.isNumber = true

/-- The operators that exchange or create sub-programs (not the ERC mutation). -/
inductive SubtreeOp : Op GP.Ind → Prop
  | crossover (p : ℚ) (arity attempts : Nat) : SubtreeOp (crossoverOp p arity attempts)
  | mutation (p : ℚ) (minDepth maxDepth attempts : Nat) : SubtreeOp (mutationOp p minDepth maxDepth attempts)

end Verif.GP
