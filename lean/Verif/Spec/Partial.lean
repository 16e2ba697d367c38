import Verif.Spec.Prog

/-!
# Specification: partially built programs

A program under construction, in prefix order: every function on the path to the open slot has some
complete arguments, then the argument under construction, and the remaining arguments are missing.
-/

namespace Verif.GP

/-- A program under construction with its next open slot. -/
inductive Part
  | slot
  | app (f : Fn) (done : List Prog) (p : Part)

/-- The nodes placed so far. -/
def Part.flatten : Part → List Node
  | .slot => []
  | .app f done p => .func f :: (Prog.flattenAll done ++ p.flatten)

/-- Every function on the path still has a parameter for the argument under construction. -/
def Part.Ok : Part → Prop
  | .slot => True
  | .app f done p => done.length < f.params.length ∧ Prog.OkAll done ∧ p.Ok

/-- The declared type of the open slot; `root` is the type declared for the whole program. -/
def Part.slotType (root : Option Ty) : Part → Option Ty
  | .slot => root
  | .app f done .slot => f.params[done.length]?.join
  | .app _ _ p => p.slotType root

/-- Number of functions above the open slot. -/
def Part.depth : Part → Nat
  | .slot => 0
  | .app _ _ p => p.depth + 1

/-- The functions on the path from the root to the open slot. -/
def Part.path : Part → List Fn
  | .slot => []
  | .app f _ p => f :: p.path

end Verif.GP
