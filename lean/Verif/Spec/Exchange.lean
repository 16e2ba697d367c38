import Verif.Spec.Prog
import Verif.Model.GPOperators

/-!
# Specification: exchanging sub-programs
-/

namespace Verif.GP

/-- The individual's node list is the listing of the program `p`, all of whose functions belong to
the individual's function set. -/
def Represents (ind : Ind) (p : Prog) : Prop :=
  ind.tree = p.flatten ∧ p.Ok ∧ ∀ f ∈ p.fns, f ∈ ind.cfg.functionSet

/-- The node `n` qualifies for `random_subtree(τ)` of a tree with root node `root`. -/
def Qualifies (τ : Option Ty) (root n : Node) : Prop :=
  n.type = none ∨ (n ≠ root ∧ (τ = none ∨ n.type = τ))

/-- A list turned by one place: the last element comes first. -/
def turn {α : Type} (xs : List α) : List α := xs.getLast?.toList ++ xs.dropLast

/-- `Exchange tr ps ps'`: `tr` splits every program of `ps` into a context and a sub-program (the
cut), and `ps'` is obtained by moving the cut sub-programs one place on: program `i + 1` receives the
block of program `i`, program `0` the block of the last one. -/
def Exchange (tr : List (Ctx × Prog)) (ps ps' : List Prog) : Prop :=
  ps = tr.map (fun x => x.1.fill x.2) ∧
  ps' = List.zipWith (fun x q => x.1.fill q) tr (turn (tr.map (·.2)))

end Verif.GP
