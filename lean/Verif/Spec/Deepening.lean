import Verif.Spec.Library
import Verif.Model.Tree

/-! # Specification: how deep the trees of a run can become -/

namespace Verif.GP
open Verif.Evo

/-- The individual holds a legal program none of whose leaves is more than `B` edges from the root. -/
def Within (cfg : GP.Cfg) (B : Nat) (i : GP.Ind) : Prop :=
  Legal cfg i ∧ ∀ p : Prog, p.Ok → i.tree = p.flatten → ∀ d ∈ p.leafDepths, d ≤ B

/-- `depth()` of the individual returns at most `B`. -/
def DepthAtMost (B : Nat) (i : GP.Ind) : Prop := ∃ d, GP.depth i.tree = .ok d ∧ d ≤ B

/-- The tree creators of the library whose maximal initial depth is at most `D`. -/
inductive CreatesTo (cfg : GP.Cfg) (m : Mode) (D : Nat) : (Nat → Bool → WM GP.Ind (List Nat)) → Prop
  | full (maxDepth : Nat) (fit : Bool → Fit) (up : Bool) (h : FitFor fit m) (hd : maxDepth ≤ D) :
      CreatesTo cfg m D (fullCreator cfg maxDepth fit up)
  | grow (pPrune : ℚ) (minDepth maxDepth : Nat) (fit : Bool → Fit) (up : Bool) (h : FitFor fit m)
      (hle : minDepth ≤ maxDepth) (hd : maxDepth ≤ D) :
      CreatesTo cfg m D (growCreator cfg pPrune minDepth maxDepth fit up)
  | half (pPrune : ℚ) (minDepth maxDepth : Nat) (fit : Bool → Fit) (up : Bool) (h : FitFor fit m)
      (hle : minDepth ≤ maxDepth) (hd : maxDepth ≤ D) :
      CreatesTo cfg m D (halfCreator cfg pPrune minDepth maxDepth fit up)

/-- `Deepen os f`: when the operators of the list have been applied one after the other, trees of depth `B` have become
trees of depth at most `f B`: crossover doubles, subtree mutation adds the depth of the subtrees it makes, ERC mutation
changes nothing. -/
inductive Deepen : List (Op GP.Ind) → (Nat → Nat) → Prop
  | nil : Deepen [] id
  | crossover (p : ℚ) (arity attempts : Nat) {os : List (Op GP.Ind)} {f : Nat → Nat} (h : Deepen os f) :
      Deepen (crossoverOp p arity attempts :: os) fun B => f (2 * B)
  | mutation (p : ℚ) (minDepth maxDepth attempts : Nat) {os : List (Op GP.Ind)} {f : Nat → Nat} (h : Deepen os f) :
      Deepen (mutationOp p minDepth maxDepth attempts :: os) fun B => f (B + max minDepth maxDepth)
  | erc (p : ℚ) (arity : Nat) (mu sigma : ℚ) {os : List (Op GP.Ind)} {f : Nat → Nat} (h : Deepen os f) :
      Deepen (ercOp p arity mu sigma :: os) f

end Verif.GP
