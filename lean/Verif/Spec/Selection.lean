import Verif.Spec.Evolution
import Verif.Spec.Fitness

/-! # What it means to be the better individual -/

namespace Verif.Evo
variable {G : Type}

/-- The individual at `r` has been evaluated, is compared in direction `d`, and its (bloat-controlled)
fitness is `x`. -/
def HasScore (size : G → Nat) (d : Bool) (s : World G) (r : Nat) (x : ℚ) : Prop :=
  ∃ i b q, s.heap[r]? = some i ∧ Holds i.fit d b q ∧ x = score d b q (size i.genome)

/-- All individuals at `refs` have been evaluated and are compared in direction `d`. -/
def Evaluated (size : G → Nat) (d : Bool) (s : World G) (refs : List Nat) : Prop :=
  ∀ r ∈ refs, ∃ x, HasScore size d s r x

/-- `a` is strictly better than `b`. -/
def Beats (size : G → Nat) (d : Bool) (s : World G) (a b : Nat) : Prop :=
  ∃ x y, HasScore size d s a x ∧ HasScore size d s b y ∧ Preferred d x y

/-- `b` is the first element of `l` that no element of `l` beats: it beats everything before it, and
nothing after it beats it. -/
def FirstBest (beats : Nat → Nat → Prop) (l : List Nat) (b : Nat) : Prop :=
  ∃ pre post, l = pre ++ b :: post ∧ (∀ p ∈ pre, beats b p) ∧ ∀ p ∈ post, ¬ beats p b

end Verif.Evo
