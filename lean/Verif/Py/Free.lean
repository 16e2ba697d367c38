import Verif.Py.Random
import Verif.Py.Wp

/-!
# Computations that can be made to do the same again with any draws left over

`Free put m`: whatever `m` does from some state, it does the same from that state with a suitable random tape in it, and
leaves whatever tape is wanted.  (`put s t` is the state `s` with the tape `t`.)
-/

namespace Verif
open PyM

/-- What the computation does with one tape it does with another one too, leaving any tape that is asked for. -/
def Free {σ α : Type} (put : σ → Tape → σ) (m : PyM σ α) : Prop :=
  ∀ s r s', m s = (r, s') → ∀ u, ∃ t, m (put s t) = (r, put s' u)

namespace Free
variable {σ α β γ : Type} {put : σ → Tape → σ}

theorem pure (a : α) : Free put (pure a : PyM σ α) := by
  intro s r s' h u
  cases h
  exact ⟨u, rfl⟩

theorem raise (e : Err) : Free put (raise e : PyM σ α) := by
  intro s r s' h u
  cases h
  exact ⟨u, rfl⟩

theorem ofExcept (x : Except Err α) : Free put (ofExcept x : PyM σ α) := by
  intro s r s' h u
  cases h
  exact ⟨u, rfl⟩

theorem bind {m : PyM σ α} {f : α → PyM σ β} (h1 : Free put m) (h2 : ∀ a, Free put (f a)) : Free put (m >>= f) := by
  intro s r s' h u
  rw [bind_run] at h
  rcases hm : m s with ⟨x, s₁⟩
  rw [hm] at h
  cases x with
  | ok a =>
    obtain ⟨t1, ht1⟩ := h2 a s₁ r s' h u
    obtain ⟨t, ht⟩ := h1 s _ s₁ hm t1
    exact ⟨t, by rw [bind_run, ht]; exact ht1⟩
  | error e =>
    cases h
    obtain ⟨t, ht⟩ := h1 s _ _ hm u
    exact ⟨t, by rw [bind_run, ht]⟩

theorem ite {p : Prop} [Decidable p] {m m' : PyM σ α} (h1 : p → Free put m) (h2 : ¬ p → Free put m') :
    Free put (if p then m else m') := by
  split
  · exact h1 ‹_›
  · exact h2 ‹_›

theorem mapL {f : α → PyM σ β} (h : ∀ a, Free put (f a)) (xs : List α) : Free put (mapL f xs) := by
  induction xs with
  | nil => exact Free.pure _
  | cons x xs ih => exact (h x).bind fun _ => ih.bind fun _ => Free.pure _

theorem forL {f : α → PyM σ Unit} (h : ∀ a, Free put (f a)) (xs : List α) : Free put (forL f xs) := by
  induction xs with
  | nil => exact Free.pure _
  | cons x xs ih => exact (h x).bind fun _ => ih

theorem replicateM {m : PyM σ α} (h : Free put m) (n : Nat) : Free put (replicateM n m) := by
  induction n with
  | zero => exact Free.pure _
  | succ n ih => exact h.bind fun _ => ih.bind fun _ => Free.pure _

/-- Reading the state is free if the tape is not looked at. -/
theorem get_bind {f : σ → PyM σ β} (h1 : ∀ s t, f (put s t) = f s) (h2 : ∀ s, Free put (f s)) :
    Free put (PyM.get >>= f) := by
  intro s r s' h u
  obtain ⟨t, ht⟩ := h2 s s r s' h u
  refine ⟨t, ?_⟩
  show f (put s t) (put s t) = _
  rw [h1]
  exact ht

theorem modify {g : σ → σ} (h : ∀ s t, g (put s t) = put (g s) t) : Free put (PyM.modify g) := by
  intro s r s' hm u
  cases hm
  exact ⟨u, by simp only [PyM.modify, h]⟩

end Free

/-- A computation that only draws random numbers can be made to draw the same ones from a tape with any rest. -/
abbrev FreeRand {α : Type} (m : Rand α) : Prop := Free (fun _ t => t) m

namespace FreeRand
variable {α : Type}

theorem next : FreeRand Rand.next := by
  intro s r s' h u
  refine ⟨fun i => if i = 0 then s 0 else u (i - 1), ?_⟩
  simp only [Rand.next, Prod.mk.injEq] at h
  simp [Rand.next, h.1]

theorem choice (xs : List α) : FreeRand (Rand.choice xs) := by
  unfold Rand.choice
  refine Free.ite (fun _ => Free.raise _) fun _ => next.bind fun d => ?_
  split
  · exact Free.pure _
  · exact Free.raise _

theorem random : FreeRand Rand.random := next.bind fun _ => next.bind fun _ => Free.pure _

theorem uniform (a b : ℚ) : FreeRand (Rand.uniform a b) := random.bind fun _ => Free.pure _

theorem randint (a b : ℚ) : FreeRand (Rand.randint a b) :=
  Free.ite (fun _ => Free.raise _) fun _ => Free.ite (fun _ => Free.raise _) fun _ => next.bind fun _ => Free.pure _

theorem gauss (mu sigma : ℚ) : FreeRand (Rand.gauss mu sigma) :=
  next.bind fun _ => next.bind fun _ => next.bind fun _ => Free.pure _

theorem sample (k : Nat) (xs : List α) : FreeRand (Rand.sample k xs) := by
  induction k generalizing xs with
  | zero => exact Free.pure _
  | succ k ih =>
    unfold Rand.sample
    refine Free.ite (fun _ => Free.raise _) fun _ => next.bind fun d => ?_
    dsimp only
    split
    · exact Free.raise _
    · exact (ih _).bind fun _ => Free.pure _

theorem choices (xs : List α) (k : Nat) : FreeRand (Rand.choices xs k) := Free.replicateM (choice xs) k

end FreeRand
end Verif
