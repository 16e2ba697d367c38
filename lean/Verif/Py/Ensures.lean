import Verif.Py.Random
import Mathlib.Data.List.Perm.Subperm

/-! # Total correctness: the computation returns, and the result satisfies a predicate -/

namespace Verif.PyM
variable {σ α β : Type}

/-- From every state the computation returns normally, with a result satisfying `Q`. -/
def Ensures (m : PyM σ α) (Q : α → Prop) : Prop := ∀ s, ∃ a s', m s = (.ok a, s') ∧ Q a

theorem Ensures.pure {a : α} {Q : α → Prop} (h : Q a) : Ensures (pure a : PyM σ α) Q :=
  fun s => ⟨a, s, rfl, h⟩

theorem Ensures.bind {m : PyM σ α} {f : α → PyM σ β} {Q : α → Prop} {R : β → Prop}
    (hm : Ensures m Q) (hf : ∀ a, Q a → Ensures (f a) R) : Ensures (m >>= f) R := by
  intro s
  obtain ⟨a, s₁, h1, hq⟩ := hm s
  obtain ⟨b, s₂, h2, hr⟩ := hf a hq s₁
  exact ⟨b, s₂, bind_ok.2 ⟨a, s₁, h1, h2⟩, hr⟩

theorem Ensures.mono {m : PyM σ α} {Q R : α → Prop} (hm : Ensures m Q) (h : ∀ a, Q a → R a) :
    Ensures m R := fun s => by
  obtain ⟨a, s', h1, h2⟩ := hm s
  exact ⟨a, s', h1, h a h2⟩

theorem Ensures.ite {c : Prop} [Decidable c] {m₁ m₂ : PyM σ α} {Q : α → Prop}
    (h1 : c → Ensures m₁ Q) (h2 : ¬ c → Ensures m₂ Q) : Ensures (if c then m₁ else m₂) Q := by
  split
  · exact h1 ‹_›
  · exact h2 ‹_›

theorem Ensures.ofExcept {r : Except Err α} {a : α} {Q : α → Prop} (h : r = .ok a) (hq : Q a) :
    Ensures (PyM.ofExcept r : PyM σ α) Q := fun s => ⟨a, s, by rw [PyM.ofExcept, h], hq⟩

theorem Ensures.total {m : PyM σ α} {Q : α → Prop} (h : Ensures m Q) : Total m := fun s => by
  obtain ⟨a, s', h1, _⟩ := h s
  exact ⟨a, s', h1⟩

theorem Ensures.post {m : PyM σ α} {Q : α → Prop} (h : Ensures m Q) : Post m Q := by
  intro s a s' h'
  obtain ⟨b, s₁, h1, hq⟩ := h s
  rw [h1] at h'
  simp only [Prod.mk.injEq, Except.ok.injEq] at h'
  exact h'.1 ▸ hq

theorem Ensures.of {m : PyM σ α} {Q : α → Prop} (h1 : Total m) (h2 : Post m Q) : Ensures m Q := by
  intro s
  obtain ⟨a, s', h⟩ := h1 s
  exact ⟨a, s', h, h2 s a s' h⟩

theorem Ensures.and {m : PyM σ α} {Q R : α → Prop} (h1 : Ensures m Q) (h2 : Post m R) :
    Ensures m (fun a => Q a ∧ R a) := Ensures.of h1.total (h1.post.and h2)

theorem mapL_ensures {f : α → PyM σ β} {R : α → β → Prop} (xs : List α)
    (h : ∀ x ∈ xs, Ensures (f x) (R x)) :
    Ensures (mapL f xs) (fun ys => List.Forall₂ R xs ys) := by
  induction xs with
  | nil => exact Ensures.pure .nil
  | cons x xs ih =>
    refine Ensures.bind (h x (by simp)) fun y hy => ?_
    refine Ensures.bind (ih fun z hz => h z (by simp [hz])) fun ys hys => ?_
    exact Ensures.pure (.cons hy hys)

theorem replicateM_ensures {f : PyM σ β} {Q : β → Prop} (n : Nat) (h : Ensures f Q) :
    Ensures (replicateM n f) (fun ys => ys.length = n ∧ ∀ y ∈ ys, Q y) := by
  refine Ensures.of ?_ (replicateM_post n h.post)
  induction n with
  | zero => exact Total.pure
  | succ n ih =>
    exact Total.bind h.total Post.trivial fun _ _ => Total.bind ih Post.trivial fun _ _ => Total.pure

end Verif.PyM

namespace Verif.Rand
open PyM

theorem next_ensures : Ensures next (fun _ => True) := fun _ => ⟨_, _, rfl, trivial⟩

theorem random_ensures : Ensures random (fun u => 0 ≤ u ∧ u < 1) := by
  refine Ensures.of ?_ random_post
  exact (Ensures.bind next_ensures fun _ _ => Ensures.bind next_ensures fun _ _ =>
    Ensures.pure trivial : Ensures random fun _ => True).total

theorem uniform_ensures {a b : ℚ} (h : a ≤ b) :
    Ensures (uniform a b) (fun x => a ≤ x ∧ x ≤ b) :=
  Ensures.of (Ensures.bind random_ensures fun _ _ => Ensures.pure trivial :
    Ensures (uniform a b) fun _ => True).total (uniform_post h)

theorem gauss_ensures (mu sigma : ℚ) : Ensures (gauss mu sigma) (fun _ => True) :=
  Ensures.bind next_ensures fun _ _ => Ensures.bind next_ensures fun _ _ =>
    Ensures.bind next_ensures fun _ _ => Ensures.pure trivial

theorem randint_ensures {a b : ℤ} (h : a ≤ b) :
    Ensures (randint a b) (fun x => a ≤ x ∧ x ≤ b) := by
  unfold randint
  rw [if_neg (by simp), if_neg (by simpa using h)]
  refine Ensures.bind next_ensures fun d _ => Ensures.pure ?_
  simp only [Rat.num_intCast]
  have : d % (b - a + 1).toNat < (b - a + 1).toNat := Nat.mod_lt _ (by omega)
  omega

theorem choice_ensures {α : Type} {xs : List α} (h : xs ≠ []) : Ensures (choice xs) (· ∈ xs) :=
  Ensures.of (choice_total h) (choice_post xs)

theorem choices_ensures {α : Type} {xs : List α} (h : xs ≠ []) (k : Nat) :
    Ensures (choices xs k) (fun ys => ys.length = k ∧ ∀ y ∈ ys, y ∈ xs) :=
  replicateM_ensures k (choice_ensures h)

theorem choices_post {α : Type} (xs : List α) (k : Nat) :
    Post (choices xs k) (fun ys => ys.length = k ∧ ∀ y ∈ ys, y ∈ xs) :=
  replicateM_post k (choice_post xs)

theorem sample_post {α : Type} (k : Nat) : ∀ xs : List α,
    Post (sample k xs) (fun ys => ys.Subperm xs ∧ ys.length = k) := by
  induction k with
  | zero => intro xs; exact Post.pure ⟨List.nil_subperm, rfl⟩
  | succ k ih =>
    intro xs
    unfold sample
    refine Post.ite (fun _ => Post.raise) fun h => ?_
    refine Post.bind Post.trivial fun d _ => ?_
    dsimp only
    split
    · exact Post.raise
    · rename_i x hx
      refine Post.bind (ih _) fun ys hys => Post.pure ⟨?_, by simp [hys.2]⟩
      obtain ⟨hi, rfl⟩ := List.getElem?_eq_some_iff.1 hx
      exact ((List.subperm_cons _).2 hys.1).trans (List.getElem_cons_eraseIdx_perm hi).subperm

theorem sample_ensures {α : Type} (k : Nat) : ∀ xs : List α, k ≤ xs.length →
    Ensures (sample k xs) (fun ys => ys.Subperm xs ∧ ys.length = k) := by
  suffices ∀ xs : List α, k ≤ xs.length → Total (sample k xs) from
    fun xs h => Ensures.of (this xs h) (sample_post k xs)
  induction k with
  | zero => intro xs _; exact Total.pure
  | succ k ih =>
    intro xs h
    unfold sample
    rw [if_neg (by omega)]
    refine Total.bind next_ensures.total Post.trivial fun d _ => ?_
    have hd : d % xs.length < xs.length := Nat.mod_lt _ (by omega)
    simp only [List.getElem?_eq_getElem hd]
    exact Total.bind (ih _ (by rw [List.length_eraseIdx_of_lt hd]; omega)) Post.trivial
      fun _ _ => Total.pure

theorem sample_raises {α : Type} (k : Nat) (xs : List α) (h : xs.length < k) (s : Tape) :
    sample k xs s = (.error .valueError, s) := by
  cases k with
  | zero => omega
  | succ k => unfold sample; rw [if_pos h]; rfl

end Verif.Rand
