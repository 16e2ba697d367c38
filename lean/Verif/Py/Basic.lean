import Mathlib.Data.List.Forall2

/-!
# Python primitives: exceptions, state, random draws

The models in `Verif/Model` are written in the monad `PyM σ`: a computation that reads and
writes a state `σ` and either returns a value or raises a Python exception.  As in Python, the
state reached when an exception is raised is kept.
-/

namespace Verif

/-- The Python exception classes that the modelled code raises (or lets the interpreter raise). -/
inductive Err
  | valueError
  | typeError
  | indexError
  | keyError
  | attributeError
  | zeroDivisionError
  | assertionError
  | runtimeError
  | notImplementedError
  /-- An exception raised by user-supplied code (tree functions, evaluators, callbacks). -/
  | user (n : Nat)
deriving DecidableEq, Repr

/-- A Python computation over a mutable state `σ`. -/
def PyM (σ : Type) (α : Type) : Type := σ → Except Err α × σ

namespace PyM
variable {σ α β γ : Type}

/-- Run a computation from a state. -/
def run (m : PyM σ α) (s : σ) : Except Err α × σ := m s

protected def pure (a : α) : PyM σ α := fun s => (.ok a, s)

protected def bind (m : PyM σ α) (f : α → PyM σ β) : PyM σ β := fun s =>
  match m s with
  | (.ok a, s') => f a s'
  | (.error e, s') => (.error e, s')

instance : Monad (PyM σ) where
  pure := PyM.pure
  bind := PyM.bind

/-- `raise e` -/
def raise (e : Err) : PyM σ α := fun s => (.error e, s)

/-- Read the state. -/
def get : PyM σ σ := fun s => (.ok s, s)

/-- Overwrite the state. -/
def set (s : σ) : PyM σ Unit := fun _ => (.ok (), s)

/-- Update the state. -/
def modify (f : σ → σ) : PyM σ Unit := fun s => (.ok (), f s)

/-- Inject a pure result that may be an exception. -/
def ofExcept (r : Except Err α) : PyM σ α := fun s => (r, s)

theorem pure_run (a : α) (s : σ) : (pure a : PyM σ α) s = (.ok a, s) := rfl

theorem bind_run (m : PyM σ α) (f : α → PyM σ β) (s : σ) :
    (m >>= f) s = match m s with
      | (.ok a, s') => f a s'
      | (.error e, s') => (.error e, s') := rfl

theorem bind_ok {m : PyM σ α} {f : α → PyM σ β} {s s' : σ} {b : β} :
    (m >>= f) s = (.ok b, s') ↔ ∃ a s₁, m s = (.ok a, s₁) ∧ f a s₁ = (.ok b, s') := by
  rw [bind_run]
  constructor
  · intro h
    split at h
    · rename_i a s₁ h1; exact ⟨a, s₁, h1, h⟩
    · simp at h
  · rintro ⟨a, s₁, h1, h2⟩
    rw [h1]; exact h2

theorem bind_error {m : PyM σ α} {f : α → PyM σ β} {s s' : σ} {e : Err} :
    (m >>= f) s = (.error e, s') ↔
      m s = (.error e, s') ∨ ∃ a s₁, m s = (.ok a, s₁) ∧ f a s₁ = (.error e, s') := by
  rw [bind_run]
  constructor
  · intro h
    split at h
    · rename_i a s₁ h1; exact Or.inr ⟨a, s₁, h1, h⟩
    · rename_i e' s₁ h1
      simp only [Prod.mk.injEq, Except.error.injEq] at h
      obtain ⟨rfl, rfl⟩ := h
      exact Or.inl h1
  · rintro (h | ⟨a, s₁, h1, h2⟩)
    · rw [h]
    · rw [h1]; exact h2

@[simp] theorem pure_ok {a b : α} {s s' : σ} :
    (pure a : PyM σ α) s = (.ok b, s') ↔ a = b ∧ s = s' := by
  rw [pure_run]; simp

@[simp] theorem raise_ok {e : Err} {b : α} {s s' : σ} :
    (raise e : PyM σ α) s = (.ok b, s') ↔ False := by
  simp [raise]

instance : LawfulMonad (PyM σ) := by
  refine LawfulMonad.mk' (m := PyM σ) ?_ ?_ ?_
  · intro α x; funext s
    show (match x s with
      | (.ok a, s') => (Except.ok a, s')
      | (.error e, s') => (Except.error e, s')) = x s
    rcases x s with ⟨_ | _, _⟩ <;> rfl
  · intro α β x f; rfl
  · intro α β γ x f g; funext s
    simp only [bind_run]
    rcases x s with ⟨_ | _, _⟩ <;> rfl

/-- Partial-correctness postcondition: whenever the computation returns normally, the result
(and final state) satisfy `Q`. -/
def Post (m : PyM σ α) (Q : α → Prop) : Prop :=
  ∀ s a s', m s = (.ok a, s') → Q a

theorem Post.pure {a : α} {Q : α → Prop} (h : Q a) : Post (pure a : PyM σ α) Q := by
  intro s b s' hb
  rw [pure_run] at hb
  simp only [Prod.mk.injEq, Except.ok.injEq] at hb
  exact hb.1 ▸ h

theorem Post.raise {e : Err} {Q : α → Prop} : Post (raise e : PyM σ α) Q := by
  intro s b s' hb; simp at hb

theorem Post.bind {m : PyM σ α} {f : α → PyM σ β} {Q : α → Prop} {R : β → Prop}
    (hm : Post m Q) (hf : ∀ a, Q a → Post (f a) R) : Post (m >>= f) R := by
  intro s b s' hb
  obtain ⟨a, s₁, h1, h2⟩ := bind_ok.1 hb
  exact hf a (hm s a s₁ h1) s₁ b s' h2

theorem Post.mono {m : PyM σ α} {Q R : α → Prop} (hm : Post m Q) (h : ∀ a, Q a → R a) :
    Post m R := fun s a s' e => h a (hm s a s' e)

theorem Post.and {m : PyM σ α} {Q R : α → Prop} (h1 : Post m Q) (h2 : Post m R) :
    Post m (fun a => Q a ∧ R a) := fun s a s' e => ⟨h1 s a s' e, h2 s a s' e⟩

theorem Post.trivial {m : PyM σ α} : Post m (fun _ => True) := fun _ _ _ _ => True.intro

theorem Post.ite {c : Prop} [Decidable c] {m₁ m₂ : PyM σ α} {Q : α → Prop}
    (h1 : c → Post m₁ Q) (h2 : ¬ c → Post m₂ Q) : Post (if c then m₁ else m₂) Q := by
  split
  · exact h1 ‹_›
  · exact h2 ‹_›

theorem Post.ofExcept {r : Except Err α} {Q : α → Prop} (h : ∀ a, r = .ok a → Q a) :
    Post (ofExcept r : PyM σ α) Q := by
  intro s a s' e
  simp only [PyM.ofExcept, Prod.mk.injEq] at e
  exact h a e.1

/-- `m` may only raise exceptions satisfying `E`. -/
def Raises (m : PyM σ α) (E : Err → Prop) : Prop :=
  ∀ s e s', m s = (.error e, s') → E e

theorem Raises.pure {a : α} {E : Err → Prop} : Raises (pure a : PyM σ α) E := by
  intro s e s' h; rw [pure_run] at h; simp at h

theorem Raises.raise {e : Err} {E : Err → Prop} (h : E e) : Raises (raise e : PyM σ α) E := by
  intro s e' s' h'
  simp only [PyM.raise, Prod.mk.injEq, Except.error.injEq] at h'
  exact h'.1 ▸ h

theorem Raises.bind {m : PyM σ α} {f : α → PyM σ β} {Q : α → Prop} {E : Err → Prop}
    (hm : Raises m E) (hq : Post m Q) (hf : ∀ a, Q a → Raises (f a) E) : Raises (m >>= f) E := by
  intro s e s' h
  rcases bind_error.1 h with h | ⟨a, s₁, h1, h2⟩
  · exact hm s e s' h
  · exact hf a (hq s a s₁ h1) s₁ e s' h2

/-- `m` never raises. -/
def Total (m : PyM σ α) : Prop := ∀ s, ∃ a s', m s = (.ok a, s')

theorem Total.pure {a : α} : Total (pure a : PyM σ α) := fun s => ⟨a, s, rfl⟩

theorem Total.bind {m : PyM σ α} {f : α → PyM σ β} {Q : α → Prop}
    (hm : Total m) (hq : Post m Q) (hf : ∀ a, Q a → Total (f a)) : Total (m >>= f) := by
  intro s
  obtain ⟨a, s₁, h1⟩ := hm s
  obtain ⟨b, s₂, h2⟩ := hf a (hq s a s₁ h1) s₁
  exact ⟨b, s₂, bind_ok.2 ⟨a, s₁, h1, h2⟩⟩

/-- A loop `[f x for x in xs]`, left to right. -/
def mapL (f : α → PyM σ β) : List α → PyM σ (List β)
  | [] => pure []
  | x :: xs => do
    let y ← f x
    let ys ← mapL f xs
    pure (y :: ys)

/-- `[f() for _ in range(n)]` -/
def replicateM (n : Nat) (f : PyM σ β) : PyM σ (List β) :=
  match n with
  | 0 => pure []
  | n + 1 => do
    let y ← f
    let ys ← replicateM n f
    pure (y :: ys)

theorem mapL_post {f : α → PyM σ β} {R : α → β → Prop} (xs : List α)
    (h : ∀ x ∈ xs, Post (f x) (R x)) : Post (mapL f xs) (fun ys => List.Forall₂ R xs ys) := by
  induction xs with
  | nil => exact Post.pure .nil
  | cons x xs ih =>
    refine Post.bind (h x (by simp)) fun y hy => ?_
    refine Post.bind (ih fun z hz => h z (by simp [hz])) fun ys hys => ?_
    exact Post.pure (.cons hy hys)

theorem replicateM_post {f : PyM σ β} {Q : β → Prop} (n : Nat) (h : Post f Q) :
    Post (replicateM n f) (fun ys => ys.length = n ∧ ∀ y ∈ ys, Q y) := by
  induction n with
  | zero => exact Post.pure (by simp)
  | succ n ih =>
    refine Post.bind h fun y hy => ?_
    refine Post.bind ih fun ys hys => ?_
    refine Post.pure ⟨by simp [hys.1], ?_⟩
    intro z hz
    rcases List.mem_cons.1 hz with rfl | hz
    · exact hy
    · exact hys.2 z hz

end PyM
end Verif
