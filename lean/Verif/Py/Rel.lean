import Verif.Py.Wp

/-! # Computations on related states -/

namespace Verif.PyM
variable {σ τ σ' τ' α β γ δ : Type}

/-- Started in related states, the two computations raise the same exception, in states related by `E`, or both end normally,
with related results and in related states. -/
def Rel (S E : σ → τ → Prop) (R : α → β → Prop) (m' : PyM σ α) (m : PyM τ β) : Prop :=
  ∀ s' s, S s' s → match (m' s').1, (m s).1 with
    | .ok a, .ok b => R a b ∧ S (m' s').2 (m s).2
    | .error e', .error e => e' = e ∧ E (m' s').2 (m s).2
    | _, _ => False

variable {S E : σ → τ → Prop} {R : α → β → Prop} {T : γ → δ → Prop}

theorem Rel.pure {a : α} {b : β} (h : R a b) : Rel S E R (pure a) (pure b) := fun _ _ hs => ⟨h, hs⟩

theorem Rel.raise (hE : ∀ s' s, S s' s → E s' s) (e : Err) : Rel S E R (raise e) (raise e) := fun _ _ hs => ⟨rfl, hE _ _ hs⟩

theorem Rel.bind {m' : PyM σ α} {m : PyM τ β} {f' : α → PyM σ γ} {f : β → PyM τ δ} (hm : Rel S E R m' m)
    (hf : ∀ a b, R a b → Rel S E T (f' a) (f b)) : Rel S E T (m' >>= f') (m >>= f) := by
  intro s' s hs
  have h := hm s' s hs
  rw [bind_run, bind_run]
  revert h
  rcases m' s' with ⟨r', t'⟩
  rcases m s with ⟨r, t⟩
  intro h
  cases r' with
  | error e' =>
    cases r with
    | error e => exact h
    | ok b => exact h.elim
  | ok a =>
    cases r with
    | error e => exact h.elim
    | ok b => exact hf a b h.1 t' t h.2

theorem Rel.mono {R' : α → β → Prop} {m' : PyM σ α} {m : PyM τ β} (hm : Rel S E R m' m) (h : ∀ a b, R a b → R' a b) :
    Rel S E R' m' m := by
  intro s' s hs
  have h1 := hm s' s hs
  revert h1
  rcases m' s' with ⟨r', t'⟩
  rcases m s with ⟨r, t⟩
  intro h1
  cases r' <;> cases r <;> first | exact h1 | exact ⟨h _ _ h1.1, h1.2⟩

theorem Rel.get_bind {f' : σ → PyM σ γ} {f : τ → PyM τ δ}
    (hf : ∀ s' s, S s' s → Rel S E T (f' s') (f s)) : Rel S E T (get >>= f') (get >>= f) := fun s' s hs => hf s' s hs s' s hs

theorem Rel.modify {f' : σ → σ} {f : τ → τ} (h : ∀ s' s, S s' s → S (f' s') (f s)) :
    Rel S E (fun _ _ => True) (modify f') (modify f) := fun s' s hs => ⟨trivial, h s' s hs⟩

theorem Rel.ite {c : Prop} [Decidable c] {m' n' : PyM σ α} {m n : PyM τ β} (h1 : c → Rel S E R m' m) (h2 : ¬ c → Rel S E R n' n) :
    Rel S E R (if c then m' else n') (if c then m else n) := by
  by_cases hc : c
  · rw [if_pos hc, if_pos hc]; exact h1 hc
  · rw [if_neg hc, if_neg hc]; exact h2 hc

theorem Rel.ofExcept (hE : ∀ s' s, S s' s → E s' s) {r' : Except Err α} {r : Except Err α} (h : r' = r) :
    Rel S E Eq (ofExcept r') (ofExcept r) := by
  subst h
  intro s' s hs
  cases r' with
  | error e => exact ⟨rfl, hE _ _ hs⟩
  | ok a => exact ⟨rfl, hs⟩

/-- The same list of things to do on both sides. -/
theorem Rel.mapL {ι : Type} {f' : ι → PyM σ α} {f : ι → PyM τ α} (xs : List ι) (h : ∀ x ∈ xs, Rel S E Eq (f' x) (f x)) :
    Rel S E Eq (mapL f' xs) (mapL f xs) := by
  induction xs with
  | nil => exact Rel.pure rfl
  | cons x xs ih =>
    refine Rel.bind (h x (by simp)) fun a b hab => Rel.bind (ih fun y hy => h y (by simp [hy])) fun as bs habs => Rel.pure ?_
    rw [hab, habs]

/-- The same, without caring about the results. -/
theorem Rel.mapL_any {ι : Type} {f' : ι → PyM σ α} {f : ι → PyM τ β} (xs : List ι)
    (h : ∀ x ∈ xs, Rel S E (fun _ _ => True) (f' x) (f x)) : Rel S E (fun _ _ => True) (PyM.mapL f' xs) (PyM.mapL f xs) := by
  induction xs with
  | nil => exact Rel.pure trivial
  | cons x xs ih =>
    exact Rel.bind (h x (by simp)) fun a b _ => Rel.bind (ih fun y hy => h y (by simp [hy])) fun as bs _ => Rel.pure trivial

theorem Rel.forL {ι : Type} {f' : ι → PyM σ Unit} {f : ι → PyM τ Unit} (xs : List ι)
    (h : ∀ x ∈ xs, Rel S E (fun _ _ => True) (f' x) (f x)) : Rel S E (fun _ _ => True) (forL f' xs) (forL f xs) := by
  induction xs with
  | nil => exact Rel.pure trivial
  | cons x xs ih => exact Rel.bind (h x (by simp)) fun _ _ _ => ih fun y hy => h y (by simp [hy])

theorem Rel.zoom {S₂ E₂ : σ' → τ' → Prop} {g' : σ' → σ} {p' : σ → σ' → σ'} {g : τ' → τ} {p : τ → τ' → τ'}
    {m' : PyM σ α} {m : PyM τ β} (hm : Rel S E R m' m) (hg : ∀ s' s, S₂ s' s → S (g' s') (g s))
    (hp : ∀ t' t s' s, S₂ s' s → S t' t → S₂ (p' t' s') (p t s)) (hq : ∀ t' t s' s, S₂ s' s → E t' t → E₂ (p' t' s') (p t s)) :
    Rel S₂ E₂ R (PyM.zoom g' p' m') (PyM.zoom g p m) := by
  intro s' s hs
  have h := hm _ _ (hg s' s hs)
  unfold PyM.zoom
  revert h
  rcases m' (g' s') with ⟨r', t'⟩
  rcases m (g s) with ⟨r, t⟩
  intro h
  cases r' with
  | error e' =>
    cases r with
    | error e => exact ⟨h.1, hq _ _ _ _ hs h.2⟩
    | ok b => exact h.elim
  | ok a =>
    cases r with
    | error e => exact h.elim
    | ok b => exact ⟨h.1, hp _ _ _ _ hs h.2⟩

/-- The second result is known to satisfy more. -/
theorem Rel.wlp {m' : PyM σ α} {m : PyM τ β} (hm : Rel S E R m' m) {Q : β → Prop} (hq : ∀ s' s, S s' s → ∀ b, (m s).1 = .ok b → Q b) :
    Rel S E (fun a b => R a b ∧ Q b) m' m := by
  intro s' s hs
  have h1 := hm s' s hs
  have h2 := hq s' s hs
  revert h1 h2
  rcases m' s' with ⟨r', t'⟩
  rcases m s with ⟨r, t⟩
  intro h1 h2
  cases r' <;> cases r <;> first | exact h1 | exact ⟨⟨h1.1, h2 _ rfl⟩, h1.2⟩

end Verif.PyM
