import Verif.Py.Sim

/-! # Computations that do the same up to a change of representation, on states with an invariant -/

namespace Verif.PyM
variable {σ τ α β γ δ : Type}

/-- On states satisfying `I`, `m'` does on `L s` what `m` does on `s`, and `m` keeps `I`. -/
def SimOn (I : σ → Prop) (L : σ → τ) (ρ : α → β) (m' : PyM τ β) (m : PyM σ α) : Prop :=
  ∀ s, I s → m' (L s) = ((m s).1.map ρ, L (m s).2) ∧ I (m s).2

variable {I : σ → Prop} {L : σ → τ} {ρ : α → β}

theorem SimOn.pure {a : α} {b : β} (h : b = ρ a) : SimOn I L ρ (pure b) (pure a) := by
  subst h; intro s hs; exact ⟨rfl, hs⟩

theorem SimOn.raise {e : Err} : SimOn I L ρ (raise e) (raise e) := fun _ hs => ⟨rfl, hs⟩

theorem SimOn.bind {ζ : γ → δ} {m' : PyM τ β} {m : PyM σ α} {f' : β → PyM τ δ} {f : α → PyM σ γ}
    (hm : SimOn I L ρ m' m) (hf : ∀ a, SimOn I L ζ (f' (ρ a)) (f a)) : SimOn I L ζ (m' >>= f') (m >>= f) := by
  intro s hs
  obtain ⟨h1, h2⟩ := hm s hs
  rw [bind_run, bind_run, h1]
  rcases hr : m s with ⟨r, s₁⟩
  rw [hr] at h2
  cases r with
  | error e => exact ⟨rfl, h2⟩
  | ok a => exact hf a s₁ h2

theorem SimOn.get_bind {ζ : γ → δ} {f' : τ → PyM τ δ} {f : σ → PyM σ γ} (hf : ∀ s, I s → SimOn I L ζ (f' (L s)) (f s)) :
    SimOn I L ζ (get >>= f') (get >>= f) := fun s hs => hf s hs s hs

theorem SimOn.modify {f' : τ → τ} {f : σ → σ} (h : ∀ s, I s → f' (L s) = L (f s) ∧ I (f s)) :
    SimOn I L id (modify f') (modify f) := by
  intro s hs
  exact ⟨Prod.ext rfl (h s hs).1, (h s hs).2⟩

theorem SimOn.set {t : τ} {s : σ} (h : t = L s) (hi : I s) : SimOn I L id (set t) (set s) := by
  subst h; intro _ _; exact ⟨rfl, hi⟩

theorem SimOn.ofExcept {r' : Except Err β} {r : Except Err α} (h : r' = r.map ρ) : SimOn I L ρ (ofExcept r') (ofExcept r) := by
  intro s hs; subst h; exact ⟨rfl, hs⟩

theorem SimOn.ite {c' c : Prop} [Decidable c'] [Decidable c] {m' n' : PyM τ β} {m n : PyM σ α} (h : c' ↔ c)
    (h1 : c → SimOn I L ρ m' m) (h2 : ¬ c → SimOn I L ρ n' n) : SimOn I L ρ (if c' then m' else n') (if c then m else n) := by
  by_cases hc : c
  · rw [if_pos hc, if_pos (h.2 hc)]; exact h1 hc
  · rw [if_neg hc, if_neg (mt h.1 hc)]; exact h2 hc

theorem SimOn.mapL {f' : γ → PyM τ β} {f : γ → PyM σ α} (xs : List γ) (h : ∀ x ∈ xs, SimOn I L ρ (f' x) (f x)) :
    SimOn I L (List.map ρ) (PyM.mapL f' xs) (PyM.mapL f xs) := by
  induction xs with
  | nil => exact SimOn.pure rfl
  | cons x xs ih =>
    unfold PyM.mapL
    exact SimOn.bind (h x (by simp)) fun a => SimOn.bind (ih fun y hy => h y (by simp [hy])) fun as => SimOn.pure rfl

theorem SimOn.mapL_id {f' : γ → PyM τ α} {f : γ → PyM σ α} (xs : List γ) (h : ∀ x ∈ xs, SimOn I L id (f' x) (f x)) :
    SimOn I L id (PyM.mapL f' xs) (PyM.mapL f xs) := by
  have := SimOn.mapL (ρ := id) xs h
  rwa [List.map_id_fun] at this

theorem SimOn.forL {f' : γ → PyM τ Unit} {f : γ → PyM σ Unit} (xs : List γ) (h : ∀ x ∈ xs, SimOn I L id (f' x) (f x)) :
    SimOn I L id (PyM.forL f' xs) (PyM.forL f xs) := by
  induction xs with
  | nil => exact SimOn.pure rfl
  | cons x xs ih =>
    unfold PyM.forL
    exact SimOn.bind (h x (by simp)) fun _ => ih fun y hy => h y (by simp [hy])

theorem SimOn.zoom {σ' τ' : Type} {I' : σ' → Prop} {L' : σ' → τ'} {g' : τ' → τ} {p' : τ → τ' → τ'} {g : σ' → σ} {p : σ → σ' → σ'}
    {m' : PyM τ β} {m : PyM σ α} (hm : SimOn I L ρ m' m) (hg : ∀ s, I' s → g' (L' s) = L (g s) ∧ I (g s))
    (hp : ∀ t s, p' (L t) (L' s) = L' (p t s)) (hi : ∀ t s, I t → I' s → I' (p t s)) :
    SimOn I' L' ρ (zoom g' p' m') (zoom g p m) := by
  intro s hs
  obtain ⟨h1, h2⟩ := hg s hs
  obtain ⟨h3, h4⟩ := hm (g s) h2
  unfold PyM.zoom
  rw [h1, h3]
  dsimp only
  rw [hp]
  exact ⟨rfl, hi _ _ h4 hs⟩

end Verif.PyM
