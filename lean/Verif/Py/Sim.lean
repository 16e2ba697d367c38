import Verif.Py.Wp
import Verif.Py.Sort
import Verif.Py.List

/-! # Computations that do the same up to a change of representation -/

namespace Verif.PyM
variable {σ τ α β γ δ : Type}

/-- `m'` does on the state `L s` what `m` does on `s`: the results correspond through `ρ`, exceptions are the same,
the final states correspond through `L`. -/
def Sim (L : σ → τ) (ρ : α → β) (m' : PyM τ β) (m : PyM σ α) : Prop :=
  ∀ s, m' (L s) = ((m s).1.map ρ, L (m s).2)

variable {L : σ → τ} {ρ : α → β}

theorem Sim.pure {a : α} {b : β} (h : b = ρ a) : Sim L ρ (pure b) (pure a) := by subst h; intro s; rfl

theorem Sim.raise {e : Err} : Sim L ρ (raise e) (raise e) := fun _ => rfl

theorem Sim.bind {ζ : γ → δ} {m' : PyM τ β} {m : PyM σ α} {f' : β → PyM τ δ} {f : α → PyM σ γ}
    (hm : Sim L ρ m' m) (hf : ∀ a, Sim L ζ (f' (ρ a)) (f a)) : Sim L ζ (m' >>= f') (m >>= f) := by
  intro s
  rw [bind_run, bind_run, hm s]
  rcases m s with ⟨r, s₁⟩
  cases r with
  | error e => rfl
  | ok a => exact hf a s₁

theorem Sim.get_bind {ζ : γ → δ} {f' : τ → PyM τ δ} {f : σ → PyM σ γ} (hf : ∀ s, Sim L ζ (f' (L s)) (f s)) :
    Sim L ζ (get >>= f') (get >>= f) := fun s => hf s s

theorem Sim.modify {f' : τ → τ} {f : σ → σ} (h : ∀ s, f' (L s) = L (f s)) : Sim L id (modify f') (modify f) := by
  intro s
  exact Prod.ext rfl (h s)

theorem Sim.set {t : τ} {s : σ} (h : t = L s) : Sim L id (set t) (set s) := by subst h; intro _; rfl

theorem Sim.ofExcept {r' : Except Err β} {r : Except Err α} (h : r' = r.map ρ) : Sim L ρ (ofExcept r') (ofExcept r) := by
  intro s; subst h; rfl

theorem Sim.ite {c' c : Prop} [Decidable c'] [Decidable c] {m' n' : PyM τ β} {m n : PyM σ α} (h : c' ↔ c)
    (h1 : c → Sim L ρ m' m) (h2 : ¬ c → Sim L ρ n' n) : Sim L ρ (if c' then m' else n') (if c then m else n) := by
  by_cases hc : c
  · rw [if_pos hc, if_pos (h.2 hc)]; exact h1 hc
  · rw [if_neg hc, if_neg (mt h.1 hc)]; exact h2 hc

theorem Sim.mapL {ζ : γ → δ} {f' : δ → PyM τ β} {f : γ → PyM σ α} (xs : List γ)
    (h : ∀ x ∈ xs, Sim L ρ (f' (ζ x)) (f x)) : Sim L (List.map ρ) (mapL f' (xs.map ζ)) (mapL f xs) := by
  induction xs with
  | nil => exact Sim.pure rfl
  | cons x xs ih =>
    refine Sim.bind (h x (by simp)) fun a => Sim.bind (ih fun y hy => h y (by simp [hy])) fun as => Sim.pure rfl

theorem Sim.forL {ζ : γ → δ} {f' : δ → PyM τ Unit} {f : γ → PyM σ Unit} (xs : List γ)
    (h : ∀ x ∈ xs, Sim L id (f' (ζ x)) (f x)) : Sim L id (forL f' (xs.map ζ)) (forL f xs) := by
  induction xs with
  | nil => exact Sim.pure rfl
  | cons x xs ih => exact Sim.bind (h x (by simp)) fun _ => ih fun y hy => h y (by simp [hy])

theorem Sim.replicateM {m' : PyM τ β} {m : PyM σ α} (h : Sim L ρ m' m) (n : Nat) :
    Sim L (List.map ρ) (replicateM n m') (replicateM n m) := by
  induction n with
  | zero => exact Sim.pure rfl
  | succ n ih => exact Sim.bind h fun a => Sim.bind ih fun as => Sim.pure rfl

theorem Sim.refl (m : PyM σ α) : Sim id id m m := by
  intro s
  show m s = _
  rcases m s with ⟨r, s'⟩
  cases r <;> rfl

theorem Sim.zoom {σ' τ' : Type} {L' : σ' → τ'} {g' : τ' → τ} {p' : τ → τ' → τ'} {g : σ' → σ} {p : σ → σ' → σ'}
    {m' : PyM τ β} {m : PyM σ α} (hm : Sim L ρ m' m) (hg : ∀ s, g' (L' s) = L (g s))
    (hp : ∀ t s, p' (L t) (L' s) = L' (p t s)) : Sim L' ρ (zoom g' p' m') (zoom g p m) := by
  intro s
  unfold PyM.zoom
  rw [hg, hm (g s)]
  dsimp only
  rw [hp]

end Verif.PyM

namespace Verif.Rand
open PyM
variable {α β : Type} (f : α → β)

/-- Random choices do not look at what they choose from. -/
theorem choice_sim (xs : List α) : Sim id f (choice (xs.map f)) (choice xs) := by
  unfold choice
  rw [List.length_map]
  refine Sim.ite Iff.rfl (fun _ => Sim.raise) fun _ => Sim.bind (Sim.refl _) fun d => ?_
  dsimp only [id]
  rw [List.getElem?_map]
  cases xs[d % xs.length]? with
  | none => exact Sim.raise
  | some x => exact Sim.pure rfl

theorem choices_sim (xs : List α) (k : Nat) : Sim id (List.map f) (choices (xs.map f) k) (choices xs k) :=
  Sim.replicateM (choice_sim f xs) k

theorem sample_sim (k : Nat) (xs : List α) : Sim id (List.map f) (sample k (xs.map f)) (sample k xs) := by
  induction k generalizing xs with
  | zero => exact Sim.pure rfl
  | succ k ih =>
    unfold sample
    rw [List.length_map]
    refine Sim.ite Iff.rfl (fun _ => Sim.raise) fun _ => Sim.bind (Sim.refl _) fun d => ?_
    dsimp only [id]
    rw [List.getElem?_map]
    cases xs[d % xs.length]? with
    | none => exact Sim.raise
    | some x =>
      dsimp only [Option.map]
      rw [List.eraseIdx_map]
      exact Sim.bind (ih _) fun rest => Sim.pure rfl

end Verif.Rand

namespace Verif.Py
variable {α β : Type} (f : α → β)

theorem slice_map (xs : List α) (a b : Int) : slice (xs.map f) a b = (slice xs a b).map f := by
  simp [slice, List.map_take, List.map_drop]

theorem setSlice_map (xs : List α) (a b : Int) (ys : List α) :
    setSlice (xs.map f) a b (ys.map f) = (setSlice xs a b ys).map f := by
  simp [setSlice, List.map_take, List.map_drop]

theorem insertBy_map {le' : β → β → Bool} {le : α → α → Bool} (h : ∀ a b, le' (f a) (f b) = le a b) (a : α) (xs : List α) :
    insertBy le' (f a) (xs.map f) = (insertBy le a xs).map f := by
  induction xs with
  | nil => rfl
  | cons x xs ih =>
    simp only [List.map_cons, insertBy, h, ih]
    split <;> rfl

theorem sortBy_map {le' : β → β → Bool} {le : α → α → Bool} (h : ∀ a b, le' (f a) (f b) = le a b) (xs : List α) :
    sortBy le' (xs.map f) = (sortBy le xs).map f := by
  induction xs with
  | nil => rfl
  | cons x xs ih => simp only [List.map_cons, sortBy, ih, insertBy_map f h]

end Verif.Py
