import Verif.Py.Ensures

/-! # Weakest preconditions for stateful computations -/

namespace Verif.PyM
variable {σ τ α β : Type}

/-- Partial correctness from a state: if the computation returns normally, the result and final
state satisfy `Q`. -/
def wlp (m : PyM σ α) (Q : α → σ → Prop) (s : σ) : Prop := ∀ a s', m s = (.ok a, s') → Q a s'

/-- Total correctness from a state: the computation returns normally, and the result and final state
satisfy `Q`. -/
def wp (m : PyM σ α) (Q : α → σ → Prop) (s : σ) : Prop := ∃ a s', m s = (.ok a, s') ∧ Q a s'

section
variable {m : PyM σ α} {f : α → PyM σ β} {Q R : α → σ → Prop} {s : σ}

theorem wlp_bind {R : β → σ → Prop} :
    wlp (m >>= f) R s ↔ wlp m (fun a s' => wlp (f a) R s') s := by
  constructor
  · intro h a s₁ h1 b s₂ h2
    exact h b s₂ (bind_ok.2 ⟨a, s₁, h1, h2⟩)
  · intro h b s₂ hb
    obtain ⟨a, s₁, h1, h2⟩ := bind_ok.1 hb
    exact h a s₁ h1 b s₂ h2

theorem wp_bind {R : β → σ → Prop} :
    wp (m >>= f) R s ↔ wp m (fun a s' => wp (f a) R s') s := by
  constructor
  · rintro ⟨b, s₂, hb, hR⟩
    obtain ⟨a, s₁, h1, h2⟩ := bind_ok.1 hb
    exact ⟨a, s₁, h1, b, s₂, h2, hR⟩
  · rintro ⟨a, s₁, h1, b, s₂, h2, hR⟩
    exact ⟨b, s₂, bind_ok.2 ⟨a, s₁, h1, h2⟩, hR⟩

@[simp] theorem wlp_pure {a : α} : wlp (pure a : PyM σ α) Q s ↔ Q a s := by
  simp [wlp, pure_run]

@[simp] theorem wp_pure {a : α} : wp (pure a : PyM σ α) Q s ↔ Q a s := by
  simp [wp, pure_run]

@[simp] theorem wlp_raise {e : Err} : wlp (raise e : PyM σ α) Q s ↔ True := by
  simp [wlp, raise]

@[simp] theorem wp_raise {e : Err} : wp (raise e : PyM σ α) Q s ↔ False := by
  simp [wp, raise]

@[simp] theorem wlp_get {Q : σ → σ → Prop} : wlp (get : PyM σ σ) Q s ↔ Q s s := by
  simp [wlp, get]

@[simp] theorem wp_get {Q : σ → σ → Prop} : wp (get : PyM σ σ) Q s ↔ Q s s := by
  simp [wp, get]

@[simp] theorem wlp_set {t : σ} {Q : Unit → σ → Prop} : wlp (set t : PyM σ Unit) Q s ↔ Q () t := by
  simp [wlp, set]
  exact ⟨fun h => h (), fun h _ => h⟩

@[simp] theorem wp_set {t : σ} {Q : Unit → σ → Prop} : wp (set t : PyM σ Unit) Q s ↔ Q () t := by
  simp [wp, set]
  exact ⟨fun ⟨_, h⟩ => h, fun h => ⟨(), h⟩⟩

@[simp] theorem wlp_modify {g : σ → σ} {Q : Unit → σ → Prop} :
    wlp (modify g : PyM σ Unit) Q s ↔ Q () (g s) := by
  simp [wlp, modify]
  exact ⟨fun h => h (), fun h _ => h⟩

@[simp] theorem wp_modify {g : σ → σ} {Q : Unit → σ → Prop} :
    wp (modify g : PyM σ Unit) Q s ↔ Q () (g s) := by
  simp [wp, modify]
  exact ⟨fun ⟨_, h⟩ => h, fun h => ⟨(), h⟩⟩

theorem wlp_ofExcept {r : Except Err α} :
    wlp (ofExcept r : PyM σ α) Q s ↔ ∀ a, r = .ok a → Q a s := by
  simp only [wlp, ofExcept, Prod.mk.injEq]
  constructor
  · intro h a ha; exact h a s ⟨ha, rfl⟩
  · rintro h a s' ⟨ha, rfl⟩; exact h a ha

theorem wp_ofExcept {r : Except Err α} :
    wp (ofExcept r : PyM σ α) Q s ↔ ∃ a, r = .ok a ∧ Q a s := by
  simp only [wp, ofExcept, Prod.mk.injEq]
  constructor
  · rintro ⟨a, s', ⟨ha, rfl⟩, hq⟩; exact ⟨a, ha, hq⟩
  · rintro ⟨a, ha, hq⟩; exact ⟨a, s, ⟨ha, rfl⟩, hq⟩

theorem wlp.mono (h : wlp m Q s) (hi : ∀ a s', Q a s' → R a s') : wlp m R s :=
  fun a s' e => hi a s' (h a s' e)

theorem wp.mono (h : wp m Q s) (hi : ∀ a s', Q a s' → R a s') : wp m R s := by
  obtain ⟨a, s', e, hq⟩ := h
  exact ⟨a, s', e, hi a s' hq⟩

theorem wlp.and (h1 : wlp m Q s) (h2 : wlp m R s) : wlp m (fun a s' => Q a s' ∧ R a s') s :=
  fun a s' e => ⟨h1 a s' e, h2 a s' e⟩

theorem wp.and (h1 : wp m Q s) (h2 : wlp m R s) : wp m (fun a s' => Q a s' ∧ R a s') s := by
  obtain ⟨a, s', e, hq⟩ := h1
  exact ⟨a, s', e, hq, h2 a s' e⟩

theorem wp.wlp (h : wp m Q s) : wlp m Q s := by
  obtain ⟨a, s', e, hq⟩ := h
  intro b s₂ hb
  rw [e] at hb
  simp only [Prod.mk.injEq, Except.ok.injEq] at hb
  obtain ⟨rfl, rfl⟩ := hb
  exact hq

theorem wlp_ite {c : Prop} [Decidable c] {m₁ m₂ : PyM σ α} :
    wlp (if c then m₁ else m₂) Q s ↔ (c → wlp m₁ Q s) ∧ (¬ c → wlp m₂ Q s) := by
  split <;> simp_all

theorem wp_ite {c : Prop} [Decidable c] {m₁ m₂ : PyM σ α} :
    wp (if c then m₁ else m₂) Q s ↔ (c → wp m₁ Q s) ∧ (¬ c → wp m₂ Q s) := by
  split <;> simp_all

theorem Post.wlp {Q : α → Prop} (h : Post m Q) (s : σ) : wlp m (fun a _ => Q a) s :=
  fun a s' e => h s a s' e

theorem wlp_true (m : PyM σ α) (s : σ) : wlp m (fun _ _ => True) s := fun _ _ _ => trivial

end

/-- `for x in xs: f x` -/
def forL (f : α → PyM σ Unit) : List α → PyM σ Unit
  | [] => pure ()
  | x :: xs => do
    f x
    forL f xs

theorem wlp_mapL {f : α → PyM σ β} (I : List α → List β → σ → Prop) {xs : List α} {s : σ}
    (h0 : I [] [] s)
    (hstep : ∀ pre x post ys s, xs = pre ++ x :: post → I pre ys s →
      wlp (f x) (fun y s' => I (pre ++ [x]) (ys ++ [y]) s') s) :
    wlp (mapL f xs) (fun ys s' => I xs ys s') s := by
  suffices ∀ post pre ys s, xs = pre ++ post → I pre ys s →
      wlp (mapL f post) (fun zs s' => I xs (ys ++ zs) s') s by
    simpa using this xs [] [] s rfl h0
  intro post
  induction post with
  | nil => intro pre ys s h hi; simp [mapL]; simpa [h] using hi
  | cons x post ih =>
    intro pre ys s h hi
    rw [mapL, wlp_bind]
    refine (hstep pre x post ys s h hi).mono fun y s' hi' => ?_
    rw [wlp_bind]
    refine (ih (pre ++ [x]) (ys ++ [y]) s' (by simp [h]) hi').mono fun zs s'' hi'' => ?_
    simpa using hi''

theorem wp_mapL {f : α → PyM σ β} (I : List α → List β → σ → Prop) {xs : List α} {s : σ}
    (h0 : I [] [] s)
    (hstep : ∀ pre x post ys s, xs = pre ++ x :: post → I pre ys s →
      wp (f x) (fun y s' => I (pre ++ [x]) (ys ++ [y]) s') s) :
    wp (mapL f xs) (fun ys s' => I xs ys s') s := by
  suffices ∀ post pre ys s, xs = pre ++ post → I pre ys s →
      wp (mapL f post) (fun zs s' => I xs (ys ++ zs) s') s by
    simpa using this xs [] [] s rfl h0
  intro post
  induction post with
  | nil => intro pre ys s h hi; simp [mapL]; simpa [h] using hi
  | cons x post ih =>
    intro pre ys s h hi
    rw [mapL, wp_bind]
    refine (hstep pre x post ys s h hi).mono fun y s' hi' => ?_
    rw [wp_bind]
    refine (ih (pre ++ [x]) (ys ++ [y]) s' (by simp [h]) hi').mono fun zs s'' hi'' => ?_
    simpa using hi''

theorem wlp_forL {f : α → PyM σ Unit} (I : List α → σ → Prop) {xs : List α} {s : σ}
    (h0 : I [] s)
    (hstep : ∀ pre x post s, xs = pre ++ x :: post → I pre s →
      wlp (f x) (fun _ s' => I (pre ++ [x]) s') s) :
    wlp (forL f xs) (fun _ s' => I xs s') s := by
  suffices ∀ post pre s, xs = pre ++ post → I pre s →
      wlp (forL f post) (fun _ s' => I xs s') s from this xs [] s rfl h0
  intro post
  induction post with
  | nil => intro pre s h hi; simp [forL]; simpa [h] using hi
  | cons x post ih =>
    intro pre s h hi
    rw [forL, wlp_bind]
    exact (hstep pre x post s h hi).mono fun _ s' hi' => ih (pre ++ [x]) s' (by simp [h]) hi'

theorem wp_forL {f : α → PyM σ Unit} (I : List α → σ → Prop) {xs : List α} {s : σ}
    (h0 : I [] s)
    (hstep : ∀ pre x post s, xs = pre ++ x :: post → I pre s →
      wp (f x) (fun _ s' => I (pre ++ [x]) s') s) :
    wp (forL f xs) (fun _ s' => I xs s') s := by
  suffices ∀ post pre s, xs = pre ++ post → I pre s →
      wp (forL f post) (fun _ s' => I xs s') s from this xs [] s rfl h0
  intro post
  induction post with
  | nil => intro pre s h hi; simp [forL]; simpa [h] using hi
  | cons x post ih =>
    intro pre s h hi
    rw [forL, wp_bind]
    exact (hstep pre x post s h hi).mono fun _ s' hi' => ih (pre ++ [x]) s' (by simp [h]) hi'

/-- Run a computation on a component of the state. -/
def zoom (get : σ → τ) (put : τ → σ → σ) (m : PyM τ α) : PyM σ α := fun s =>
  match m (get s) with
  | (r, t) => (r, put t s)

theorem wlp_zoom {g : σ → τ} {p : τ → σ → σ} {m : PyM τ α} {Q : α → σ → Prop} {s : σ} :
    wlp (zoom g p m) Q s ↔ wlp m (fun a t => Q a (p t s)) (g s) := by
  constructor
  · intro h a t e
    exact h a (p t s) (by simp [zoom, e])
  · intro h a s' e
    rcases hm : m (g s) with ⟨r, t⟩
    simp only [zoom, hm, Prod.mk.injEq] at e
    obtain ⟨rfl, rfl⟩ := e
    exact h a t hm

theorem wp_zoom {g : σ → τ} {p : τ → σ → σ} {m : PyM τ α} {Q : α → σ → Prop} {s : σ} :
    wp (zoom g p m) Q s ↔ wp m (fun a t => Q a (p t s)) (g s) := by
  constructor
  · rintro ⟨a, s', e, hq⟩
    rcases hm : m (g s) with ⟨r, t⟩
    simp only [zoom, hm, Prod.mk.injEq] at e
    obtain ⟨rfl, rfl⟩ := e
    exact ⟨a, t, hm, hq⟩
  · rintro ⟨a, t, e, hq⟩
    exact ⟨a, p t s, by simp [zoom, e], hq⟩

end Verif.PyM
