import Verif.Model.Examples
import Mathlib.Tactic.Positivity
import Mathlib.Tactic.FieldSimp
import Mathlib.Tactic.Linarith

/-! # C143: the ZDT examples -/

namespace Verif.Examples

/-- A vector of the example: `k` cells between 0 and 1. -/
def InCube (k : Nat) (v : List ℝ) : Prop := v.length = k ∧ ∀ x ∈ v, 0 ≤ x ∧ x ≤ 1

/-- `a` dominates `b` if small objectives are good: it is nowhere worse and somewhere better. -/
def Beats (a b : List ℝ) : Prop := List.Forall₂ (· ≤ ·) a b ∧ a ≠ b

/-- No vector of the example dominates `v`. -/
def Optimal (f : List ℝ → List ℝ) (k : Nat) (v : List ℝ) : Prop := InCube k v ∧ ∀ w, InCube k w → ¬ Beats (f w) (f v)

/-- C143: as in the problems ZDT1 and ZDT2, the Pareto-optimal vectors are those with nothing but zeros after the first
cell. -/
def C143_statement : Prop :=
  ∀ k v, 2 ≤ k → InCube k v → (Optimal zdt1 k v ↔ ∀ x ∈ v.tail, x = 0) ∧ (Optimal zdt2 k v ↔ ∀ x ∈ v.tail, x = 0)

theorem sum_tail_nonneg {l : List ℝ} (h : ∀ x ∈ l, 0 ≤ x) : 0 ≤ l.sum ∧ (l.sum = 0 → ∀ x ∈ l, x = 0) := by
  induction l with
  | nil => simp
  | cons y l ih =>
    obtain ⟨h1, h2⟩ := ih fun x hx => h x (by simp [hx])
    have hy := h y (by simp)
    rw [List.sum_cons]
    refine ⟨by linarith, fun he x hx => ?_⟩
    rcases List.mem_cons.1 hx with rfl | hx
    · linarith
    · exact h2 (by linarith) x hx

theorem sum_zero {l : List ℝ} (h : ∀ x ∈ l, x = 0) : l.sum = 0 := by
  induction l with
  | nil => rfl
  | cons y l ih => rw [List.sum_cons, h y (by simp), ih fun x hx => h x (by simp [hx]), add_zero]

variable {k : Nat} {v : List ℝ}

theorem InCube.tail (h : InCube k v) : ∀ x ∈ v.tail, 0 ≤ x := fun x hx => (h.2 x (List.mem_of_mem_tail hx)).1

theorem InCube.head (hk : 2 ≤ k) (h : InCube k v) : 0 ≤ v.headD 0 ∧ v.headD 0 ≤ 1 := by
  cases v with
  | nil => have := h.1; simp at this; omega
  | cons x v => exact h.2 x (by simp)

/-- `g` is at least 1, and 1 exactly if there are only zeros after the first cell. -/
theorem zdtG_spec (hk : 2 ≤ k) (h : InCube k v) : 1 ≤ zdtG v ∧ (zdtG v = 1 ↔ ∀ x ∈ v.tail, x = 0) := by
  obtain ⟨h1, h2⟩ := sum_tail_nonneg h.tail
  have hpos : (0 : ℝ) < 9 / ((v.length : ℝ) - 1) := by
    have : (2 : ℝ) ≤ v.length := by rw [h.1]; exact_mod_cast hk
    apply div_pos <;> linarith
  unfold zdtG
  refine ⟨by have := mul_nonneg hpos.le h1; linarith, fun he => h2 ?_, fun hz => by rw [sum_zero hz]; simp⟩
  have : 9 / ((v.length : ℝ) - 1) * v.tail.sum = 0 := by linarith
  rcases mul_eq_zero.1 this with h3 | h3
  · linarith
  · exact h3

/-- The objectives of both evaluators, with the square root and the square as `φ`. -/
noncomputable def zdt (φ : ℝ → ℝ) (v : List ℝ) : List ℝ := [v.headD 0, 1 - φ (v.headD 0 / zdtG v)]

/-- The function grows strictly on the numbers that are not negative. -/
def Grows (φ : ℝ → ℝ) : Prop := ∀ x y, 0 ≤ x → 0 ≤ y → (φ x ≤ φ y ↔ x ≤ y)

theorem grows_sqrt : Grows Real.sqrt := fun _ _ _ hy => Real.sqrt_le_sqrt_iff hy

theorem grows_sq : Grows (· ^ 2) := fun _ _ hx hy => pow_le_pow_iff_left₀ hx hy (by omega)

theorem beats_iff {a b c d : ℝ} : Beats [a, b] [c, d] ↔ a ≤ c ∧ b ≤ d ∧ (a ≠ c ∨ b ≠ d) := by
  unfold Beats
  simp only [List.forall₂_cons, List.forall₂_nil_left_iff, and_true, ne_eq, List.cons.injEq, not_and_or]
  tauto

theorem zdt_optimal {φ : ℝ → ℝ} (hφ : Grows φ) (hk : 2 ≤ k) (h : InCube k v) :
    Optimal (zdt φ) k v ↔ v.headD 0 = 0 ∨ ∀ x ∈ v.tail, x = 0 := by
  obtain ⟨hg1, hg2⟩ := zdtG_spec hk h
  obtain ⟨hv0, hv1⟩ := h.head hk
  have hgpos : 0 < zdtG v := by linarith
  have hnn : 0 ≤ v.headD 0 / zdtG v := div_nonneg hv0 hgpos.le
  constructor
  · rintro ⟨-, hopt⟩
    by_contra hno
    rw [not_or] at hno
    obtain ⟨hne, htail⟩ := hno
    have hx : 0 < v.headD 0 := lt_of_le_of_ne hv0 (Ne.symm hne)
    have hg : 1 < zdtG v := lt_of_le_of_ne hg1 fun he => htail (hg2.1 he.symm)
    have hw : InCube k (v.headD 0 :: List.replicate (k - 1) 0) := by
      refine ⟨by simp; omega, fun x hx => ?_⟩
      rcases List.mem_cons.1 hx with rfl | hx
      · exact ⟨hv0, hv1⟩
      · rw [(List.mem_replicate.1 hx).2]; simp
    have hgw : zdtG (v.headD 0 :: List.replicate (k - 1) 0) = 1 :=
      (zdtG_spec hk hw).2.2 fun x hx => (List.mem_replicate.1 hx).2
    refine hopt _ hw ?_
    unfold zdt
    rw [beats_iff, hgw, List.headD_cons, div_one]
    have hlt : v.headD 0 / zdtG v < v.headD 0 := div_lt_self hx hg
    have h1 := (hφ _ _ hnn hv0).2 hlt.le
    have h2 : ¬ φ (v.headD 0) ≤ φ (v.headD 0 / zdtG v) := fun hle => absurd ((hφ _ _ hv0 hnn).1 hle) (not_le.2 hlt)
    exact ⟨le_refl _, by linarith, .inr fun he => h2 (by linarith)⟩
  · intro hor
    refine ⟨h, fun w hw hb => ?_⟩
    obtain ⟨hgw, -⟩ := zdtG_spec hk hw
    obtain ⟨hw0, -⟩ := hw.head hk
    have hgwpos : 0 < zdtG w := by linarith
    have hwn : 0 ≤ w.headD 0 / zdtG w := div_nonneg hw0 hgwpos.le
    unfold zdt at hb
    rw [beats_iff] at hb
    obtain ⟨h1, h2, h3⟩ := hb
    have h4 : v.headD 0 / zdtG v ≤ w.headD 0 / zdtG w := (hφ _ _ hnn hwn).1 (by linarith)
    have h5 : w.headD 0 / zdtG w ≤ w.headD 0 := div_le_self hw0 hgw
    have h6 : w.headD 0 / zdtG w ≤ v.headD 0 / zdtG v := by
      rcases hor with hz | hz
      · rw [hz] at h1 ⊢
        rw [zero_div]
        linarith
      · rw [hg2.2 hz, div_one]
        linarith
    have h7 : v.headD 0 / zdtG v = w.headD 0 / zdtG w := le_antisymm h4 h6
    have h8 : w.headD 0 = v.headD 0 := by
      rcases hor with hz | hz
      · rw [hz] at h1 ⊢
        exact le_antisymm h1 hw0
      · rw [hg2.2 hz, div_one] at h7
        exact le_antisymm h1 (by linarith)
    rcases h3 with h3 | h3
    · exact h3 h8
    · exact h3 (by rw [h7])

/-- **C143 (partial).** With the objectives of the examples, the Pareto-optimal vectors are those with nothing but zeros after
the first cell and, besides, all those whose first cell is zero. -/
theorem C143_partial (hk : 2 ≤ k) (h : InCube k v) :
    (Optimal zdt1 k v ↔ v.headD 0 = 0 ∨ ∀ x ∈ v.tail, x = 0) ∧ (Optimal zdt2 k v ↔ v.headD 0 = 0 ∨ ∀ x ∈ v.tail, x = 0) :=
  ⟨zdt_optimal grows_sqrt hk h, zdt_optimal grows_sq hk h⟩

/-- So for vectors whose first cell is not zero the statement holds. -/
theorem C143_positive_partial (hk : 2 ≤ k) (h : InCube k v) (hpos : v.headD 0 ≠ 0) :
    (Optimal zdt1 k v ↔ ∀ x ∈ v.tail, x = 0) ∧ (Optimal zdt2 k v ↔ ∀ x ∈ v.tail, x = 0) := by
  simpa only [hpos, false_or] using C143_partial hk h

theorem exCube : InCube 2 [0, 1] := ⟨rfl, by intro x hx; simp at hx; rcases hx with rfl | rfl <;> norm_num⟩

/-- **C143 is false** of the code: nothing dominates the vector `[0, 1]`. -/
theorem C143_refuted : ¬ C143_statement := by
  intro h
  have := ((h 2 [0, 1] (le_refl _) exCube).1.1 ((C143_partial (le_refl _) exCube).1.2 (.inl rfl))) 1 (by simp)
  norm_num at this

/-- The second objective as in the problems: the factor `g` is missing in the code. -/
noncomputable def zdtTimesG (φ : ℝ → ℝ) (v : List ℝ) : List ℝ := [v.headD 0, zdtG v * (1 - φ (v.headD 0 / zdtG v))]

/-- With a larger `g` the second objective of the problems is worse. -/
def Steep (φ : ℝ → ℝ) : Prop := ∀ x g, 0 ≤ x → x ≤ 1 → 1 < g → 1 - φ x < g * (1 - φ (x / g))

theorem steep_sqrt : Steep Real.sqrt := by
  intro x g hx _ hg
  have hg0 : 0 < g := by linarith
  have hs : 1 < Real.sqrt g := by rw [Real.lt_sqrt (by norm_num)]; linarith
  have hx1 : Real.sqrt x ≤ 1 := Real.sqrt_le_one.2 ‹x ≤ 1›
  have hgg : Real.sqrt g * Real.sqrt g = g := Real.mul_self_sqrt hg0.le
  have h1 : g * Real.sqrt (x / g) = Real.sqrt g * Real.sqrt x := by
    rw [Real.sqrt_div hx]
    nth_rewrite 1 [← hgg]
    field_simp
  rw [mul_sub, mul_one, h1]
  nlinarith

theorem steep_sq : Steep (· ^ 2) := by
  intro x g hx hx1 hg
  have hg0 : 0 < g := by linarith
  have h1 : g * (x / g) ^ 2 = x ^ 2 / g := by field_simp
  have h2 : x ^ 2 / g ≤ x ^ 2 := div_le_self (by positivity) hg.le
  show 1 - x ^ 2 < g * (1 - (x / g) ^ 2)
  rw [mul_sub, mul_one, h1]
  linarith

/-- **C143** with the factor: then the statement holds for all vectors.  (This is not the code; it shows that nothing but the
factor is missing.) -/
theorem C143_with_factor {φ : ℝ → ℝ} (hφ : Grows φ) (hst : Steep φ) (hk : 2 ≤ k) (h : InCube k v) :
    Optimal (zdtTimesG φ) k v ↔ ∀ x ∈ v.tail, x = 0 := by
  have hle : ∀ w, InCube k w → 1 - φ (w.headD 0) ≤ zdtG w * (1 - φ (w.headD 0 / zdtG w)) := by
    intro w hw
    rcases (zdtG_spec hk hw).1.eq_or_lt with he | hlt
    · rw [← he, div_one, one_mul]
    · exact (hst _ _ (hw.head hk).1 (hw.head hk).2 hlt).le
  obtain ⟨hg1, hg2⟩ := zdtG_spec hk h
  obtain ⟨hv0, hv1⟩ := h.head hk
  constructor
  · rintro ⟨-, hopt⟩
    by_contra htail
    have hg : 1 < zdtG v := lt_of_le_of_ne hg1 fun he => htail (hg2.1 he.symm)
    have hw : InCube k (v.headD 0 :: List.replicate (k - 1) 0) := by
      refine ⟨by simp; omega, fun x hx => ?_⟩
      rcases List.mem_cons.1 hx with rfl | hx
      · exact ⟨hv0, hv1⟩
      · rw [(List.mem_replicate.1 hx).2]; simp
    have hgw : zdtG (v.headD 0 :: List.replicate (k - 1) 0) = 1 :=
      (zdtG_spec hk hw).2.2 fun x hx => (List.mem_replicate.1 hx).2
    refine hopt _ hw ?_
    unfold zdtTimesG
    rw [beats_iff, hgw, List.headD_cons, div_one, one_mul]
    have := hst _ _ hv0 hv1 hg
    exact ⟨le_refl _, this.le, .inr this.ne⟩
  · intro hz
    refine ⟨h, fun w hw hb => ?_⟩
    unfold zdtTimesG at hb
    rw [beats_iff, hg2.2 hz, div_one, one_mul] at hb
    obtain ⟨h1, h2, h3⟩ := hb
    have h4 := hle w hw
    have h5 := (hφ _ _ (hw.head hk).1 hv0).2 h1
    have h6 : w.headD 0 = v.headD 0 := le_antisymm h1 ((hφ _ _ hv0 (hw.head hk).1).1 (by linarith))
    rcases h3 with h3 | h3
    · exact h3 h6
    · rw [h6] at h4
      rw [h6] at h2 h3
      exact h3 (le_antisymm h2 h4)

example : Optimal zdt1 3 [1 / 2, 0, 0] ∧ ¬ Optimal zdt1 3 [1 / 2, 0, 1] := by
  have h1 : InCube 3 [1 / 2, 0, 0] := ⟨rfl, by intro x hx; simp at hx; rcases hx with rfl | rfl <;> norm_num⟩
  have h2 : InCube 3 [1 / 2, 0, 1] := ⟨rfl, by intro x hx; simp at hx; rcases hx with rfl | rfl | rfl <;> norm_num⟩
  refine ⟨(C143_positive_partial (by omega) h1 (by norm_num)).1.2 (by simp), fun h => ?_⟩
  have := (C143_positive_partial (by omega) h2 (by norm_num)).1.1 h 1 (by simp)
  norm_num at this

end Verif.Examples
