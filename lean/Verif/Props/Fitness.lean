import Verif.Spec.Fitness

/-! # C23, C24: comparison of fitness objects -/

namespace Verif.Evo
variable {f g h : Fit} {d : Bool} {w w₁ w₂ w₃ : Option ℚ} {p q r : ℚ} {m n k : Nat}

theorem Holds.getPure (hf : Holds f d w q) : f.getPure = .ok (.num q) := by
  simp [Fit.getPure, hf.evaluated, hf.value]

theorem Holds.augmented (hf : Holds f d w q) : f.augmented n = .ok (.num (score d w q n)) := by
  unfold Fit.augmented score
  rw [hf.getPure, hf.bloat, hf.dir]
  cases w with
  | none => rfl
  | some w =>
    by_cases hw : w = 0
    · subst hw; cases d <;> simp
    · cases d <;> simp [hw]

theorem Holds.isEvaluated (hf : Holds f d w q) : f.isEvaluated = true := by
  simp [Fit.isEvaluated, hf.evaluated]

/-- C23: `better_than` is numeric comparison of augmented fitness in the configured direction. -/
theorem C23_better (hf : Holds f d w₁ p) (hg : Holds g d w₂ q) :
    ∃ b, f.betterThan m g n = .ok b ∧
      (b = true ↔ Preferred d (score d w₁ p m) (score d w₂ q n)) := by
  unfold Fit.betterThan Fit.checkComparable Preferred
  rw [hf.isEvaluated, hg.isEvaluated, hf.augmented, hg.augmented, hf.dir]
  cases d <;> exact ⟨_, rfl, by simp⟩

/-- C23: `equal_to` is equality of augmented fitness. -/
theorem C23_equal (hf : Holds f d w₁ p) (hg : Holds g d w₂ q) :
    ∃ b, f.equalTo m g n = .ok b ∧ (b = true ↔ score d w₁ p m = score d w₂ q n) := by
  unfold Fit.equalTo Fit.checkComparable
  rw [hf.isEvaluated, hg.isEvaluated, hf.augmented, hg.augmented]
  exact ⟨_, rfl, by simp⟩

theorem better_iff (hf : Holds f d w₁ p) (hg : Holds g d w₂ q) :
    f.betterThan m g n = .ok true ↔ Preferred d (score d w₁ p m) (score d w₂ q n) := by
  obtain ⟨b, hb, hi⟩ := C23_better (m := m) (n := n) hf hg
  rw [hb, ← hi]; simp

theorem equal_iff (hf : Holds f d w₁ p) (hg : Holds g d w₂ q) :
    f.equalTo m g n = .ok true ↔ score d w₁ p m = score d w₂ q n := by
  obtain ⟨b, hb, hi⟩ := C23_equal (m := m) (n := n) hf hg
  rw [hb, ← hi]; simp

/-- C23: irreflexive. -/
theorem C23_irrefl (hf : Holds f d w p) : f.betterThan m f m = .ok false := by
  obtain ⟨b, hb, hi⟩ := C23_better (m := m) (n := m) hf hf
  rw [hb]
  cases b
  · rfl
  · exfalso
    have := hi.1 rfl
    cases d <;> simp [Preferred] at this

/-- C23: asymmetric. -/
theorem C23_asymm (hf : Holds f d w₁ p) (hg : Holds g d w₂ q)
    (hb : f.betterThan m g n = .ok true) : g.betterThan n f m = .ok false := by
  obtain ⟨b, hb', hi⟩ := C23_better (m := n) (n := m) hg hf
  rw [hb']
  cases b
  · rfl
  · exfalso
    have h1 := (better_iff hf hg).1 hb
    have h2 := hi.1 rfl
    cases d <;> simp only [Preferred, if_true, Bool.false_eq_true, if_false] at h1 h2 <;> linarith

/-- C23: transitive. -/
theorem C23_trans (hf : Holds f d w₁ p) (hg : Holds g d w₂ q) (hh : Holds h d w₃ r)
    (h1 : f.betterThan m g n = .ok true) (h2 : g.betterThan n h k = .ok true) :
    f.betterThan m h k = .ok true := by
  rw [better_iff hf hg] at h1
  rw [better_iff hg hh] at h2
  rw [better_iff hf hh]
  cases d <;> simp only [Preferred, if_true, Bool.false_eq_true, if_false] at * <;> linarith

/-- C23: exactly one of "first better", "second better", "equal" holds. -/
theorem C23_trichotomy (hf : Holds f d w₁ p) (hg : Holds g d w₂ q) :
    (f.betterThan m g n, g.betterThan n f m, f.equalTo m g n) ∈
      [((.ok true : Except Err Bool), (.ok false : Except Err Bool), (.ok false : Except Err Bool)),
       (.ok false, .ok true, .ok false), (.ok false, .ok false, .ok true)] := by
  obtain ⟨a, ha, ia⟩ := C23_better (m := m) (n := n) hf hg
  obtain ⟨b, hb, ib⟩ := C23_better (m := n) (n := m) hg hf
  obtain ⟨c, hc, ic⟩ := C23_equal (m := m) (n := n) hf hg
  rw [ha, hb, hc]
  rcases lt_trichotomy (score d w₁ p m) (score d w₂ q n) with h | h | h
  · have h1 := not_lt.2 h.le
    have h2 := h.ne
    cases d <;> simp only [Preferred, if_true, Bool.false_eq_true, if_false, h, h1, h2, iff_true, iff_false,
      Bool.not_eq_true] at ia ib ic <;> simp [ia, ib, ic]
  · cases d <;> simp only [Preferred, if_true, Bool.false_eq_true, if_false, h, iff_true, iff_false,
      Bool.not_eq_true, lt_irrefl] at ia ib ic <;> simp [ia, ib, ic]
  · have h1 := not_lt.2 h.le
    have h2 := h.ne'
    cases d <;> simp only [Preferred, if_true, Bool.false_eq_true, if_false, h, h1, h2, iff_true, iff_false,
      Bool.not_eq_true] at ia ib ic <;> simp [ia, ib, ic]

/-- C23: being tied is transitive (so the order is a strict *weak* order). -/
theorem C23_ties_trans (hf : Holds f d w₁ p) (hg : Holds g d w₂ q) (hh : Holds h d w₃ r)
    (h1 : f.equalTo m g n = .ok true) (h2 : g.equalTo n h k = .ok true) :
    f.equalTo m h k = .ok true := by
  rw [equal_iff hf hg] at h1
  rw [equal_iff hg hh] at h2
  rw [equal_iff hf hh, h1, h2]

/-- C23: comparing with an unevaluated fitness is a `ValueError`, whichever side it is on, relative or
not. -/
theorem C23_unevaluated (hu : f.evaluated = false ∨ g.evaluated = false)
    (hf : f.evaluated = true → ∃ q, f.value = .num q) :
    f.betterThan m g n = .error .valueError ∧ f.equalTo m g n = .error .valueError := by
  have key : f.checkComparable g = .error .valueError ∨
      f.augmented m = .error .valueError ∨
      (∃ a, f.augmented m = .ok a) ∧ g.augmented n = .error .valueError := by
    by_cases h1 : f.evaluated = true
    · have h2 : g.evaluated = false := by
        rcases hu with h | h
        · rw [h] at h1; cases h1
        · exact h
      obtain ⟨q, hq⟩ := hf h1
      have hh : Holds f f.hib f.bloat q := ⟨hq, h1, rfl, rfl⟩
      exact .inr (.inr ⟨⟨_, hh.augmented⟩, by simp [Fit.augmented, Fit.getPure, h2]⟩)
    · simp only [Bool.not_eq_true] at h1
      exact .inr (.inl (by simp [Fit.augmented, Fit.getPure, h1]))
  unfold Fit.betterThan Fit.equalTo
  cases hc : f.checkComparable g with
  | error e =>
    have : e = .valueError := by
      unfold Fit.checkComparable at hc
      split at hc
      · simpa using hc.symm
      · cases hc
    subst this; exact ⟨rfl, rfl⟩
  | ok _ =>
    rcases key with h | h | ⟨⟨a, ha⟩, h⟩
    · rw [hc] at h; cases h
    · simp [h]
    · simp [ha, h]

/-- C23: an individual is better than no individual (`None`), and it is better than another one exactly if its fitness is. -/
theorem C23_individuals {G : Type} (size : G → Nat) (inds : List (Ind G)) (a : Nat) : betterOf size inds a none = .ok true ∧
    ∀ (b : Nat) (i j : Ind G), inds[a]? = some i → inds[b]? = some j →
      betterOf size inds a (some b) = i.fit.betterThan (size i.genome) j.fit (size j.genome) := by
  refine ⟨rfl, fun b i j hi hj => ?_⟩
  simp only [betterOf, hi, hj]

example (i : Ind Nat) : betterOf (fun _ => 1) [i, i] 0 (some 1) = i.fit.betterThan 1 i.fit 1 :=
  (C23_individuals (fun _ => 1) [i, i] 0).2 1 i i rfl rfl

/-! ## C24: bloat control -/

/-- C24: with a positive weight, of two equally fit trees exactly the smaller one is better. -/
theorem C24_smaller {b : ℚ} (hb : 0 < b) (hf : Holds f d (some b) q) (hg : Holds g d (some b) q) :
    f.betterThan m g n = .ok (decide (m < n)) := by
  obtain ⟨x, hx, hi⟩ := C23_better (m := m) (n := n) hf hg
  rw [hx]
  congr 1
  rw [Bool.eq_iff_iff, hi, decide_eq_true_iff]
  have : m < n ↔ b * (m : ℚ) < b * n := by
    rw [mul_lt_mul_iff_right₀ hb]; exact_mod_cast Iff.rfl
  rw [this]
  cases d <;> simp only [Preferred, score, if_true, Bool.false_eq_true, if_false] <;>
    constructor <;> intro h <;> linarith

/-- C24: with weight zero the comparison ignores size. -/
theorem C24_zero (hf : Holds f d (some 0) p) (hg : Holds g d (some 0) q) (m' n' : Nat) :
    f.betterThan m g n = f.betterThan m' g n' ∧
      (f.betterThan m g n = .ok true ↔ Preferred d p q) := by
  refine ⟨?_, ?_⟩
  · obtain ⟨x, hx, hi⟩ := C23_better (m := m) (n := n) hf hg
    obtain ⟨y, hy, hj⟩ := C23_better (m := m') (n := n') hf hg
    rw [hx, hy]
    congr 1
    rw [Bool.eq_iff_iff, hi, hj]
    cases d <;> simp [Preferred, score]
  · rw [better_iff hf hg]
    cases d <;> simp [Preferred, score]

/-- C24: growing a tree without changing its fitness never makes it better against anyone, and
shrinking never makes it worse. -/
theorem C24_monotone {b : ℚ} (hb : 0 ≤ b) (hf : Holds f d (some b) p) (hg : Holds g d w q)
    (hmn : m ≤ n) (h : f.betterThan n g k = .ok true) : f.betterThan m g k = .ok true := by
  rw [better_iff hf hg] at h ⊢
  have : b * (m : ℚ) ≤ b * n := mul_le_mul_of_nonneg_left (by exact_mod_cast hmn) hb
  cases d <;> simp only [Preferred, score, if_true, Bool.false_eq_true, if_false] at h ⊢ <;> linarith

/-! ## Instances -/

/-- A GP fitness with value `q`, built by the constructor. -/
def exGP (q : ℚ) (hib : Bool) (b : ℚ) : Fit := ⟨.num q, true, hib, false, true, some b⟩

example : newFit (.num 3) (some true) true false (some (1/10)) = .ok (exGP 3 true (1/10)) := by
  decide +kernel

theorem exGP_holds (q : ℚ) (hib : Bool) (b : ℚ) : Holds (exGP q hib b) hib (some b) q := ⟨rfl, rfl, rfl, rfl⟩

example : (exGP 3 true (1/10)).betterThan 5 (exGP 2 true (1/10)) 4 = .ok true ∧
    (exGP 3 true (1/10)).betterThan 25 (exGP 2 true (1/10)) 4 = .ok false ∧
    (exGP 3 false (1/10)).betterThan 5 (exGP 3 false (1/10)) 9 = .ok true ∧
    (exGP 3 false 0).betterThan 5 (exGP 3 false 0) 9 = .ok false := by decide +kernel

example : Preferred true (score true (some (1/10)) 3 5) (score true (some (1/10)) 2 4) := by
  simp [Preferred, score]; norm_num

example : ((exGP 3 true 0).setNotEvaluated).betterThan 1 (exGP 2 true 0) 1 = .error .valueError := by
  decide +kernel

end Verif.Evo
