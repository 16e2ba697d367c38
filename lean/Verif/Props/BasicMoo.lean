import Verif.Props.Zdt

/-! # C147: the basic multi-objective example; C148: the ZDT3 example -/

namespace Verif.Examples

/-! ## C147 -/

/-- A vector of the example: `k` cells between `-b` and `b`. -/
def InBox (k : Nat) (b : ℝ) (v : List ℝ) : Prop := v.length = k ∧ ∀ x ∈ v, -b ≤ x ∧ x ≤ b

/-- The sum of the squared distances from `c`. -/
noncomputable def sqDist (c : ℝ) (v : List ℝ) : ℝ := (v.map fun x => (x - c) ^ 2).sum

/-- The mean of the cells. -/
noncomputable def cellMean (v : List ℝ) : ℝ := v.sum / v.length

/-- The sum of the squared distances from two points in terms of each other. -/
theorem sqDist_shift (v : List ℝ) (c m : ℝ) :
    sqDist c v = sqDist m v + 2 * (m - c) * (v.sum - v.length * m) + v.length * (m - c) ^ 2 := by
  induction v with
  | nil => simp [sqDist]
  | cons x v ih =>
    have e : ∀ c, sqDist c (x :: v) = (x - c) ^ 2 + sqDist c v := fun c => by simp [sqDist]
    rw [e, e, ih, List.sum_cons, List.length_cons]
    push_cast
    ring

theorem sqDist_nonneg (c : ℝ) (v : List ℝ) : 0 ≤ sqDist c v ∧ (sqDist c v = 0 → ∀ x ∈ v, x = c) := by
  obtain ⟨h1, h2⟩ := sum_tail_nonneg (l := v.map fun x => (x - c) ^ 2) (by
    intro x hx
    obtain ⟨y, -, rfl⟩ := List.mem_map.1 hx
    positivity)
  refine ⟨h1, fun h x hx => ?_⟩
  have := h2 h _ (List.mem_map.2 ⟨x, hx, rfl⟩)
  have := pow_eq_zero_iff (n := 2) (by omega) |>.1 this
  linarith

theorem sqDist_mean {v : List ℝ} (hv : v ≠ []) (c : ℝ) :
    sqDist c v = sqDist (cellMean v) v + v.length * (cellMean v - c) ^ 2 := by
  rw [sqDist_shift v c (cellMean v)]
  have hn : (v.length : ℝ) ≠ 0 := by
    have := List.length_pos_iff.2 hv
    exact_mod_cast (by omega : v.length ≠ 0)
  have : v.sum - v.length * cellMean v = 0 := by unfold cellMean; field_simp; ring
  rw [this]
  ring

theorem sqDist_const (n : Nat) (t c : ℝ) : sqDist c (List.replicate n t) = n * (t - c) ^ 2 := by
  simp [sqDist]

theorem basicMoo_eq (v : List ℝ) : basicMoo v = [1 - Real.exp (-sqDist (1 / Real.sqrt v.length) v),
    1 - Real.exp (-sqDist (-(1 / Real.sqrt v.length)) v)] := by
  simp [basicMoo, sqDist]

theorem exp_le {a b : ℝ} : 1 - Real.exp (-a) ≤ 1 - Real.exp (-b) ↔ a ≤ b := by
  rw [sub_le_sub_iff_left, Real.exp_le_exp]
  constructor <;> intro h <;> linarith

theorem exp_ne {a b : ℝ} : 1 - Real.exp (-a) ≠ 1 - Real.exp (-b) ↔ a ≠ b := by
  rw [not_iff_not]
  constructor
  · intro h
    have := Real.exp_injective (by linarith : Real.exp (-a) = Real.exp (-b))
    linarith
  · rintro rfl; rfl

variable {k : Nat} {v w : List ℝ}

/-- One vector dominates another one of the same length if it is at least as close to both centres, and closer to one. -/
theorem basic_beats (h : w.length = v.length) : Beats (basicMoo w) (basicMoo v) ↔
    sqDist (1 / Real.sqrt v.length) w ≤ sqDist (1 / Real.sqrt v.length) v ∧
    sqDist (-(1 / Real.sqrt v.length)) w ≤ sqDist (-(1 / Real.sqrt v.length)) v ∧
    (sqDist (1 / Real.sqrt v.length) w ≠ sqDist (1 / Real.sqrt v.length) v ∨
     sqDist (-(1 / Real.sqrt v.length)) w ≠ sqDist (-(1 / Real.sqrt v.length)) v) := by
  rw [basicMoo_eq, basicMoo_eq, h, beats_iff, exp_le, exp_le, exp_ne, exp_ne]

/-- **C147**: the Pareto-optimal vectors of the basic multi-objective example are those with equal cells between the two
centres `-1/√k` and `1/√k`, if the bounds admit these (in the example, `k = 3` and the bounds are -4 and 4). -/
theorem C147 {b : ℝ} (hk : 1 ≤ k) (hb : 1 / Real.sqrt k ≤ b) (h : InBox k b v) :
    (∀ w, InBox k b w → ¬ Beats (basicMoo w) (basicMoo v)) ↔ ∃ t, |t| ≤ 1 / Real.sqrt k ∧ v = List.replicate k t := by
  have hlen := h.1
  have hv : v ≠ [] := by rintro rfl; simp at hlen; omega
  have hkpos : (0 : ℝ) < k := by exact_mod_cast hk
  set a : ℝ := 1 / Real.sqrt k with ha
  have ha0 : 0 < a := by rw [ha]; positivity
  constructor
  · intro hopt
    set m := cellMean v with hm
    -- the nearest admissible mean
    obtain ⟨t, ht, h1, h2, h3⟩ : ∃ t, |t| ≤ a ∧ (t - a) ^ 2 ≤ (m - a) ^ 2 ∧ (t + a) ^ 2 ≤ (m + a) ^ 2 ∧
        (|m| ≤ a → t = m) ∧ (a < |m| → (t - a) ^ 2 ≠ (m - a) ^ 2 ∨ (t + a) ^ 2 ≠ (m + a) ^ 2) := by
      by_cases h1 : a < m
      · refine ⟨a, by rw [abs_of_pos ha0], by nlinarith [sq_nonneg (m - a)], by nlinarith, fun h => ?_, fun _ => .inl ?_⟩
        · have := (abs_le.1 h).2; linarith
        · have : 0 < (m - a) ^ 2 := by have : 0 < m - a := by linarith
                                       positivity
          rw [sub_self]; intro e; simp at e; linarith
      · by_cases h2 : m < -a
        · refine ⟨-a, by rw [abs_neg, abs_of_pos ha0], by nlinarith, by nlinarith [sq_nonneg (m + a)], fun h => ?_, fun _ => .inr ?_⟩
          · have := (abs_le.1 h).1; linarith
          · have : 0 < (m + a) ^ 2 := by have : 0 < -(m + a) := by linarith
                                         nlinarith
            intro e; simp at e; linarith
        · have hma : |m| ≤ a := abs_le.2 ⟨by linarith, by linarith⟩
          exact ⟨m, hma, le_rfl, le_rfl, fun _ => rfl, fun h => absurd hma (not_le.2 h)⟩
    refine ⟨t, ht, ?_⟩
    have hw : InBox k b (List.replicate k t) := ⟨by simp, fun x hx => by
      rw [List.eq_of_mem_replicate hx]
      have := abs_le.1 ht
      constructor <;> linarith [this.1, this.2]⟩
    have hno := hopt _ hw
    rw [basic_beats (by simp [hlen]), hlen, ← ha, sqDist_const, sqDist_const, sqDist_mean hv a, sqDist_mean hv (-a), hlen, ← hm] at hno
    have hV := sqDist_nonneg m v
    have hle1 : (k : ℝ) * (t - a) ^ 2 ≤ sqDist m v + k * (m - a) ^ 2 := by
      have := mul_le_mul_of_nonneg_left h1 hkpos.le; linarith [hV.1]
    have hle2 : (k : ℝ) * (t - -a) ^ 2 ≤ sqDist m v + k * (m - -a) ^ 2 := by
      have := mul_le_mul_of_nonneg_left h2 hkpos.le
      rw [sub_neg_eq_add, sub_neg_eq_add]; linarith [hV.1]
    have heq1 : (k : ℝ) * (t - a) ^ 2 = sqDist m v + k * (m - a) ^ 2 := by
      by_contra hne; exact hno ⟨hle1, hle2, .inl hne⟩
    have heq2 : (k : ℝ) * (t - -a) ^ 2 = sqDist m v + k * (m - -a) ^ 2 := by
      by_contra hne; exact hno ⟨hle1, hle2, .inr hne⟩
    have hz : sqDist m v = 0 := by
      have := mul_le_mul_of_nonneg_left h1 hkpos.le; linarith [hV.1]
    have hma : |m| ≤ a := by
      by_contra hgt
      rcases h3.2 (not_le.1 hgt) with h4 | h4
      · apply h4
        have : (k : ℝ) * (t - a) ^ 2 = k * (m - a) ^ 2 := by linarith
        exact mul_left_cancel₀ hkpos.ne' this
      · apply h4
        have : (k : ℝ) * (t + a) ^ 2 = k * (m + a) ^ 2 := by
          rw [sub_neg_eq_add, sub_neg_eq_add] at heq2; linarith
        exact mul_left_cancel₀ hkpos.ne' this
    rw [h3.1 hma]
    exact List.eq_replicate_iff.2 ⟨hlen, hV.2 hz⟩
  · rintro ⟨t, ht, rfl⟩ w hw hbeat
    have hwne : w ≠ [] := by rintro rfl; have := hw.1; simp at this; omega
    rw [basic_beats (by rw [hw.1]; simp), List.length_replicate, ← ha, sqDist_const, sqDist_const, sqDist_mean hwne a,
      sqDist_mean hwne (-a), hw.1] at hbeat
    obtain ⟨h1, h2, h3⟩ := hbeat
    set m := cellMean w
    have hV := (sqDist_nonneg m w).1
    obtain ⟨ht1, ht2⟩ := abs_le.1 ht
    have e1 : (m - a) ^ 2 ≤ (t - a) ^ 2 := le_of_mul_le_mul_left (by linarith) hkpos
    have e2 : (m - -a) ^ 2 ≤ (t - -a) ^ 2 := le_of_mul_le_mul_left (by linarith) hkpos
    have f1 := abs_le_of_sq_le_sq' (a := m - a) (b := a - t) (by nlinarith) (by linarith)
    have f2 := abs_le_of_sq_le_sq' (a := m - -a) (b := t + a) (by nlinarith) (by linarith)
    have hmt : m = t := by linarith [f1.1, f2.2]
    rw [hmt] at h1 h2 h3
    have hz : sqDist t w = 0 := by
      rw [← hmt]; rw [← hmt] at h1; linarith
    rcases h3 with h3 | h3 <;> exact h3 (by rw [hz]; ring)

/-- In the example: of the vectors with three cells, `[1/4, 1/4, 1/4]` is Pareto-optimal and `[1/4, 0, 1/4]` is not. -/
example : (∀ w, InBox 3 4 w → ¬ Beats (basicMoo w) (basicMoo [1 / 4, 1 / 4, 1 / 4])) ∧
    ¬ (∀ w, InBox 3 4 w → ¬ Beats (basicMoo w) (basicMoo [1 / 4, 0, 1 / 4])) := by
  have hs : Real.sqrt ((3 : Nat) : ℝ) ≤ 4 := by
    rw [Real.sqrt_le_left (by norm_num)]; norm_num
  have hs1 : 1 ≤ Real.sqrt ((3 : Nat) : ℝ) := by rw [Real.one_le_sqrt]; norm_num
  have hb : 1 / Real.sqrt ((3 : Nat) : ℝ) ≤ 4 := by
    rw [div_le_iff₀ (by linarith)]; linarith
  constructor
  · refine (C147 (k := 3) (by omega) hb ⟨rfl, by simp; norm_num⟩).2 ⟨1 / 4, ?_, rfl⟩
    rw [abs_of_pos (by norm_num), div_le_div_iff₀ (by norm_num) (by linarith)]
    linarith
  · rw [C147 (k := 3) (by omega) hb ⟨rfl, by simp; norm_num⟩]
    rintro ⟨t, -, ht⟩
    simp [List.replicate] at ht
    have := ht.1.trans ht.2.1.symm
    norm_num at this

/-! ## C148 -/

/-- The problem ZDT3: both objectives are minimised, and the second has the factor `g`. -/
noncomputable def zdt3Problem (v : List ℝ) : List ℝ :=
  [v.headD 0, zdtG v * (1 - Real.sqrt (v.headD 0 / zdtG v) - v.headD 0 / zdtG v * Real.sin (10 * Real.pi * v.headD 0))]

/-- What the example looks for, with `higher_is_better=True` (nsga2zdt3.py:46): no vector is at least as high in both objectives and
higher in one. -/
def Highest (f : List ℝ → List ℝ) (k : Nat) (v : List ℝ) : Prop := InCube k v ∧ ∀ w, InCube k w → ¬ Beats (f v) (f w)

/-- C148: the example looks for Pareto-optimal vectors of the problem ZDT3. -/
def C148_statement : Prop := ∀ k v, 2 ≤ k → Highest zdt3 k v → Optimal zdt3Problem k v

/-- `g` is at most 10, and 10 exactly if there are only ones after the first cell. -/
theorem zdtG_top (hk : 2 ≤ k) (h : InCube k v) : zdtG v ≤ 10 ∧ (zdtG v = 10 ↔ ∀ x ∈ v.tail, x = 1) := by
  have hlen : (v.tail.length : ℝ) = (v.length : ℝ) - 1 := by
    rw [List.length_tail, Nat.cast_sub (by rw [h.1]; omega)]; simp
  have hpos : (0 : ℝ) < (v.length : ℝ) - 1 := by
    have : (2 : ℝ) ≤ v.length := by rw [h.1]; exact_mod_cast hk
    linarith
  have hsum : (v.tail.map fun x => 1 - x).sum = ((v.length : ℝ) - 1) - v.tail.sum := by
    rw [← hlen]
    generalize v.tail = l
    induction l with
    | nil => simp
    | cons x l ih => simp only [List.map_cons, List.sum_cons, ih, List.length_cons]; push_cast; ring
  obtain ⟨h1, h2⟩ := sum_tail_nonneg (l := v.tail.map fun x => 1 - x) (by
    intro y hy
    obtain ⟨x, hx, rfl⟩ := List.mem_map.1 hy
    have := (h.2 x (List.mem_of_mem_tail hx)).2
    linarith)
  have hg : zdtG v = 10 - 9 / ((v.length : ℝ) - 1) * (v.tail.map fun x => 1 - x).sum := by
    rw [hsum]; unfold zdtG; field_simp; ring
  have h9 : (0 : ℝ) < 9 / ((v.length : ℝ) - 1) := by positivity
  rw [hg]
  refine ⟨by have := mul_nonneg h9.le h1; linarith, fun he x hx => ?_, fun hz => ?_⟩
  · have : 9 / ((v.length : ℝ) - 1) * (v.tail.map fun x => 1 - x).sum = 0 := by linarith
    rcases mul_eq_zero.1 this with h3 | h3
    · linarith
    · have := h2 h3 _ (List.mem_map.2 ⟨x, hx, rfl⟩)
      linarith
  · rw [sum_zero (l := v.tail.map fun x => 1 - x) (by
      intro y hy
      obtain ⟨x, hx, rfl⟩ := List.mem_map.1 hy
      rw [hz x hx]; ring)]
    ring

/-- A vector with the given first cell and the same number in all others. -/
def rest (k : Nat) (x c : ℝ) : List ℝ := x :: List.replicate (k - 1) c

theorem rest_inCube {x c : ℝ} (hk : 2 ≤ k) (hx : 0 ≤ x ∧ x ≤ 1) (hc : 0 ≤ c ∧ c ≤ 1) : InCube k (rest k x c) := by
  refine ⟨by simp [rest]; omega, fun y hy => ?_⟩
  rcases List.mem_cons.1 hy with rfl | hy
  · exact hx
  · rw [List.eq_of_mem_replicate hy]; exact hc

theorem rest_zero {x : ℝ} (hk : 2 ≤ k) (hx : 0 ≤ x ∧ x ≤ 1) : zdtG (rest k x 0) = 1 :=
  (zdtG_spec hk (rest_inCube hk hx (by norm_num))).2.2 fun y hy => List.eq_of_mem_replicate hy

theorem rest_one {x : ℝ} (hk : 2 ≤ k) (hx : 0 ≤ x ∧ x ≤ 1) : zdtG (rest k x 1) = 10 :=
  (zdtG_top hk (rest_inCube hk hx (by norm_num))).2.2 fun y hy => List.eq_of_mem_replicate hy

/-- **C148 (partial).** What the example looks for: unless its first cell is zero, a vector that no other one exceeds has nothing but
zeros or nothing but ones after the first cell. -/
theorem C148_partial (hk : 2 ≤ k) (h : Highest zdt3 k v) (hpos : v.headD 0 ≠ 0) :
    (∀ x ∈ v.tail, x = 0) ∨ (∀ x ∈ v.tail, x = 1) := by
  obtain ⟨hc, hopt⟩ := h
  have hx := hc.head hk
  have hx0 : 0 < v.headD 0 := lt_of_le_of_ne hx.1 (Ne.symm hpos)
  by_contra hno
  push Not at hno
  have g1 := zdtG_spec hk hc
  have g10 := zdtG_top hk hc
  have hlo : 1 < zdtG v := by
    refine lt_of_le_of_ne g1.1 fun e => ?_
    obtain ⟨x, hxm, hne⟩ := hno.1
    exact hne (g1.2.1 e.symm x hxm)
  have hhi : zdtG v < 10 := by
    refine lt_of_le_of_ne g10.1 fun e => ?_
    obtain ⟨x, hxm, hne⟩ := hno.2
    exact hne (g10.2.1 e x hxm)
  have key : ∀ c g, 0 ≤ c ∧ c ≤ 1 → zdtG (rest k (v.headD 0) c) = g →
      1 - Real.sqrt (v.headD 0 / g) - v.headD 0 / g * Real.sin (10 * Real.pi * v.headD 0) ≤
      1 - Real.sqrt (v.headD 0 / zdtG v) - v.headD 0 / zdtG v * Real.sin (10 * Real.pi * v.headD 0) := by
    intro c g hcc hg
    have := hopt _ (rest_inCube hk hx hcc)
    unfold zdt3 at this
    rw [beats_iff, hg] at this
    have hd : (rest k (v.headD 0) c).headD 0 = v.headD 0 := rfl
    rw [hd] at this
    by_contra hlt
    exact this ⟨le_rfl, (not_le.1 hlt).le, .inr (not_le.1 hlt).ne⟩
  have k1 := key 0 1 (by norm_num) (rest_zero hk hx)
  have k10 := key 1 10 (by norm_num) (rest_one hk hx)
  set x := v.headD 0
  set g := zdtG v
  set s := Real.sin (10 * Real.pi * x)
  have hsq : ∀ y : ℝ, 0 < y → x / y = Real.sqrt (x / y) ^ 2 := fun y hy => by rw [Real.sq_sqrt (by positivity)]
  have l1 : Real.sqrt (x / g) < Real.sqrt (x / 1) := by
    apply Real.sqrt_lt_sqrt (by positivity)
    exact div_lt_div_of_pos_left hx0 one_pos hlo
  have l2 : Real.sqrt (x / 10) < Real.sqrt (x / g) := by
    apply Real.sqrt_lt_sqrt (by positivity)
    exact div_lt_div_of_pos_left hx0 (by linarith) hhi
  have p1 := hsq 1 one_pos
  have p2 := hsq 10 (by norm_num)
  have p3 := hsq g (by linarith)
  have u1 : 0 < Real.sqrt (x / 10) := Real.sqrt_pos.2 (by positivity)
  generalize Real.sqrt (x / 1) = U at *
  generalize Real.sqrt (x / 10) = u at *
  generalize Real.sqrt (x / g) = m at *
  rw [p1, p3] at k1
  rw [p2, p3] at k10
  have e1 : (U - m) * (1 + s * (U + m)) ≥ 0 := by nlinarith
  have e2 : (m - u) * (1 + s * (m + u)) ≤ 0 := by nlinarith
  have f1 : 1 + s * (U + m) ≥ 0 := by
    by_contra hc
    have := mul_neg_of_pos_of_neg (sub_pos.2 l1) (not_le.1 hc)
    linarith
  have f2 : 1 + s * (m + u) ≤ 0 := by
    by_contra hc
    have := mul_pos (sub_pos.2 l2) (not_le.1 hc)
    linarith
  have hs : s < 0 := by
    by_contra hc
    have := mul_nonneg (not_lt.1 hc) (by linarith : 0 ≤ m + u)
    linarith
  have := mul_neg_of_neg_of_pos hs (by linarith : 0 < U - u)
  nlinarith

/-- No vector exceeds the one with nothing but ones — -/
theorem ones_highest (hk : 2 ≤ k) : Highest zdt3 k (rest k 1 1) := by
  have h1 : (0 : ℝ) ≤ 1 ∧ (1 : ℝ) ≤ 1 := by norm_num
  refine ⟨rest_inCube hk h1 h1, fun w hw hb => ?_⟩
  unfold zdt3 at hb
  rw [beats_iff, rest_one hk h1] at hb
  have hd : (rest k 1 1).headD 0 = 1 := rfl
  rw [hd] at hb
  obtain ⟨b1, b2, b3⟩ := hb
  have hx : w.headD 0 = 1 := le_antisymm (hw.head hk).2 b1
  rw [hx] at b2 b3
  have hsin : Real.sin (10 * Real.pi * 1) = 0 := by
    have := Real.sin_nat_mul_pi 10
    rw [mul_one]; exact_mod_cast this
  rw [hsin] at b2 b3
  simp only [mul_zero, sub_zero, ne_eq, not_true_eq_false, false_or] at b2 b3
  have g10 := (zdtG_top hk hw).1
  have g1 := (zdtG_spec hk hw).1
  have : Real.sqrt (1 / 10) ≤ Real.sqrt (1 / zdtG w) :=
    Real.sqrt_le_sqrt (div_le_div_of_nonneg_left (by norm_num) (by linarith) g10)
  exact b3 (by linarith)

/-- **C148 is false**: — but it is not Pareto-optimal in ZDT3, whatever the length of the vectors. -/
theorem C148_refuted (hk : 2 ≤ k) : Highest zdt3 k (rest k 1 1) ∧ ¬ Optimal zdt3Problem k (rest k 1 1) := by
  refine ⟨ones_highest hk, fun h => ?_⟩
  have h1 : (0 : ℝ) ≤ 1 ∧ (1 : ℝ) ≤ 1 := by norm_num
  refine h.2 _ (rest_inCube hk h1 (c := 0) (by norm_num)) ?_
  unfold zdt3Problem
  rw [beats_iff, rest_one hk h1, rest_zero hk h1]
  have hd : ∀ c, (rest k 1 c).headD 0 = 1 := fun _ => rfl
  rw [hd, hd]
  have hsin : Real.sin (10 * Real.pi * 1) = 0 := by
    have := Real.sin_nat_mul_pi 10
    rw [mul_one]; exact_mod_cast this
  rw [hsin]
  have hsq : Real.sqrt (1 / 10) < 1 := by
    rw [Real.sqrt_lt' (by norm_num)]; norm_num
  have e1 : Real.sqrt (1 / 1) = 1 := by rw [div_one, Real.sqrt_one]
  rw [e1]
  refine ⟨le_rfl, by nlinarith, .inr (by nlinarith)⟩

theorem C148_statement_refuted : ¬ C148_statement := fun h =>
  (C148_refuted (k := 30) (by omega)).2 (h 30 _ (by omega) (ones_highest (by omega)))

example : (∀ x ∈ (rest 30 1 1).tail, x = 0) ∨ (∀ x ∈ (rest 30 1 1).tail, x = 1) :=
  C148_partial (by omega) (ones_highest (k := 30) (by omega)) (by show (1 : ℝ) ≠ 0; norm_num)

end Verif.Examples
