import Verif.Props.FPSelection
import Mathlib.Analysis.SpecialFunctions.Pow.Real

/-! # C133: does fitness-proportionate selection depend on the units of the fitness? -/

namespace Verif.Evo

/-- The claim of C133: measuring the fitness in another unit does not change the odds. -/
def C133_statement : Prop :=
  ∀ (hib : Bool) (scores : List ℝ) (a : ℝ), 0 < a → (∀ x ∈ scores, 0 ≤ x) →
    fpDistribution hib (scores.map (a * ·)) = fpDistribution hib scores

theorem scaled_sum (a : ℝ) (xs : List ℝ) : (xs.map (a * ·)).sum = a * xs.sum := by
  induction xs with
  | nil => simp
  | cons x xs ih => simp only [List.map_cons, List.sum_cons, ih]; ring

/-- **C133**, what holds with `higher_is_better`: in a unit `a` times smaller, the odds between two individuals are the `a`-th power of
what they were, unless one of the sums of scores happens to be 1. -/
theorem C133_odds_partial {scores p p' : List ℝ} {a : ℝ} (h1 : scores.sum ≠ 1) (h1' : a * scores.sum ≠ 1)
    (h : fpDistribution true scores = .ok p) (h' : fpDistribution true (scores.map (a * ·)) = .ok p') {i j : Nat}
    (hi : i < scores.length) (hj : j < scores.length) (hi' : i < p.length) (hj' : j < p.length) (hi2 : i < p'.length)
    (hj2 : j < p'.length) : p'[i] / p'[j] = (p[i] / p[j]) ^ a := by
  have hv := (fp_valid h).2.2
  have hv' := (fp_valid h').2.2
  have e := C29_exponential_partial h1 h hi hj hi' hj'
  have e' := C29_exponential_partial (by rwa [scaled_sum]) h' (by simpa using hi) (by simpa using hj) hi2 hj2
  have pos : ∀ k (hk : k < p.length), p[k] ≠ 0 := by
    intro k hk
    obtain ⟨least, hl, h0, rfl⟩ := fpDistribution_ok h
    have hs : fpScores true least scores = scores := by simp [fpScores]
    simp only [hs, ne_eq, h1, not_false_eq_true, if_true]
    rw [getElem_softmax]
    exact (div_pos (Real.exp_pos _) (sum_exp_pos (List.ne_nil_of_length_pos (by omega)))).ne'
  have pos' : ∀ k (hk : k < p'.length), p'[k] ≠ 0 := by
    intro k hk
    obtain ⟨least, hl, h0, rfl⟩ := fpDistribution_ok h'
    have hs : fpScores true least (scores.map (a * ·)) = scores.map (a * ·) := by simp [fpScores]
    simp only [hs, scaled_sum, ne_eq, h1', not_false_eq_true, if_true]
    rw [getElem_softmax]
    exact (div_pos (Real.exp_pos _) (sum_exp_pos (by simpa using List.ne_nil_of_length_pos (by omega)))).ne'
  rw [e, e', mul_div_assoc, mul_div_assoc, div_self (pos j hj'), div_self (pos' j hj2), mul_one, mul_one, ← Real.exp_mul]
  simp only [List.getElem_map]
  congr 1
  ring

/-- **C133** is false: of the scores 1 and 2 the second is chosen with odds e, of 2 and 4 with odds e². -/
theorem C133_refuted : ¬ C133_statement := by
  intro h
  have hs := h true [1, 2] 2 (by norm_num) (by simp)
  obtain ⟨p, hp, hl, -, -⟩ := C28_distribution true (scores := [1, 2]) (by simp) (by simp)
  have hp' : fpDistribution true ([1, 2].map ((2 : ℝ) * ·)) = .ok p := hs.trans hp
  have l2 : p.length = 2 := by simpa using hl
  have e := C29_exponential_partial (i := 1) (j := 0) (by norm_num) hp (by simp) (by simp) (by omega) (by omega)
  have e' := C29_exponential_partial (i := 1) (j := 0) (by norm_num) hp' (by simp) (by simp) (by omega) (by omega)
  simp only [List.map_cons, List.map_nil, List.getElem_cons_succ, List.getElem_cons_zero] at e e'
  have hp0 : (0 : ℝ) < p[0]'(by omega) := by
    obtain ⟨least, _, _, rfl⟩ := fpDistribution_ok hp
    have hs : fpScores true least [1, 2] = [1, 2] := by simp [fpScores]
    simp only [hs]
    have : ([1, 2] : List ℝ).sum ≠ 1 := by norm_num
    simp only [this, ne_eq, not_false_eq_true, if_true]
    rw [getElem_softmax]
    exact div_pos (Real.exp_pos _) (sum_exp_pos (by simp))
  rw [e] at e'
  have := mul_right_cancel₀ hp0.ne' e'
  have := Real.exp_injective this
  norm_num at this

theorem softmax_shift (b : ℝ) (xs : List ℝ) : softmax (xs.map (· + b)) = softmax xs := by
  unfold softmax
  have e : (xs.map (· + b)).map Real.exp = (xs.map Real.exp).map (· * Real.exp b) := by
    simp [List.map_map, Function.comp_def, Real.exp_add]
  have hsum : ∀ l : List ℝ, (l.map (· * Real.exp b)).sum = l.sum * Real.exp b := by
    intro l
    induction l with
    | nil => simp
    | cons x l ih => simp only [List.map_cons, List.sum_cons, ih]; ring
  rw [e, hsum, List.map_map]
  refine List.map_congr_left fun x _ => ?_
  simp only [Function.comp_apply, Real.exp_add]
  rw [mul_div_mul_right _ _ (Real.exp_pos b).ne']

/-- **C133**, what holds with `higher_is_better`: adding a number to all scores changes nothing, unless one of the sums is 1. -/
theorem C133_offset_partial {scores : List ℝ} {b : ℝ} (h0 : ∀ x ∈ scores, 0 ≤ x) (hb : ∀ x ∈ scores, 0 ≤ x + b) (h1 : scores.sum ≠ 1)
    (h1' : (scores.map (· + b)).sum ≠ 1) : fpDistribution true (scores.map (· + b)) = fpDistribution true scores := by
  by_cases hne : scores = []
  · subst hne; rfl
  obtain ⟨p, hp, -⟩ := C28_distribution true hne h0
  obtain ⟨p', hp', -⟩ := C28_distribution true (scores := scores.map (· + b)) (by simpa using hne) (by simpa using hb)
  rw [hp, hp']
  obtain ⟨least, _, _, rfl⟩ := fpDistribution_ok hp
  obtain ⟨least', _, _, rfl⟩ := fpDistribution_ok hp'
  simp only [fpScores, if_true, ne_eq, h1, h1', not_false_eq_true, softmax_shift]

/-! ## Non-vacuity -/

/-- The scores 1 and 2, measured in halves. -/
example : ∃ p p', fpDistribution true [1, 2] = .ok p ∧ fpDistribution true ([1, 2].map ((2 : ℝ) * ·)) = .ok p' ∧
    ∃ (h0 : 0 < p.length) (h1 : 1 < p.length) (h0' : 0 < p'.length) (h1' : 1 < p'.length), p'[1] / p'[0] = (p[1] / p[0]) ^ (2 : ℝ) := by
  obtain ⟨p, hp, hl, -, -⟩ := C28_distribution true (scores := [1, 2]) (by simp) (by simp)
  obtain ⟨p', hp', hl', -, -⟩ := C28_distribution true (scores := [1, 2].map ((2 : ℝ) * ·)) (by simp) (by simp)
  have l2 : p.length = 2 := by simpa using hl
  have l2' : p'.length = 2 := by simpa using hl'
  exact ⟨p, p', hp, hp', by omega, by omega, by omega, by omega,
    C133_odds_partial (by norm_num) (by norm_num) hp hp' (by simp) (by simp) _ _ _ _⟩

example := C133_offset_partial (scores := [1, 2]) (b := 3) (by simp) (by simp; norm_num) (by norm_num) (by norm_num)

end Verif.Evo
