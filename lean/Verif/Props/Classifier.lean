import Verif.Model.Classifier
import Mathlib.Tactic.Linarith

/-! # C58 — classification of tree outputs, C60 — predictions of estimators -/

namespace Verif.Clf
open PyM

/-! ## C58 -/

theorem thresholds_eq (n : Nat) (hn : 0 < n) :
    thresholds n = (List.range (n - 1)).map fun k : Nat => ((k + 1 : Nat) : ℝ) / (n : ℝ) := by
  unfold thresholds linspace
  apply List.ext_getElem
  · simp
  · intro i h1 h2
    simp only [List.length_map, List.length_range] at h2
    have : n ≠ 0 := by omega
    simp [this]

theorem countP_range_lt (n k : Nat) : (List.range n).countP (fun i => decide (i < k)) = min n k := by
  induction n with
  | zero => simp
  | succ n ih =>
    rw [List.range_succ, List.countP_append, ih]
    by_cases h : n < k
    · simp [h]; omega
    · simp [h]; omega

/-- For `0 ≤ p`, the number of thresholds at or below `p`. -/
theorem digitize_eq (n : Nat) (hn : 0 < n) (p : ℝ) (hp : 0 ≤ p) :
    digitize (thresholds n) (some p) = min (n - 1) ⌊p * n⌋₊ := by
  simp only [digitize]
  rw [thresholds_eq n hn, List.countP_map, ← countP_range_lt]
  apply List.countP_congr
  intro i _
  simp only [Function.comp, decide_eq_true_eq]
  have hn' : (0 : ℝ) < n := by exact_mod_cast hn
  rw [div_le_iff₀ hn', Nat.lt_iff_add_one_le, Nat.le_floor_iff (by positivity)]

/-- C58: exactly the three methods are accepted; every other name is a `ValueError`. -/
theorem C58_methods (name : String) :
    (∀ m : Method, newMethod m.name = .ok m) ∧
    ((∀ m : Method, name ≠ m.name) → newMethod name = .error .valueError) := by
  constructor
  · intro m; cases m <;> rfl
  · intro h
    have h1 := h .sigmoid
    have h2 := h .argmax
    have h3 := h .softmax
    simp only [Method.name] at h1 h2 h3
    unfold newMethod
    rw [if_neg h1, if_neg h2, if_neg h3]

/-- C58: the label is one of `0, …, n_classes - 1`, for every output of the tree. -/
theorem C58_range (n : Nat) (hn : 0 < n) (out : Num) : sigmoidLabel n out < n := by
  unfold sigmoidLabel
  have hlen : (thresholds n).length = n - 1 := by rw [thresholds_eq n hn]; simp
  cases expit out with
  | none => simp only [digitize]; omega
  | some p => simp only [digitize]; have := List.countP_le_length (l := thresholds n) (p := fun b => @decide (b ≤ p) (Classical.propDecidable _)); omega

/-- C58: the label of an output is the number of its equal-width bin: for a finite output that is
`⌊sigmoid(out) * n_classes⌋`, an infinite output is in the first or the last bin, NaN in the last. -/
theorem C58_bins (n : Nat) (hn : 0 < n) :
    (∀ x : ℝ, sigmoidLabel n (.fin x) = ⌊Real.sigmoid x * n⌋₊) ∧
    sigmoidLabel n .negInf = 0 ∧ sigmoidLabel n .posInf = n - 1 ∧ sigmoidLabel n .nan = n - 1 := by
  have hn' : (0 : ℝ) < n := by exact_mod_cast hn
  refine ⟨fun x => ?_, ?_, ?_, ?_⟩
  · unfold sigmoidLabel expit
    dsimp only
    rw [digitize_eq n hn _ (Real.sigmoid_nonneg x)]
    have : ⌊Real.sigmoid x * n⌋₊ < n := by
      rw [Nat.floor_lt (mul_nonneg (Real.sigmoid_nonneg x) hn'.le)]
      have := Real.sigmoid_lt_one x
      nlinarith
    omega
  · unfold sigmoidLabel expit
    dsimp only
    rw [digitize_eq n hn 0 (le_refl _)]
    simp
  · unfold sigmoidLabel expit
    dsimp only
    rw [digitize_eq n hn 1 zero_le_one]
    simp
  · unfold sigmoidLabel expit digitize
    dsimp only
    rw [thresholds_eq n hn]
    simp

/-- C58: a greater output never has a smaller label. -/
theorem C58_monotone (n : Nat) (hn : 0 < n) (x y : ℝ) (h : x ≤ y) :
    sigmoidLabel n .negInf ≤ sigmoidLabel n (.fin x) ∧ sigmoidLabel n (.fin x) ≤ sigmoidLabel n (.fin y) ∧
    sigmoidLabel n (.fin y) ≤ sigmoidLabel n .posInf := by
  have hb := C58_bins n hn
  refine ⟨by rw [hb.2.1]; omega, ?_, ?_⟩
  · rw [hb.1, hb.1]
    apply Nat.floor_le_floor
    have := Real.sigmoid_monotone h
    have hn' : (0 : ℝ) < n := by exact_mod_cast hn
    exact mul_le_mul_of_nonneg_right this hn'.le
  · have := C58_range n hn (.fin y)
    rw [hb.2.2.1]
    omega

/-- C58, whatever the rounding of the sigmoid: the label is in range, and monotone in the squashed output. -/
theorem C58_any_rounding (n : Nat) (hn : 0 < n) (p q : ℝ) (h : p ≤ q) :
    digitize (thresholds n) (some p) ≤ digitize (thresholds n) (some q) ∧ digitize (thresholds n) (some q) < n := by
  have hlen : (thresholds n).length = n - 1 := by rw [thresholds_eq n hn]; simp
  constructor
  · simp only [digitize]
    apply List.countP_mono_left
    intro b _ hb
    simp only [decide_eq_true_eq] at hb ⊢
    exact hb.trans h
  · simp only [digitize]
    have := List.countP_le_length (l := thresholds n) (p := fun b => @decide (b ≤ q) (Classical.propDecidable _))
    omega

/-- C58, the case of two classes: label 1 exactly for outputs that are not negative. -/
theorem C58_binary (x : ℝ) : sigmoidLabel 2 (.fin x) = if 0 ≤ x then 1 else 0 := by
  have hlt : sigmoidLabel 2 (.fin x) < 2 := C58_range 2 (by omega) _
  have h := (C58_bins 2 (by omega)).1 x
  have h1 : 1 ≤ sigmoidLabel 2 (.fin x) ↔ 0 ≤ x := by
    rw [h, Nat.le_floor_iff (mul_nonneg (Real.sigmoid_nonneg x) (by norm_num))]
    have h0 : Real.sigmoid 0 = 1 / 2 := by rw [Real.sigmoid_def]; norm_num
    constructor
    · intro hh
      by_contra hx
      have := Real.sigmoid_strictMono (not_le.1 hx)
      push_cast at hh
      linarith
    · intro hx
      have := Real.sigmoid_monotone hx
      push_cast
      linarith
  split
  · have := h1.2 (by assumption); omega
  · have : ¬ 1 ≤ sigmoidLabel 2 (.fin x) := fun hc => by have := h1.1 hc; contradiction
    omega

/-- C58: every class can be predicted. -/
theorem C58_surjective (n k : Nat) (hk : k < n) : ∃ x : ℝ, sigmoidLabel n (.fin x) = k := by
  have hn : 0 < n := by omega
  have hn' : (0 : ℝ) < n := by exact_mod_cast hn
  have hk' : (k : ℝ) + 1 ≤ n := by exact_mod_cast hk
  have h0 : (0 : ℝ) ≤ k := by positivity
  have hp : ((k : ℝ) + 1 / 2) / n ∈ Set.range Real.sigmoid := by
    rw [Real.range_sigmoid]
    constructor
    · positivity
    · rw [div_lt_one hn']; linarith
  obtain ⟨x, hx⟩ := hp
  refine ⟨x, ?_⟩
  rw [(C58_bins n hn).1 x, hx, div_mul_cancel₀ _ hn'.ne', Nat.floor_eq_iff (by positivity)]
  constructor <;> linarith

/-- Three classes: an output of 0 is in the middle bin. -/
example : sigmoidLabel 3 (.fin 0) = 1 := by
  rw [(C58_bins 3 (by omega)).1 0, Nat.floor_eq_iff (mul_nonneg (Real.sigmoid_nonneg 0) (by norm_num))]
  have h0 : Real.sigmoid 0 = 1 / 2 := by rw [Real.sigmoid_def]; norm_num
  rw [h0]
  norm_num

/-! ## C60 -/

variable {X Y : Type} {c : Cfg X Y} {s s' : Est X Y}

/-- What is asked of an estimator. -/
inductive Call (X Y : Type)
  | fit (x : X) (y : Y)
  | predict (x : X)
  | clfPredict (x : X)

/-- The state after a call, whether it raises or not. -/
noncomputable def step (c : Cfg X Y) (s : Est X Y) : Call X Y → Est X Y
  | .fit x y => (fit c x y s).2
  | .predict x => (predict x s).2
  | .clfPredict x => (clfPredict c x s).2

/-- The state after a sequence of calls. -/
noncomputable def steps (c : Cfg X Y) (s : Est X Y) (calls : List (Call X Y)) : Est X Y := calls.foldl (step c) s

/-- Calls that do not fit. -/
def Call.IsPredict : Call X Y → Prop
  | .fit _ _ => False
  | _ => True

/-- The same for all later calls: fitted or not, the best individual and the number of evaluators; of the data in
the evaluators only the first may differ. -/
structure Same (s s' : Est X Y) : Prop where
  fitted : s'.fitted = s.fitted
  best : s'.alg.best = s.alg.best
  ctx : s'.alg.ctx.length = s.alg.ctx.length

theorem Same.step (hp : s'.fitted = s.fitted ∧ s'.alg.best = s.alg.best ∧ s'.alg.ctx.length = s.alg.ctx.length)
    (call : Call X Y) (hc : call.IsPredict) : Same s (step c s' call) := by
  obtain ⟨h1, h2, h3⟩ := hp
  cases call with
  | fit x y => exact absurd hc (by simp [Call.IsPredict])
  | predict x =>
    unfold Clf.step predict
    dsimp only
    split
    · split <;> exact ⟨h1, h2, h3⟩
    · exact ⟨h1, h2, h3⟩
  | clfPredict x =>
    unfold Clf.step clfPredict
    dsimp only
    split
    · split
      · exact ⟨h1, h2, h3⟩
      · rename_i heq
        rw [heq] at h3
        split <;> exact ⟨h1, h2, h3⟩
    · exact ⟨h1, h2, h3⟩

theorem steps_same (calls : List (Call X Y)) (hc : ∀ call ∈ calls, call.IsPredict) : Same s (steps c s calls) := by
  have : ∀ (l : List (Call X Y)) s', (∀ call ∈ l, call.IsPredict) → Same s s' → Same s (steps c s' l) := by
    intro l
    induction l with
    | nil => intro s' _ h; exact h
    | cons a l ih =>
      intro s' hl h
      exact ih _ (fun x hx => hl x (by simp [hx])) (Same.step ⟨h.fitted, h.best, h.ctx⟩ a (hl a (by simp)))
  exact this calls s hc ⟨rfl, rfl, rfl⟩

/-- C60: after a successful `fit` and any number of predictions (of both kinds, whether they raised or not),
`predict(X)` is the output of `best_of_run_`, as the evolution left it, on `X`. -/
theorem C60_predict {x0 : X} {y0 : Y} (hfit : fit c x0 y0 s = (.ok (), s')) (calls : List (Call X Y))
    (hc : ∀ call ∈ calls, call.IsPredict) {p : Prog X} (hbest : s'.alg.best = some p) (x : X) :
    (predict x (steps c s' calls)).1 = p.execute x := by
  have h := steps_same (c := c) (s := s') calls hc
  have hf : s'.fitted = true := by
    unfold fit at hfit
    split at hfit
    · simp at hfit
    · split at hfit
      · simp at hfit
      · simp only [Prod.mk.injEq, true_and] at hfit
        rw [← hfit]
  unfold predict
  rw [h.fitted, hf, if_pos rfl, h.best, hbest]

/-- C60: the predictions of a classifier are the class labels of `best_of_run_` on `X`. -/
theorem C60_classify {x0 : X} {y0 : Y} (hfit : fit c x0 y0 s = (.ok (), s')) (calls : List (Call X Y))
    (hc : ∀ call ∈ calls, call.IsPredict) {p : Prog X} (hbest : s'.alg.best = some p) (hctx : s'.alg.ctx ≠ []) (x : X) :
    (clfPredict c x (steps c s' calls)).1 = classify c.method c.nClasses p x := by
  have h := steps_same (c := c) (s := s') calls hc
  have hf : s'.fitted = true := by
    unfold fit at hfit
    split at hfit
    · simp at hfit
    · split at hfit
      · simp at hfit
      · simp only [Prod.mk.injEq, true_and] at hfit
        rw [← hfit]
  have hlen := h.ctx
  unfold clfPredict
  rw [h.fitted, hf, if_pos rfl]
  cases hl : (steps c s' calls).alg.ctx with
  | nil =>
    rw [hl] at hlen
    exact absurd (List.length_eq_zero_iff.1 hlen.symm) hctx
  | cons a rest =>
    dsimp only
    rw [h.best, hbest]

/-- C60: without a fit, all predictions raise, and leave the estimator as it is. -/
theorem C60_not_fitted (hs : s.fitted = false) (calls : List (Call X Y)) (hc : ∀ call ∈ calls, call.IsPredict) (x : X) :
    (predict x (steps c s calls)).1 = .error .valueError ∧ (clfPredict c x (steps c s calls)).1 = .error .valueError := by
  have h := steps_same (c := c) (s := s) calls hc
  unfold predict clfPredict
  rw [h.fitted, hs]
  exact ⟨rfl, rfl⟩

/-- C60: predictions do not influence a later fit: it trains with the data it is given in every evaluator. -/
theorem C60_refit (calls : List (Call X Y)) (hc : ∀ call ∈ calls, call.IsPredict) (x : X) (y : Y)
    (hx : ∃ r, c.check x y = .ok r) : fit c x y (steps c s calls) = fit c x y s := by
  have h := steps_same (c := c) (s := s) calls hc
  obtain ⟨⟨x', y'⟩, hx⟩ := hx
  have hctx : ((steps c s calls).alg.ctx.map fun _ => (⟨some x', some y'⟩ : Context X Y)) =
      s.alg.ctx.map fun _ => ⟨some x', some y'⟩ := by
    rw [List.map_const', List.map_const', h.ctx]
  have halg : ({ (steps c s calls).alg with ctx := (steps c s calls).alg.ctx.map fun _ => ⟨some x', some y'⟩ } : Alg X Y) =
      { s.alg with ctx := s.alg.ctx.map fun _ => ⟨some x', some y'⟩ } := by
    rw [hctx]; dsimp only; rw [h.best]
  unfold fit
  rw [hx]
  dsimp only
  rw [halg, h.fitted]

/-- C60, the methods based on the root of the tree: they return the output of trees whose root function's name
contains the method, and raise `ValueError` for all other functions. -/
theorem C60_root (m : Method) (hm : m ≠ .sigmoid) (n : Nat) (p : Prog X) (x : X) {name : String} (hr : p.rootName = some name) :
    (contained m.name name = true → ∀ os, p.execute x = .ok os → classify m n p x = .ok (.raw os)) ∧
    (contained m.name name = false → classify m n p x = .error .valueError) := by
  constructor
  · intro h1 os h2
    cases m with
    | sigmoid => exact absurd rfl hm
    | argmax => simp only [classify, rootFunc, hr]; rw [if_pos h1, h2]
    | softmax => simp only [classify, rootFunc, hr]; rw [if_pos h1, h2]
  · intro h1
    cases m with
    | sigmoid => exact absurd rfl hm
    | argmax => simp only [classify, rootFunc, hr]; rw [h1]; rfl
    | softmax => simp only [classify, rootFunc, hr]; rw [h1]; rfl

/-- An estimator whose evolution finds the program that returns its input. -/
noncomputable def exProg : Prog (List ℝ) := ⟨some "f_add", fun x => .ok (x.map .fin)⟩

noncomputable def exCfg : Cfg (List ℝ) (List ℝ) :=
  ⟨fun x y => if x.length = y.length then .ok (x, y) else .error .valueError,
    fun a => (.ok (), { a with best := some exProg }), .sigmoid, 2⟩

noncomputable def exEst : Est (List ℝ) (List ℝ) := ⟨⟨[⟨none, none⟩], none⟩, false⟩

theorem exEst_fit : fit exCfg [3] [1] exEst = (.ok (), ⟨⟨[⟨some [3], some [1]⟩], some exProg⟩, true⟩) := by
  simp [fit, exCfg, exEst]

example : (predict [7, -2] (steps exCfg ⟨⟨[⟨some [3], some [1]⟩], some exProg⟩, true⟩ [.clfPredict [4], .predict []])).1
    = .ok [.fin 7, .fin (-2)] :=
  C60_predict exEst_fit _ (by simp [Call.IsPredict]) rfl _

example : (clfPredict exCfg [7, -2] (steps exCfg ⟨⟨[⟨some [3], some [1]⟩], some exProg⟩, true⟩ [.clfPredict [4], .predict []])).1
    = .ok (.labels [1, 0]) := by
  rw [C60_classify exEst_fit _ (by simp [Call.IsPredict]) rfl (by simp) _]
  simp only [exCfg, classify, exProg, List.map_cons, List.map_nil]
  rw [C58_binary, C58_binary]
  norm_num

end Verif.Clf
