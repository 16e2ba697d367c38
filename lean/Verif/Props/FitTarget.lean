import Verif.Props.Target
import Verif.Props.Classification

/-! # C155: fitting with a target -/

namespace Verif.GP
open PyM Verif.Evo
variable {M : Meaning} {C : Clf} {check : Mat → List ℚ → Except Err (Mat × List ℚ)} {c : Evo.Cfg GP.Ind Unit}
  {sub : SubCfg GP.Ind} {m : Mode} {X X' : Mat} {y y' : List ℚ} {s s' : Run GP.Ind Unit} {optimal thr : ℚ}

/-- C155, as the property says it, for regressors whose mean absolute error is minimised: when a program evaluated during
`fit` has an error of at most the threshold, then fitting stops at the end of that generation. -/
def C155_statement : Prop :=
  ∀ (M : Meaning) (check : Mat → List ℚ → Except Err (Mat × List ℚ)) (c : Evo.Cfg GP.Ind Unit) (sub : SubCfg GP.Ind) (m : Mode)
    (X X' : Mat) (y y' : List ℚ) (s s' : Run GP.Ind Unit) (thr : ℚ), M.metric = meanAbsoluteError → c.Ordinary sub m →
    (c.size = fun i => i.tree.length) → c.checker = .one (threshold 0 thr) → m.hib = false →
    s.Ready m → s.log = [] → s.genNum = 0 → s.checkers = [()] → check X y = .ok (X', y') →
    M.fit check c X y s = (.ok (), s') → StopsWhenReached false 0 thr s'

/-- **C155, regressors.** If `fit` ends before the last generation, then the error of the predictions for the training data
is within the threshold of the target, with or without bloat control. -/
theorem C155_regressor_early (hc : c.Ordinary sub m) (hsz : c.size = fun i => i.tree.length)
    (hck : c.checker = .one (threshold optimal thr)) (hr : s.Ready m) (hlog : s.log = []) (hg : s.genNum = 0)
    (hk : s.checkers = [()]) (hch : check X y = .ok (X', y')) (h : M.fit check c X y s = (.ok (), s'))
    (hearly : s'.genNum < c.maxGen) :
    ∃ p q, M.predict s' X' = .ok p ∧ M.metric y' p = .ok q ∧ |q - optimal| ≤ thr := by
  obtain ⟨b, i, p, q, h1, h2, h3, h4, h5, -⟩ := fitted_of hc hsz hr hlog hch h
  unfold Meaning.fit at h
  rw [hch] at h
  obtain ⟨b', x, h6, ⟨j, h7, h8, -⟩, h9⟩ := C109_early (c := M.withData c X' y') hck hlog hg hk h hearly
  rw [h1, Option.some.injEq] at h6
  subst h6
  rw [h2, Option.some.injEq] at h7
  subst h7
  rw [h5, FVal.num.injEq] at h8
  subst h8
  exact ⟨p, q, h3, h4, h9⟩

/-- **C155, classifiers.** If `fit` ends before the last generation, then the score on the training data is within the
threshold of the target. -/
theorem C155_classifier_early (hmet : C.metric = accuracyScore) (hc : c.Ordinary sub m) (hsz : c.size = fun i => i.tree.length)
    (hck : c.checker = .one (threshold optimal thr)) (hr : s.Ready m) (hlog : s.log = []) (hg : s.genNum = 0)
    (hk : s.checkers = [()]) (hch : check X y = .ok (X', y')) (h : C.fit check c X y s = (.ok (), s'))
    (hearly : s'.genNum < c.maxGen) : ∃ q, C.score s' X' y' = .ok q ∧ |q - optimal| ≤ thr := by
  obtain ⟨b, i, q, h1, h2, h3, h5, -⟩ := scored_of hmet hc hsz hr hlog hch h
  unfold Clf.fit at h
  rw [hch] at h
  obtain ⟨b', x, h6, ⟨j, h7, h8, -⟩, h9⟩ := C109_early (c := C.withData c X' y') hck hlog hg hk h hearly
  rw [h1, Option.some.injEq] at h6
  subst h6
  rw [h2, Option.some.injEq] at h7
  subst h7
  rw [h5, FVal.num.injEq] at h8
  subst h8
  exact ⟨q, h3, h9⟩

/-- **C155, labels out of reach.** With the sigmoid method, if the part of the training data labelled with one of 0, …,
`n_classes - 1` is less than the target minus the threshold, as when there are more classes than `n_classes`, then fitting
never ends early, whatever the seed. -/
theorem C155_unreachable (hmet : C.metric = accuracyScore) (hc : c.Ordinary sub m) (hsz : c.size = fun i => i.tree.length)
    (hck : c.checker = .one (threshold optimal thr)) (hr : s.Ready m) (hlog : s.log = []) (hg : s.genNum = 0)
    (hk : s.checkers = [()]) (hch : check X y = .ok (X', y')) (hs : C.method = .sigmoid) (hn : 0 < C.nClasses)
    (Q : ℚ → Bool) (hQ : ∀ k : Nat, k < C.nClasses → Q k = true)
    (hshare : ((y'.filter Q).length : ℚ) < (optimal - thr) * y'.length)
    (h : C.fit check c X y s = (.ok (), s')) : s'.genNum = c.maxGen := by
  have hle : s'.genNum ≤ c.maxGen := by
    have h' := h
    unfold Clf.fit at h'
    rw [hch] at h'
    obtain ⟨snaps, stop, hcourse⟩ := C36_course (c := C.withData c X' y') hlog hg
      (by simp [Cfg.Fits, Clf.withData, hck, hk]) h'
    have h6 := hcourse.genNum
    have h7 : snaps.length ≤ c.maxGen + 1 := hcourse.le
    omega
  by_contra hne
  obtain ⟨q, h1, h2⟩ := C155_classifier_early hmet hc hsz hck hr hlog hg hk hch h (by omega)
  have h3 := C113_score_bound hs hn h1 Q hQ
  have h4 : optimal - thr ≤ q := by
    have := abs_le.1 h2
    linarith [this.1]
  have h5 : (optimal - thr) * y'.length ≤ q * y'.length := mul_le_mul_of_nonneg_right h4 (by positivity)
  linarith

theorem mae_nonneg {y p : List ℚ} {q : ℚ} (h : meanAbsoluteError y p = .ok q) : 0 ≤ q := by
  unfold meanAbsoluteError at h
  split at h
  · cases h
  · split at h
    · cases h
    · cases h
      refine div_nonneg (List.sum_nonneg ?_) (by positivity)
      intro x hx
      obtain ⟨k, hk, rfl⟩ := List.mem_iff_getElem.1 hx
      rw [List.getElem_zipWith]
      exact abs_nonneg _

theorem accuracy_le {y p : List ℚ} {q : ℚ} (h : accuracyScore y p = .ok q) : q ≤ 1 := by
  obtain ⟨h1, h2, h3⟩ := accuracyScore_ok h
  have h4 : (((y.zip p).filter fun a => a.1 = a.2).length : ℚ) ≤ y.length := by
    have := List.length_filter_le (fun a : ℚ × ℚ => decide (a.1 = a.2)) (y.zip p)
    rw [List.length_zip, h1, Nat.min_self] at this
    exact_mod_cast this
  have h5 : (0 : ℚ) < y.length := by exact_mod_cast h2
  by_contra hlt
  have : (1 : ℚ) * y.length < q * y.length := mul_lt_mul_of_pos_right (not_le.1 hlt) h5
  linarith

/-- **C155 (partial), regressors.** Without bloat control, if the mean absolute error is minimised and the target is 0, then
fitting stops at the end of the generation in which a program with an error of at most the threshold was evaluated. -/
theorem C155_regressor_stops_partial (hmet : M.metric = meanAbsoluteError) (hc : c.Ordinary sub m)
    (hck : c.checker = .one (threshold 0 thr)) (hh : m.hib = false) (hb : m.bloat = none ∨ m.bloat = some 0) (hr : s.Ready m)
    (hlog : s.log = []) (hg : s.genNum = 0) (hk : s.checkers = [()]) (hch : check X y = .ok (X', y'))
    (h : M.fit check c X y s = (.ok (), s')) : StopsWhenReached false 0 thr s' := by
  unfold Meaning.fit at h
  rw [hch] at h
  have := C109_optimal_partial (withData_ordinary (M := M) hc X' y') hck (f := M.evaluate X' y') (fun _ _ => rfl) hb
    (by
      intro g q hq
      obtain ⟨p, -, hp⟩ := errs_of hq
      rw [hmet] at hp
      simpa [Preferred, hh] using mae_nonneg hp) hr hlog hg hk h
  rwa [hh] at this

/-- **C155 (partial), classifiers.** Without bloat control, if the accuracy is maximised and the target is 1, then fitting
stops at the end of the generation in which a program was evaluated whose accuracy is at least 1 minus the threshold. -/
theorem C155_classifier_stops_partial (hmet : C.metric = accuracyScore) (hc : c.Ordinary sub m)
    (hck : c.checker = .one (threshold 1 thr)) (hh : m.hib = true) (hb : m.bloat = none ∨ m.bloat = some 0) (hr : s.Ready m)
    (hlog : s.log = []) (hg : s.genNum = 0) (hk : s.checkers = [()]) (hch : check X y = .ok (X', y'))
    (h : C.fit check c X y s = (.ok (), s')) : StopsWhenReached true 1 thr s' := by
  unfold Clf.fit at h
  rw [hch] at h
  have := C109_optimal_partial (clf_ordinary (C := C) hc X' y') hck (f := C.evaluate X' y') (fun _ _ => rfl) hb
    (by
      intro g q hq
      unfold Clf.evaluate at hq
      cases hp : C.classify g X' with
      | error e => rw [hp] at hq; cases hq
      | ok p =>
        rw [hp, hmet] at hq
        simpa [Preferred, hh] using accuracy_le hq) hr hlog hg hk h
  rwa [hh] at this

namespace Fit3

/-- The regressor of `Fit1` with a target, for one generation. -/
def alg : Evo.Cfg GP.Ind Unit := { Fit1.alg with checker := .one (threshold 0 0), maxGen := 1 }

def start (w : Option ℚ) : Run GP.Ind Unit := { Fit1.start w with checkers := [()] }

def done (w : Option ℚ) : Run GP.Ind Unit := (Fit1.meaning.fit (fun X y => .ok (X, y)) alg Fit1.data Fit1.target (start w)).2

theorem ordinary (w : Option ℚ) : alg.Ordinary Fit1.plain ⟨false, w⟩ where
  subs := rfl
  dir := rfl
  creators := by simp [Fit1.plain]
  sels := ⟨_, _, rfl, tournament_good _ _, tournament_fills _ _⟩
  ops := by simp [Fit1.plain]
  sched := fun _ _ => List.Perm.refl _
  map := rfl

/-- Without bloat control the run stops before the first generation, since `x0 + x0` fits the data. -/
theorem plain_ends : (Fit1.meaning.fit (fun X y => .ok (X, y)) alg Fit1.data Fit1.target (start none)).1 = .ok () ∧
    (done none).genNum = 0 := by decide +kernel

/-- With the default bloat control `x0` is the best, and the run goes on. -/
theorem bloat_ends : (Fit1.meaning.fit (fun X y => .ok (X, y)) alg Fit1.data Fit1.target (start (some (1 / 10)))).1 = .ok () ∧
    (done (some (1 / 10))).genNum = 1 := by decide +kernel

/-- The first evaluation, and the end of the initialisation. -/
theorem bloat_eval : ((done (some (1 / 10))).log[1]?).any (fun e => decide (e.publisher = "population_evaluator") &&
    decide (e.name = "after_operator") && decide (e.snap.inds = [some [0, 1]]) &&
    (e.snap.heap[1]?).any fun i => decide (i.fit.value = .num 0) && i.fit.evaluated) = true := by decide +kernel

theorem bloat_point : ((done (some (1 / 10))).log[2]?).any (fun e => e.isPoint && (e.snap.genNum == 0)) = true := by
  decide +kernel

/-- The classifier of `Fit2` with the sigmoid method, with a target, for two generations. -/
def clfAlg : Evo.Cfg GP.Ind Unit := { Fit2.alg true with checker := .one (threshold 1 (3 / 100)), maxGen := 2 }

def clfStart : Run GP.Ind Unit := { Fit2.start none true with checkers := [()] }

theorem clf_ordinary : clfAlg.Ordinary (Fit2.plain true) ⟨true, none⟩ where
  subs := rfl
  dir := rfl
  creators := by simp [Fit2.plain]
  sels := ⟨_, _, rfl, tournament_good _ _, tournament_fills _ _⟩
  ops := by simp [Fit2.plain]
  sched := fun _ _ => List.Perm.refl _
  map := rfl

/-- With two classes the labels can be computed. -/
def eval2 (X : Mat) (y : List ℚ) (i : GP.Ind) : Except Err ℚ :=
  match Fit2.sig.output i X with
  | .error e => .error e
  | .ok os => accuracyScore y (os.map fun q => if 0 ≤ q then 1 else 0)

theorem eval2_eq (X : Mat) (y : List ℚ) : Fit2.sig.evaluate X y = eval2 X y := by
  funext i
  unfold Clf.evaluate Clf.classify eval2
  rw [show Fit2.sig.method = .sigmoid from rfl]
  dsimp only
  cases Fit2.sig.output i X with
  | error e => rfl
  | ok os =>
    dsimp only
    rw [show Fit2.sig.metric = accuracyScore from rfl, show Fit2.sig.nClasses = 2 from rfl]
    congr 1
    refine List.map_congr_left fun q _ => ?_
    rw [Verif.Clf.C58_binary]
    by_cases h : (0 : ℚ) ≤ q
    · rw [if_pos h, if_pos (by exact_mod_cast h)]; rfl
    · rw [if_neg h, if_neg (by exact_mod_cast h)]; rfl

/-- One of the two labels is 2, and there are two classes. -/
theorem clf_ends : (Fit2.sig.fit (fun X y => .ok (X, y)) clfAlg Fit2.data [1, 2] clfStart).1 = .ok () := by
  show (evolve (Fit2.sig.withData clfAlg Fit2.data [1, 2]) clfStart).1 = _
  unfold Clf.withData
  rw [eval2_eq]
  decide +kernel

/-- With the labels 1 and 1 the first programs are right already. -/
theorem clf_early : (Fit2.sig.fit (fun X y => .ok (X, y)) clfAlg Fit2.data [1, 1] clfStart).1 = .ok () ∧
    (Fit2.sig.fit (fun X y => .ok (X, y)) clfAlg Fit2.data [1, 1] clfStart).2.genNum = 0 := by
  show (evolve (Fit2.sig.withData clfAlg Fit2.data [1, 1]) clfStart).1 = _ ∧ (evolve (Fit2.sig.withData clfAlg Fit2.data [1, 1]) clfStart).2.genNum = _
  unfold Clf.withData
  rw [eval2_eq]
  decide +kernel

end Fit3

example := C155_regressor_early (M := Fit1.meaning) (check := fun X y => .ok (X, y)) (Fit3.ordinary none) rfl rfl
  (s := Fit3.start none) (Fit1.ready none) rfl rfl rfl rfl (ran Fit3.plain_ends.1)
  (show (Fit3.done none).genNum < 1 by rw [Fit3.plain_ends.2]; decide)

example := C155_regressor_stops_partial (M := Fit1.meaning) (check := fun X y => .ok (X, y)) rfl (Fit3.ordinary none) rfl rfl (.inl rfl)
  (s := Fit3.start none) (Fit1.ready none) rfl rfl rfl rfl (ran Fit3.plain_ends.1)

example := C155_classifier_early (C := Fit2.sig) (check := fun X y => .ok (X, y)) rfl Fit3.clf_ordinary rfl rfl
  (s := Fit3.clfStart) (Fit2.ready none true) rfl rfl rfl rfl (ran Fit3.clf_early.1) (by rw [Fit3.clf_early.2]; decide)

example := C155_classifier_stops_partial (C := Fit2.sig) (check := fun X y => .ok (X, y)) rfl Fit3.clf_ordinary rfl rfl (.inl rfl)
  (s := Fit3.clfStart) (Fit2.ready none true) rfl rfl rfl rfl (ran Fit3.clf_early.1)

example : (Fit2.sig.fit (fun X y => .ok (X, y)) Fit3.clfAlg Fit2.data [1, 2] Fit3.clfStart).2.genNum = 2 :=
  C155_unreachable (C := Fit2.sig) (check := fun X y => .ok (X, y)) rfl Fit3.clf_ordinary rfl rfl
    (s := Fit3.clfStart) (Fit2.ready none true) rfl rfl rfl rfl rfl (by decide) (fun q => decide (q = 0 ∨ q = 1)) (fun k hk => by
      have : k = 0 ∨ k = 1 := by change k < 2 at hk; omega
      rcases this with rfl | rfl <;> simp) (by norm_num [List.filter]) (ran Fit3.clf_ends)

/-- **C155 is false of the code.** With bloat control, which `GPFitness` has by default, a program that fits the data exactly
is evaluated in the first population, but the smaller program `x0` has the better fitness, and fitting goes on. -/
theorem C155_refuted : ¬ C155_statement := by
  intro h
  have hk := h Fit1.meaning (fun X y => .ok (X, y)) Fit3.alg Fit1.plain ⟨false, some (1 / 10)⟩ Fit1.data Fit1.data Fit1.target Fit1.target
    (Fit3.start (some (1 / 10))) (Fit3.done (some (1 / 10))) 0 rfl (Fit3.ordinary _) rfl rfl rfl (Fit1.ready _) rfl rfl rfl rfl (ran Fit3.bloat_ends.1)
  have h0 := Fit3.bloat_ends.2
  have h1 := Fit3.bloat_eval
  have h2 := Fit3.bloat_point
  generalize Fit3.done (some (1 / 10)) = s' at hk h0 h1 h2
  rw [Option.any_eq_true] at h1 h2
  obtain ⟨e₁, he1, h1⟩ := h1
  obtain ⟨e₂, he2, h2⟩ := h2
  simp only [Bool.and_eq_true, beq_iff_eq] at h2
  obtain ⟨l2, e2⟩ := List.getElem?_eq_some_iff.1 he2
  have hsplit : s'.log = s'.log.take 2 ++ e₂ :: s'.log.drop 3 := by
    rw [← e2, ← List.drop_eq_getElem_cons, List.take_append_drop]
  have hmem : e₁ ∈ s'.log.take 2 := by
    refine List.mem_of_getElem? (i := 1) ?_
    rw [List.getElem?_take_of_lt (by decide)]
    exact he1
  simp only [Bool.and_eq_true, decide_eq_true_eq, Option.any_eq_true] at h1
  obtain ⟨⟨⟨a1, a2⟩, a3⟩, i, hi, hv, hev⟩ := h1
  have := hk _ _ _ hsplit h2.1 ⟨e₁, hmem, ⟨a1, a2⟩, 1, 0, ⟨[0, 1], by rw [a3]; simp, by simp⟩, ⟨i, hi, hv, hev⟩, by
    simp [Reached]⟩
  rw [h0, h2.2] at this
  exact absurd this (by decide)

end Verif.GP
