import Verif.Model.Classification
import Verif.Props.Classifier
import Verif.Props.Regression
import Mathlib.Tactic.Linarith
import Mathlib.Tactic.Positivity
import Mathlib.Data.List.Dedup

/-! # C112 and C113: the training accuracy of a fitted classifier, and the labels it predicts -/

namespace Verif.GP
open PyM Verif.Evo
variable {κ : Type} {C : Clf} {check : Mat → List ℚ → Except Err (Mat × List ℚ)} {c : Evo.Cfg GP.Ind κ}
  {sub : SubCfg GP.Ind} {m : Mode} {X X' : Mat} {y y' : List ℚ} {s s' : Run GP.Ind κ}

theorem clf_ordinary (hc : c.Ordinary sub m) (X : Mat) (y : List ℚ) :
    (C.withData c X y).Ordinary { sub with evaluate := fun i t => (C.evaluate X y i, t) } m where
  subs := by simp only [Clf.withData, hc.subs, List.map_cons, List.map_nil]
  dir := hc.dir
  creators := hc.creators
  sels := hc.sels
  ops := hc.ops
  sched := hc.sched
  map := hc.map

/-- The accuracy of program `j` on the data `X`, `y` is `x`: of the labels it is classified with, the part `x` is right. -/
def Clf.Accurate (C : Clf) (X : Mat) (y : List ℚ) (j : GP.Ind) (x : ℚ) : Prop :=
  ∃ p, C.classify j X = .ok p ∧ p.length = y.length ∧
    x * y.length = ((y.zip p).filter fun a => a.1 = a.2).length

theorem accuracyScore_ok {y p : List ℚ} {x : ℚ} (h : accuracyScore y p = .ok x) :
    p.length = y.length ∧ 0 < y.length ∧ x * y.length = ((y.zip p).filter fun a => a.1 = a.2).length := by
  unfold accuracyScore at h
  by_cases h1 : y.length ≠ p.length
  · rw [if_pos h1] at h; cases h
  · rw [if_neg h1] at h
    by_cases h2 : y = []
    · rw [if_pos h2] at h; cases h
    · rw [if_neg h2] at h
      have hpos : 0 < y.length := List.length_pos_of_ne_nil h2
      refine ⟨(not_not.1 h1).symm, hpos, ?_⟩
      have hx : (((y.zip p).countP fun (a : ℚ × ℚ) => decide (a.1 = a.2) : Nat) : ℚ) / (y.length : ℚ) = x := by
        injection h
      rw [← hx, List.countP_eq_length_filter]
      have : (y.length : ℚ) ≠ 0 := by positivity
      field_simp

theorem accurate_of {j : GP.Ind} {x : ℚ} (hm : C.metric = accuracyScore) (h : C.evaluate X y j = .ok x) :
    C.Accurate X y j x := by
  unfold Clf.evaluate at h
  cases hp : C.classify j X with
  | error e => rw [hp] at h; simp at h
  | ok p =>
    rw [hp, hm] at h
    exact ⟨p, hp, (accuracyScore_ok h).1, (accuracyScore_ok h).2.2⟩

/-- What can be said of a classifier after `fit`: its score on the training data is `q`, which is the fitness of
`best_of_run_`, a program of `n` nodes; `Fine x k` holds for the accuracy `x` and size `k` of every program that was
evaluated at any time during the evolution. -/
def Scored (C : Clf) (X : Mat) (y : List ℚ) (s' : Run GP.Ind κ) (Fine : (q : ℚ) → (n : Nat) → (x : ℚ) → (k : Nat) → Prop) : Prop :=
  ∃ b i q, s'.bestOfRun = some b ∧ s'.w.heap[b]? = some i ∧ C.score s' X y = .ok q ∧ i.fit.value = .num q ∧
    (∃ e ∈ s'.log, e.IsEval ∧ e.Shows b) ∧
    ∀ e ∈ s'.log, e.IsEval → ∀ r, e.Shows r → ∃ j x, e.snap.heap[r]? = some j ∧ C.Accurate X y j.genome x ∧
      Fine q i.genome.tree.length x j.genome.tree.length

/-- C112, as the property says it: no program evaluated during `fit` has a higher training accuracy than the fitted
classifier. -/
def C112_statement : Prop :=
  ∀ (C : Clf) (check : Mat → List ℚ → Except Err (Mat × List ℚ)) (c : Evo.Cfg GP.Ind Unit) (sub : SubCfg GP.Ind) (m : Mode)
    (X X' : Mat) (y y' : List ℚ) (s s' : Run GP.Ind Unit), C.metric = accuracyScore → c.Ordinary sub m →
    (c.size = fun i => i.tree.length) → s.Ready m → s.log = [] → check X y = .ok (X', y') →
    C.fit check c X y s = (.ok (), s') → Scored C X' y' s' fun q _ x _ => x ≤ q

theorem scored_of (hmet : C.metric = accuracyScore) (hc : c.Ordinary sub m) (hsz : c.size = fun i => i.tree.length)
    (hr : s.Ready m) (hlog : s.log = []) (hch : check X y = .ok (X', y')) (h : C.fit check c X y s = (.ok (), s')) :
    Scored C X' y' s' fun q n x k => ¬ Preferred m.hib (Evo.score m.hib m.bloat x k) (Evo.score m.hib m.bloat q n) := by
  unfold Clf.fit at h
  rw [hch] at h
  dsimp only at h
  obtain ⟨b, i, q, h1, h2, h3, h4, h5, h6⟩ :=
    best_objective (clf_ordinary (C := C) hc X' y') (f := C.evaluate X' y') (fun _ _ => rfl) hr hlog h
  refine ⟨b, i, q, h1, h2, ?_, h4, h5, ?_⟩
  · unfold Clf.score Clf.predict
    rw [h1]
    dsimp only
    rw [h2]
    dsimp only
    unfold Clf.evaluate at h3
    rw [hmet] at h3
    exact h3
  · intro e he hev r hsh
    obtain ⟨j, x, h7, h8, h9⟩ := h6 e he hev r hsh
    refine ⟨j, x, h7, accurate_of hmet h8, ?_⟩
    have : (C.withData c X' y').size = fun i : GP.Ind => i.tree.length := hsz
    rw [this] at h9
    exact h9

/-- **C112 (partial): with `higher_is_better=True` and without bloat control**, `score` of a fitted classifier on its
training data is the fitness of `best_of_run_`, and no program evaluated during `fit` has a higher accuracy. -/
theorem C112_best_partial (hmet : C.metric = accuracyScore) (hc : c.Ordinary sub m) (hsz : c.size = fun i => i.tree.length)
    (hr : s.Ready m) (hlog : s.log = []) (hh : m.hib = true) (hb : m.bloat = none ∨ m.bloat = some 0)
    (hch : check X y = .ok (X', y')) (h : C.fit check c X y s = (.ok (), s')) :
    Scored C X' y' s' fun q _ x _ => x ≤ q := by
  obtain ⟨b, i, q, h1, h2, h3, h4, h5, h6⟩ := scored_of hmet hc hsz hr hlog hch h
  refine ⟨b, i, q, h1, h2, h3, h4, h5, fun e he hev r hsh => ?_⟩
  obtain ⟨j, x, h8, h9, h10⟩ := h6 e he hev r hsh
  refine ⟨j, x, h8, h9, ?_⟩
  rcases hb with hb | hb <;> simpa [Evo.score, Preferred, hh, hb] using h10

/-- **C112: with the default `higher_is_better=False`** (and without bloat control) it is the other way round: no program
evaluated during `fit` has a lower accuracy than the fitted classifier. -/
theorem C112_default_direction (hmet : C.metric = accuracyScore) (hc : c.Ordinary sub m)
    (hsz : c.size = fun i => i.tree.length) (hr : s.Ready m) (hlog : s.log = []) (hh : m.hib = false)
    (hb : m.bloat = none ∨ m.bloat = some 0) (hch : check X y = .ok (X', y')) (h : C.fit check c X y s = (.ok (), s')) :
    Scored C X' y' s' fun q _ x _ => q ≤ x := by
  obtain ⟨b, i, q, h1, h2, h3, h4, h5, h6⟩ := scored_of hmet hc hsz hr hlog hch h
  refine ⟨b, i, q, h1, h2, h3, h4, h5, fun e he hev r hsh => ?_⟩
  obtain ⟨j, x, h8, h9, h10⟩ := h6 e he hev r hsh
  refine ⟨j, x, h8, h9, ?_⟩
  rcases hb with hb | hb <;> simpa [Evo.score, Preferred, hh, hb] using h10

/-- **C112 (partial): with `higher_is_better=True` and bloat control** of weight `w`, a program evaluated during `fit` can
be more accurate than the fitted classifier, but by no more than `w` for every node it is larger than `best_of_run_`. -/
theorem C112_bloat_partial {w : ℚ} (hmet : C.metric = accuracyScore) (hc : c.Ordinary sub m)
    (hsz : c.size = fun i => i.tree.length) (hr : s.Ready m) (hlog : s.log = []) (hh : m.hib = true) (hb : m.bloat = some w)
    (hch : check X y = .ok (X', y')) (h : C.fit check c X y s = (.ok (), s')) :
    Scored C X' y' s' fun q n x k => x ≤ q + w * ((k : ℚ) - n) := by
  obtain ⟨b, i, q, h1, h2, h3, h4, h5, h6⟩ := scored_of hmet hc hsz hr hlog hch h
  refine ⟨b, i, q, h1, h2, h3, h4, h5, fun e he hev r hsh => ?_⟩
  obtain ⟨j, x, h8, h9, h10⟩ := h6 e he hev r hsh
  refine ⟨j, x, h8, h9, ?_⟩
  simp only [hh, hb, Preferred, Evo.score, if_true, not_lt] at h10
  linarith

/-! ## Labels -/

theorem classify_sigmoid (hs : C.method = .sigmoid) {i : GP.Ind} {p : List ℚ} (h : C.classify i X = .ok p) :
    ∃ os, C.output i X = .ok os ∧ p = os.map fun q : ℚ => (Verif.Clf.sigmoidLabel C.nClasses (.fin (q : ℝ)) : ℚ) := by
  unfold Clf.classify at h
  rw [hs] at h
  dsimp only at h
  cases ho : C.output i X with
  | error e => rw [ho] at h; simp at h
  | ok os => rw [ho] at h; cases h; exact ⟨os, rfl, rfl⟩

theorem predict_classify {p : List ℚ} (h : C.predict s X = .ok p) :
    ∃ b i, s.bestOfRun = some b ∧ s.w.heap[b]? = some i ∧ C.classify i.genome X = .ok p := by
  unfold Clf.predict at h
  cases hb : s.bestOfRun with
  | none => rw [hb] at h; cases h
  | some b =>
    rw [hb] at h
    dsimp only at h
    cases hi : s.w.heap[b]? with
    | none => rw [hi] at h; cases h
    | some i => rw [hi] at h; exact ⟨b, i, rfl, hi, h⟩

/-- C113, as the property says it: a classifier fitted to data with `n_classes` different labels predicts one of these
labels for every sample. -/
def C113_statement : Prop :=
  ∀ (C : Clf) (check : Mat → List ℚ → Except Err (Mat × List ℚ)) (c : Evo.Cfg GP.Ind Unit) (sub : SubCfg GP.Ind) (m : Mode)
    (X X' X'' : Mat) (y y' p : List ℚ) (s s' : Run GP.Ind Unit), C.metric = accuracyScore → c.Ordinary sub m →
    (c.size = fun i => i.tree.length) → s.Ready m → s.log = [] → check X y = .ok (X', y') →
    y'.dedup.length = C.nClasses → C.fit check c X y s = (.ok (), s') → C.predict s' X'' = .ok p → ∀ l ∈ p, l ∈ y'

/-- **C113 (partial): the sigmoid method** predicts whole numbers from 0 to `n_classes - 1`, whatever the data and whatever
was learnt. -/
theorem C113_sigmoid_partial (hs : C.method = .sigmoid) (hn : 0 < C.nClasses) {p : List ℚ} (h : C.predict s X = .ok p) :
    ∀ l ∈ p, ∃ k : Nat, k < C.nClasses ∧ l = k := by
  obtain ⟨b, i, -, -, h⟩ := predict_classify h
  obtain ⟨os, -, rfl⟩ := classify_sigmoid hs h
  intro l hl
  obtain ⟨q, -, rfl⟩ := List.mem_map.1 hl
  exact ⟨_, Verif.Clf.C58_range _ hn _, rfl⟩

/-- **C113 (partial)**: so the property holds if the labels of the training data are 0, …, `n_classes - 1`. -/
theorem C113_encoded_partial (hs : C.method = .sigmoid) (hn : 0 < C.nClasses)
    (hy : ∀ k : Nat, k < C.nClasses → (k : ℚ) ∈ y) {p : List ℚ} (h : C.predict s X = .ok p) : ∀ l ∈ p, l ∈ y := by
  intro l hl
  obtain ⟨k, hk, rfl⟩ := C113_sigmoid_partial hs hn h l hl
  exact hy k hk

/-- **C113**: and with the sigmoid method no score exceeds the part of the data whose labels are among 0, …,
`n_classes - 1`. -/
theorem C113_score_bound (hs : C.method = .sigmoid) (hn : 0 < C.nClasses) {q : ℚ} (h : C.score s X y = .ok q)
    (Q : ℚ → Bool) (hQ : ∀ k : Nat, k < C.nClasses → Q k = true) :
    q * y.length ≤ (y.filter Q).length := by
  unfold Clf.score at h
  cases hp : C.predict s X with
  | error e => rw [hp] at h; cases h
  | ok p =>
    rw [hp] at h
    dsimp only at h
    obtain ⟨hlen, -, hq⟩ := accuracyScore_ok h
    rw [hq]
    have hl := C113_sigmoid_partial hs hn hp
    have key : ∀ (y p : List ℚ), (∀ l ∈ p, ∃ k : Nat, k < C.nClasses ∧ l = k) →
        ((y.zip p).filter fun a => a.1 = a.2).length ≤ (y.filter Q).length := by
      intro y
      induction y with
      | nil => intro p _; simp
      | cons a y ih =>
        intro p hp
        cases p with
        | nil => simp
        | cons b p =>
          have := ih p fun l hl => hp l (List.mem_cons_of_mem _ hl)
          rw [List.zip_cons_cons, List.filter_cons]
          by_cases hab : a = b
          · obtain ⟨k, hk, hb⟩ := hp b (List.mem_cons_self ..)
            have hQa : Q a = true := by rw [hab, hb]; exact hQ k hk
            simp only [hab, decide_true, if_true, List.length_cons, List.filter_cons]
            rw [if_pos (by rw [← hab]; exact hQa)]
            simpa using this
          · rw [if_neg (by simpa using hab)]
            refine le_trans this ?_
            rw [List.filter_cons]
            split
            · simp
            · exact Nat.le_refl _
    exact_mod_cast key y p hl

/-- The value that a tree with a function at its root is executed to is a value of this function. -/
theorem executeMat_root {sem : Fn → List MVal → Except Err MVal} {lit : Val → MVal} {cfg : GP.Cfg} {g : Fn} {l : List Node}
    {r : MVal} (h : executeMat sem lit cfg (.func g :: l) X = .ok r) :
    ∃ args v, sem g args = .ok v ∧ reshape X v = .ok r := by
  unfold executeMat at h
  cases he : execute sem lit cfg (.func g :: l) (generateArgs X) with
  | error e => rw [he] at h; cases h
  | ok v =>
    rw [he] at h
    unfold execute at he
    rw [if_neg (by simp)] at he
    cases hk : checkKwargs cfg.terminalSet ((generateArgs X).map (·.1)) with
    | error e => rw [hk] at he; cases he
    | ok u =>
      rw [hk] at he
      change executeKw sem lit (kwFun (generateArgs X)) (.func g :: l) = .ok v at he
      unfold executeKw at he
      rw [if_neg (by simp)] at he
      rw [show (Node.func g :: l).length + 1 = (l.length + 1) + 1 from rfl, executeAt] at he
      simp only [List.getElem?_cons_zero] at he
      cases ha : loopArgs (executeAt sem lit (kwFun (generateArgs X)) (.func g :: l) (l.length + 1)) g.arity 0 with
      | error e => rw [ha] at he; cases he
      | ok ap =>
        obtain ⟨args, pos⟩ := ap
        rw [ha] at he
        cases hs : sem g args with
        | error e =>
          simp only [bind, Except.bind] at he
          rw [hs] at he
          cases he
        | ok w =>
          simp only [bind, Except.bind] at he
          rw [hs] at he
          cases he
          exact ⟨args, w, hs, h⟩

/-- **C113 (partial): the argmax and softmax methods** predict values of the function at the root, whose name contains
the method's: if all its values are arrays of labels, only these are predicted. -/
theorem C113_root_partial (hs : C.method ≠ .sigmoid) {p : List ℚ} (h : C.predict s X = .ok p) {L : ℚ → Prop}
    (hL : ∀ g args v, Verif.Clf.contained C.method.name (C.fnName g) = true → C.sem g args = .ok v →
      ∃ xs, v = .col xs ∧ ∀ x ∈ xs, L x) : ∀ l ∈ p, L l := by
  obtain ⟨b, i, -, -, h⟩ := predict_classify h
  unfold Clf.classify at h
  have hroot : ∃ g l, i.genome.tree = .func g :: l ∧ Verif.Clf.contained C.method.name (C.fnName g) = true ∧
      C.output i.genome X = .ok p := by
    cases hm : C.method with
    | sigmoid => exact absurd hm hs
    | argmax | softmax =>
      rw [hm] at h
      dsimp only at h
      cases ht : i.genome.tree with
      | nil => rw [ht] at h; cases h
      | cons n l =>
        rw [ht] at h
        cases n with
        | term v t => cases h
        | func g =>
          dsimp only at h
          split at h
          · exact ⟨g, l, rfl, by assumption, h⟩
          · cases h
  obtain ⟨g, l, ht, hg, ho⟩ := hroot
  unfold Meaning.output at ho
  rw [ht] at ho
  cases he : executeMat C.sem C.lit i.genome.cfg (.func g :: l) X with
  | error e => rw [he] at ho; cases ho
  | ok r =>
    rw [he] at ho
    obtain ⟨args, v, hv, hr⟩ := executeMat_root he
    obtain ⟨xs, rfl, hx⟩ := hL g args v hg hv
    cases hr
    cases ho
    exact hx

/-! ## Examples and counterexamples -/

namespace Fit2

def am : Fn := ⟨0, [none, none], none⟩
def x0 : Val := ⟨0, .str "x0"⟩
def x1 : Val := ⟨1, .str "x1"⟩
def cfg : GP.Cfg := ⟨[am], [(x0, none), (x1, none)], none, none⟩

/-- Trees of `argmax2floats`, classified with the argmax method. -/
def clf : Clf where
  sem := fun _ args => match args with
    | [.col a, .col b] => .ok (.col (List.zipWith (fun p q => if q ≤ p then 0 else 1) a b))
    | _ => .error .typeError
  lit := fun _ => .num 0
  metric := accuracyScore
  fnName := fun _ => "argmax2floats"
  method := .argmax
  nClasses := 2

/-- Two samples: (0, 1) and (1, 0). -/
def data : Mat := ⟨2, 2, .float, fun r k => if r = k then 0 else 1⟩

def one (w : Option ℚ) (hib : Bool) (id : Nat) (tree : List Node) : Evo.Ind GP.Ind :=
  ⟨id, 0, ⟨cfg, tree⟩, ⟨.none, false, hib, false, false, w⟩, 0, [], [], true, []⟩

def plain (hib : Bool) : SubCfg GP.Ind where
  creators := []
  pick := pure 0
  ops := []
  sels := [tournament (fun i => i.tree.length) 2 hib]
  popSize := 2
  nElite := 0
  hib := hib
  evaluate := fun _ => raise .attributeError

def alg (hib : Bool) : Evo.Cfg GP.Ind Unit where
  size := fun i => i.tree.length
  subs := [plain hib]
  stream := fun _ n => n
  maxGen := 0
  checker := .none
  sched := fun _ n => List.range n
  submit := false

/-- The trees `argmax(x0, x1)`, which is right, and `argmax(x1, x0)`, which is wrong on both samples. -/
def start (w : Option ℚ) (hib : Bool) : Run GP.Ind Unit :=
  ⟨⟨[one w hib 1 [.func am, .term x0 none, .term x1 none], one w hib 2 [.func am, .term x1 none, .term x0 none]], 3, fun n => n⟩, [some [0, 1]], none, none, none, 0, 42, 42, none, [], false, []⟩

theorem ordinary (w : Option ℚ) (hib : Bool) : (alg hib).Ordinary (plain hib) ⟨hib, w⟩ where
  subs := rfl
  dir := rfl
  creators := by simp [plain]
  sels := ⟨_, _, rfl, tournament_good _ _, tournament_fills _ _⟩
  ops := by simp [plain]
  sched := fun _ _ => List.Perm.refl _
  map := rfl

theorem ready (w : Option ℚ) (hib : Bool) : (start w hib).Ready ⟨hib, w⟩ := by
  refine .inr ⟨[0, 1], rfl, by decide, ?_⟩
  intro r hr
  simp only [List.mem_cons, List.not_mem_nil, or_false] at hr
  rcases hr with rfl | rfl <;> rfl

theorem fit_default : (clf.fit (fun X y => .ok (X, y)) (alg false) data [1, 0] (start none false)).1 = .ok () ∧
    (clf.score (clf.fit (fun X y => .ok (X, y)) (alg false) data [1, 0] (start none false)).2 data [1, 0]) = .ok 0 := by
  decide +kernel

theorem fit_up : (clf.fit (fun X y => .ok (X, y)) (alg true) data [1, 0] (start none true)).1 = .ok () ∧
    (clf.score (clf.fit (fun X y => .ok (X, y)) (alg true) data [1, 0] (start none true)).2 data [1, 0]) = .ok 1 := by
  decide +kernel

/-- The end of the evaluation shows the right program, too. -/
noncomputable def right (e : Event GP.Ind) : Bool :=
  decide (e.publisher = "population_evaluator") && decide (e.name = "after_operator") && decide (e.snap.inds = [some [0, 1]]) &&
    decide ((e.snap.heap[0]?.bind fun i => (clf.classify i.genome data).toOption) = some [1, 0])

theorem log_default :
    ((clf.fit (fun X y => .ok (X, y)) (alg false) data [1, 0] (start none false)).2.log[1]?.map right) = some true := by
  decide +kernel

/-- Labels 1 and 2. -/
theorem fit_shifted : (clf.fit (fun X y => .ok (X, y)) (alg true) data [2, 1] (start none true)).1 = .ok () ∧
    (clf.predict (clf.fit (fun X y => .ok (X, y)) (alg true) data [2, 1] (start none true)).2 data) = .ok [0, 1] := by
  decide +kernel

end Fit2

example := C112_best_partial (C := Fit2.clf) (check := fun X y => .ok (X, y)) rfl (Fit2.ordinary none true) rfl
  (Fit2.ready none true) rfl rfl (.inl rfl) rfl (ran Fit2.fit_up.1)

example := C112_default_direction (C := Fit2.clf) (check := fun X y => .ok (X, y)) rfl (Fit2.ordinary none false) rfl
  (Fit2.ready none false) rfl rfl (.inl rfl) rfl (ran Fit2.fit_default.1)

/-- **C112 is false**: with the default `higher_is_better=False`, a classifier that is always wrong is chosen although a
program that is always right was evaluated. -/
theorem C112_refuted : ¬ C112_statement := by
  intro h
  obtain ⟨b, i, q, -, -, hq, -, -, hall⟩ := h Fit2.clf (fun X y => .ok (X, y)) (Fit2.alg false) (Fit2.plain false) ⟨false, none⟩
    Fit2.data Fit2.data [1, 0] [1, 0] (Fit2.start none false) _ rfl (Fit2.ordinary _ _) rfl (Fit2.ready _ _) rfl rfl
    (ran Fit2.fit_default.1)
  rw [Fit2.fit_default.2] at hq
  cases hq
  have hl := Fit2.log_default
  cases he : (Fit2.clf.fit (fun X y => .ok (X, y)) (Fit2.alg false) Fit2.data [1, 0] (Fit2.start none false)).2.log[1]? with
  | none => rw [he] at hl; simp at hl
  | some e =>
    rw [he] at hl
    simp only [Option.map_some, Option.some.injEq, Fit2.right, Bool.and_eq_true, decide_eq_true_eq] at hl
    obtain ⟨⟨⟨h1, h2⟩, h3⟩, h4⟩ := hl
    obtain ⟨j, x, hj, ⟨p, hp, -, hx⟩, hn⟩ := hall e (List.mem_of_getElem? he) ⟨h1, h2⟩ 0 ⟨[0, 1], by rw [h3]; simp, by simp⟩
    rw [hj, Option.bind_some, hp] at h4
    cases h4
    norm_num at hx
    linarith

/-- **C113 is false**: labels are not encoded, so that a classifier fitted to the labels 1 and 2 predicts 0. -/
theorem C113_refuted : ¬ C113_statement := by
  intro h
  have := h Fit2.clf (fun X y => .ok (X, y)) (Fit2.alg true) (Fit2.plain true) ⟨true, none⟩ Fit2.data Fit2.data Fit2.data
    [2, 1] [2, 1] [0, 1] (Fit2.start none true) _ rfl (Fit2.ordinary _ _) rfl (Fit2.ready _ _) rfl rfl (by decide +kernel)
    (ran Fit2.fit_shifted.1) Fit2.fit_shifted.2 0 (by simp)
  norm_num at this

/-- The same trees with the sigmoid method. -/
def Fit2.sig : Clf := { Fit2.clf with method := .sigmoid }

/-- A run whose best individual is `argmax(x0, x1)`. -/
def Fit2.done : Run GP.Ind Unit := { Fit2.start none true with bestOfRun := some 0 }

theorem Fit2.sig_predict : Fit2.sig.predict Fit2.done Fit2.data = .ok [1, 1] := by
  have h : Fit2.sig.output (Fit2.one none true 1 [.func Fit2.am, .term Fit2.x0 none, .term Fit2.x1 none]).genome Fit2.data = .ok [1, 0] := by
    decide +kernel
  show Fit2.sig.classify (Fit2.one none true 1 [.func Fit2.am, .term Fit2.x0 none, .term Fit2.x1 none]).genome Fit2.data = _
  unfold Clf.classify
  rw [show Fit2.sig.method = .sigmoid from rfl, h]
  dsimp only
  rw [show Fit2.sig.nClasses = 2 from rfl]
  simp [Verif.Clf.C58_binary]

example := C113_sigmoid_partial (C := Fit2.sig) rfl (by decide) Fit2.sig_predict

example : ∀ l ∈ [(1 : ℚ), 1], l ∈ [(0 : ℚ), 1] :=
  C113_encoded_partial (C := Fit2.sig) rfl (by decide) (fun k hk => by
    have : k = 0 ∨ k = 1 := by change k < 2 at hk; omega
    rcases this with rfl | rfl <;> simp) Fit2.sig_predict

example := C113_score_bound (C := Fit2.sig) (s := Fit2.done) (X := Fit2.data) (y := [1, 2]) (q := 1 / 2) rfl (by decide) (by
    unfold Clf.score; rw [Fit2.sig_predict]; decide +kernel) (fun q => decide (q = 0 ∨ q = 1)) (fun k hk => by
    have : k = 0 ∨ k = 1 := by change k < 2 at hk; omega
    rcases this with rfl | rfl <;> simp)

example : ∀ l ∈ [(0 : ℚ), 1], l = 0 ∨ l = 1 :=
  C113_root_partial (C := Fit2.clf) (by decide) Fit2.fit_shifted.2 (L := fun l => l = 0 ∨ l = 1) (by
    intro g args v _ hv
    simp only [Fit2.clf] at hv
    split at hv
    · cases hv
      refine ⟨_, rfl, fun x hx => ?_⟩
      obtain ⟨k, hk, rfl⟩ := List.mem_iff_getElem.1 hx
      rw [List.getElem_zipWith]
      split
      · exact .inl rfl
      · exact .inr rfl
    · cases hv)

end Verif.GP
