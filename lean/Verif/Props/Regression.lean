import Verif.Model.Regression
import Verif.Props.Objective
import Verif.Props.Selection
import Mathlib.Tactic.Linarith

/-! # C107: the training error of a fitted regressor -/

namespace Verif.GP
open PyM Verif.Evo
variable {κ : Type} {M : Meaning} {check : Mat → List ℚ → Except Err (Mat × List ℚ)} {c : Evo.Cfg GP.Ind κ}
  {sub : SubCfg GP.Ind} {m : Mode} {X X' : Mat} {y y' : List ℚ} {s s' : Run GP.Ind κ}

theorem withData_ordinary (hc : c.Ordinary sub m) (X : Mat) (y : List ℚ) :
    (M.withData c X y).Ordinary { sub with evaluate := fun i t => (M.evaluate X y i, t) } m where
  subs := by simp only [Meaning.withData, hc.subs, List.map_cons, List.map_nil]
  dir := hc.dir
  creators := hc.creators
  sels := hc.sels
  ops := hc.ops
  sched := hc.sched
  map := hc.map

/-- The error of program `j` on the data `X`, `y` is `x`. -/
def Meaning.Errs (M : Meaning) (X : Mat) (y : List ℚ) (j : GP.Ind) (x : ℚ) : Prop :=
  ∃ p, M.output j X = .ok p ∧ M.metric y p = .ok x

theorem errs_of {j : GP.Ind} {x : ℚ} (h : M.evaluate X y j = .ok x) : M.Errs X y j x := by
  unfold Meaning.evaluate at h
  cases hp : M.output j X with
  | error e => rw [hp] at h; simp at h
  | ok p => rw [hp] at h; exact ⟨p, hp, h⟩

/-- What can be said of a regressor after `fit`: its prediction for the training data has the error `q`, which is the
fitness of `best_of_run_`, a program of `n` nodes; `Fine x k` holds for the error `x` and size `k` of every program that
was evaluated at any time during the evolution. -/
def Fitted (M : Meaning) (X : Mat) (y : List ℚ) (s' : Run GP.Ind κ) (Fine : (q : ℚ) → (n : Nat) → (x : ℚ) → (k : Nat) → Prop) : Prop :=
  ∃ b i p q, s'.bestOfRun = some b ∧ s'.w.heap[b]? = some i ∧ M.predict s' X = .ok p ∧ M.metric y p = .ok q ∧
    i.fit.value = .num q ∧ (∃ e ∈ s'.log, e.IsEval ∧ e.Shows b) ∧
    ∀ e ∈ s'.log, e.IsEval → ∀ r, e.Shows r → ∃ j x, e.snap.heap[r]? = some j ∧ M.Errs X y j.genome x ∧
      Fine q i.genome.tree.length x j.genome.tree.length

/-- C107, as the property says it: no program evaluated during `fit` has a better training error than the predictions of
the fitted regressor. -/
def C107_statement : Prop :=
  ∀ (M : Meaning) (check : Mat → List ℚ → Except Err (Mat × List ℚ)) (c : Evo.Cfg GP.Ind Unit) (sub : SubCfg GP.Ind) (m : Mode)
    (X X' : Mat) (y y' : List ℚ) (s s' : Run GP.Ind Unit), c.Ordinary sub m → (c.size = fun i => i.tree.length) →
    s.Ready m → s.log = [] → check X y = .ok (X', y') → M.fit check c X y s = (.ok (), s') →
    Fitted M X' y' s' fun q _ x _ => ¬ Preferred m.hib x q

theorem fitted_of (hc : c.Ordinary sub m) (hsz : c.size = fun i => i.tree.length) (hr : s.Ready m) (hlog : s.log = [])
    (hch : check X y = .ok (X', y')) (h : M.fit check c X y s = (.ok (), s')) :
    Fitted M X' y' s' fun q n x k => ¬ Preferred m.hib (score m.hib m.bloat x k) (score m.hib m.bloat q n) := by
  unfold Meaning.fit at h
  rw [hch] at h
  dsimp only at h
  obtain ⟨b, i, q, h1, h2, h3, h4, h5, h6⟩ :=
    best_objective (withData_ordinary (M := M) hc X' y') (f := M.evaluate X' y') (fun _ _ => rfl) hr hlog h
  obtain ⟨p, hp, hq⟩ := errs_of h3
  refine ⟨b, i, p, q, h1, h2, ?_, hq, h4, h5, ?_⟩
  · unfold Meaning.predict
    rw [h1]
    dsimp only
    rw [h2]
    exact hp
  · intro e he hev r hsh
    obtain ⟨j, x, h7, h8, h9⟩ := h6 e he hev r hsh
    refine ⟨j, x, h7, errs_of h8, ?_⟩
    have : (M.withData c X' y').size = fun i : GP.Ind => i.tree.length := hsz
    rw [this] at h9
    exact h9

/-- **C107 (partial): without bloat control** (`SimpleFitness`, or `GPFitness` with `bloat_weight=0`), the predictions of
a fitted regressor for its training data have the error that is the fitness of `best_of_run_`, and no program evaluated
during `fit` has a better one. -/
theorem C107_best_partial (hc : c.Ordinary sub m) (hsz : c.size = fun i => i.tree.length) (hr : s.Ready m) (hlog : s.log = [])
    (hb : m.bloat = none ∨ m.bloat = some 0) (hch : check X y = .ok (X', y')) (h : M.fit check c X y s = (.ok (), s')) :
    Fitted M X' y' s' fun q _ x _ => ¬ Preferred m.hib x q := by
  obtain ⟨b, i, p, q, h1, h2, h3, h4, h5, h6, h7⟩ := fitted_of hc hsz hr hlog hch h
  refine ⟨b, i, p, q, h1, h2, h3, h4, h5, h6, fun e he hev r hsh => ?_⟩
  obtain ⟨j, x, h8, h9, h10⟩ := h7 e he hev r hsh
  refine ⟨j, x, h8, h9, ?_⟩
  rcases hb with hb | hb
  · rw [hb] at h10
    simpa [score] using h10
  · rw [hb] at h10
    cases hm : m.hib <;> simpa [score, hm] using h10

/-- **C107 (partial): with bloat control** of weight `w`, a program evaluated during `fit` can have a better training error
than the fitted regressor, but by no more than `w` for every node it is larger than `best_of_run_`. -/
theorem C107_bloat_partial {w : ℚ} (hc : c.Ordinary sub m) (hsz : c.size = fun i => i.tree.length) (hr : s.Ready m)
    (hlog : s.log = []) (hb : m.bloat = some w) (hch : check X y = .ok (X', y')) (h : M.fit check c X y s = (.ok (), s')) :
    Fitted M X' y' s' fun q n x k => if m.hib then x ≤ q + w * ((k : ℚ) - n) else q ≤ x + w * ((k : ℚ) - n) := by
  obtain ⟨b, i, p, q, h1, h2, h3, h4, h5, h6, h7⟩ := fitted_of hc hsz hr hlog hch h
  refine ⟨b, i, p, q, h1, h2, h3, h4, h5, h6, fun e he hev r hsh => ?_⟩
  obtain ⟨j, x, h8, h9, h10⟩ := h7 e he hev r hsh
  refine ⟨j, x, h8, h9, ?_⟩
  rw [hb] at h10
  cases hm : m.hib
  · simp only [Bool.false_eq_true, if_false]
    simp only [hm, Preferred, score, Bool.false_eq_true, if_false, not_lt] at h10
    linarith
  · simp only [if_true]
    simp only [hm, Preferred, score, if_true, not_lt] at h10
    linarith

/-! ## A program that fits the data exactly and is not chosen -/

namespace Fit1

def add : Fn := ⟨0, [none, none], none⟩
def x0 : Val := ⟨0, .str "x0"⟩
def cfg : GP.Cfg := ⟨[add], [(x0, none)], none, none⟩

def meaning : Meaning where
  sem := fun _ args => match args with
    | [.col a, .col b] => .ok (.col (List.zipWith (· + ·) a b))
    | _ => .error .typeError
  lit := fun _ => .num 0
  metric := meanAbsoluteError

/-- Tenths, to be doubled. -/
def data : Mat := ⟨2, 1, .float, fun r _ => (r + 1) / 10⟩
def target : List ℚ := [1 / 5, 2 / 5]

/-- `x0`, and `x0 + x0`, with the fitness `GPFitness()` makes: weight `w`. -/
def one (w : Option ℚ) (id : Nat) (tree : List Node) : Evo.Ind GP.Ind :=
  ⟨id, 0, ⟨cfg, tree⟩, ⟨.none, false, false, false, false, w⟩, 0, [], [], true, []⟩

def plain : SubCfg GP.Ind where
  creators := []
  pick := pure 0
  ops := []
  sels := [tournament (fun i => i.tree.length) 2 false]
  popSize := 2
  nElite := 0
  hib := false
  evaluate := fun _ => raise .attributeError

def alg : Evo.Cfg GP.Ind Unit where
  size := fun i => i.tree.length
  subs := [plain]
  stream := fun _ n => n
  maxGen := 0
  checker := .none
  sched := fun _ n => List.range n
  submit := false

def start (w : Option ℚ) : Run GP.Ind Unit :=
  ⟨⟨[one w 1 [.term x0 none], one w 2 [.func add, .term x0 none, .term x0 none]], 3, fun n => n⟩, [some [0, 1]], none, none, none, 0, 42, 42, none, [], false, []⟩

theorem ordinary (w : Option ℚ) : alg.Ordinary plain ⟨false, w⟩ where
  subs := rfl
  dir := rfl
  creators := by simp [plain]
  sels := ⟨_, _, rfl, tournament_good _ _, tournament_fills _ _⟩
  ops := by simp [plain]
  sched := fun _ _ => List.Perm.refl _
  map := rfl

theorem ready (w : Option ℚ) : (start w).Ready ⟨false, w⟩ := by
  refine .inr ⟨[0, 1], rfl, by decide, ?_⟩
  intro r hr
  simp only [List.mem_cons, List.not_mem_nil, or_false] at hr
  rcases hr with rfl | rfl <;> rfl

/-- The run with the default weight 1/10: `x0`, with error 3/20, is chosen. -/
theorem fit_default : (meaning.fit (fun X y => .ok (X, y)) alg data target (start (some (1 / 10)))).1 = .ok () ∧
    (meaning.fit (fun X y => .ok (X, y)) alg data target (start (some (1 / 10)))).2.bestOfRun = some 0 := by decide +kernel

theorem fit_plain : (meaning.fit (fun X y => .ok (X, y)) alg data target (start none)).1 = .ok () ∧
    (meaning.fit (fun X y => .ok (X, y)) alg data target (start none)).2.bestOfRun = some 1 := by decide +kernel

theorem predict_default : (meaning.predict
      (meaning.fit (fun X y => .ok (X, y)) alg data target (start (some (1 / 10)))).2 data) = .ok [1 / 10, 1 / 5] := by
  decide +kernel

/-- The end of the evaluation shows the other program, too, whose output is the target. -/
def exact (e : Event GP.Ind) : Bool :=
  decide (e.publisher = "population_evaluator") && decide (e.name = "after_operator") && decide (e.snap.inds = [some [0, 1]]) &&
    decide ((e.snap.heap[1]?.bind fun i => (meaning.output i.genome data).toOption) = some target)

theorem log_default : ((meaning.fit (fun X y => .ok (X, y)) alg data target (start (some (1 / 10)))).2.log[1]?.map exact) = some true := by
  decide +kernel

end Fit1

example := C107_best_partial (M := Fit1.meaning) (check := fun X y => .ok (X, y)) (Fit1.ordinary none) rfl (Fit1.ready none) rfl
  (.inl rfl) rfl (ran Fit1.fit_plain.1)

example := C107_bloat_partial (M := Fit1.meaning) (check := fun X y => .ok (X, y)) (w := 1 / 10) (Fit1.ordinary _) rfl (Fit1.ready _) rfl
  rfl rfl (ran Fit1.fit_default.1)

/-- **C107 is false**: with the bloat control `GPFitness` has by default, the regressor that was fitted predicts with an
error although a program that fits the data exactly was evaluated. -/
theorem C107_refuted : ¬ C107_statement := by
  intro h
  obtain ⟨b, i, p, q, -, -, hp, hq, -, -, hall⟩ := h Fit1.meaning (fun X y => .ok (X, y)) Fit1.alg Fit1.plain ⟨false, some (1 / 10)⟩ Fit1.data
    Fit1.data Fit1.target Fit1.target (Fit1.start (some (1 / 10))) _ (Fit1.ordinary _) rfl (Fit1.ready _) rfl rfl (ran Fit1.fit_default.1)
  rw [Fit1.predict_default] at hp
  cases hp
  have hq' : q = 3 / 20 := by
    have : Fit1.meaning.metric Fit1.target [1 / 10, 1 / 5] = .ok (3 / 20) := by decide +kernel
    rw [this] at hq
    cases hq
    rfl
  subst hq'
  have hl := Fit1.log_default
  cases he : (Fit1.meaning.fit (fun X y => .ok (X, y)) Fit1.alg Fit1.data Fit1.target (Fit1.start (some (1 / 10)))).2.log[1]? with
  | none => rw [he] at hl; simp at hl
  | some e =>
    rw [he] at hl
    simp only [Option.map_some, Option.some.injEq, Fit1.exact, Bool.and_eq_true, decide_eq_true_eq] at hl
    obtain ⟨⟨⟨h1, h2⟩, h3⟩, h4⟩ := hl
    obtain ⟨j, x, hj, ⟨p, hp, hx⟩, hn⟩ := hall e (List.mem_of_getElem? he) ⟨h1, h2⟩ 1 ⟨[0, 1], by rw [h3]; simp, by simp⟩
    rw [hj, Option.bind_some, hp] at h4
    cases h4
    have hx' : Fit1.meaning.metric Fit1.target Fit1.target = .ok 0 := by decide +kernel
    rw [hx'] at hx
    cases hx
    exact hn (by norm_num [Preferred])

end Verif.GP
