import Verif.Model.FloatFit
import Verif.Props.Functions
import Verif.Props.Blame
import Verif.Props.Complete
import Verif.Props.OneMax

/-! # C154: fitting succeeds -/

namespace Verif.FloatFit
open PyM Verif.Evo Verif.Prim
variable {κ : Type} {K : κ → Prop} {R : Reg} {cfg : GP.Cfg} {n : Nat} {m : Mode} {X Y : FMat} {y : List Num}

/-- The configuration of individuals fits data with `n` features: the terminals are the names `x0`, …, that
`create_terminal_set` makes, the functions are numeric functions other than `argmax2floats` (see C73) and the
logical functions of floats (see C168), and constants are finite. -/
structure Suits (R : Reg) (cfg : GP.Cfg) (n : Nat) : Prop where
  terminals : ∀ kv ∈ cfg.terminalSet, ∃ i < n, kv.1.data = .str (GP.colName i)
  columns : ∀ i < n, ∃ kv ∈ cfg.terminalSet, kv.1.data = .str (GP.colName i)
  arity : ∀ f ∈ cfg.functionSet, f.params.length = (R.op f).arity
  numeric : ∀ f ∈ cfg.functionSet, (R.op f).Numeric
  constants : ∀ v, isFinite (R.lit v)

theorem mem_args {kx : String × Arr Num} : kx ∈ X.args ↔ ∃ i < X.ncols, kx = (GP.colName i, X.column i) := by
  simp only [FMat.args, List.mem_map, List.mem_range]
  constructor
  · rintro ⟨i, h, rfl⟩; exact ⟨i, h, rfl⟩
  · rintro ⟨i, h, rfl⟩; exact ⟨i, h, rfl⟩

theorem column_of (i : Nat) : Of X.nrows (X.column i) := .inr (by simp [FMat.column, Arr.shape])

/-- Every legal program has one output per row of a matrix with the right number of columns. -/
theorem output_ok (h : Suits R cfg n) {i : GP.Ind} (hi : GP.Legal cfg i) (hX : X.ncols = n) (hn : 0 < n) :
    ∃ p, R.output i X = .ok p ∧ p.length = X.nrows := by
  obtain ⟨hc, p, hp, hok, hf⟩ := hi
  rw [hc] at hf
  obtain ⟨r, hr, ho⟩ := C73_numeric_partial R.rnd R.op R.lit cfg p X.args X.nrows hok (fun f hf' => h.arity f (hf f hf'))
    (fun f hf' => h.numeric f (hf f hf'))
    (by
      intro kx hkx
      obtain ⟨k, hk, rfl⟩ := mem_args.1 hkx
      exact column_of k)
    (by
      intro kx hkx
      obtain ⟨k, hk, rfl⟩ := mem_args.1 hkx
      exact h.columns k (by omega))
    (by
      intro kv hkv
      obtain ⟨k, hk, he⟩ := h.terminals kv hkv
      exact ⟨_, mem_args.2 ⟨k, by omega, rfl⟩, he⟩)
  unfold Reg.output
  rw [hc, hp, hr]
  cases r with
  | scalar x => exact ⟨_, if_neg (by omega), by simp⟩
  | vec xs =>
    refine ⟨xs, rfl, ?_⟩
    rcases ho with ho | ho
    · simp [Arr.shape] at ho
    · simpa [Arr.shape] using ho

theorem output_bad (h : Suits R cfg n) {i : GP.Ind} (hi : GP.Legal cfg i) (hX : X.ncols ≠ n) :
    R.output i X = .error .valueError := by
  obtain ⟨hc, p, hp, hok, hf⟩ := hi
  unfold Reg.output
  rw [hc, hp, (GP.C14_execute_kwargs_partial _ _ cfg p hok X.args).2.1]
  rintro ⟨h1, h2⟩
  rcases Nat.lt_or_ge n X.ncols with hlt | hge
  · obtain ⟨kv, hkv, he⟩ := h1 _ (mem_args.2 ⟨n, hlt, rfl⟩)
    obtain ⟨i, hi, he'⟩ := h.terminals kv hkv
    rw [he'] at he
    have := GP.colName_inj (GP.Data.str.inj he)
    omega
  · obtain ⟨kv, hkv, he⟩ := h.columns X.ncols (by omega)
    obtain ⟨kx, hkx, he'⟩ := h2 kv hkv
    obtain ⟨i, hi, rfl⟩ := mem_args.1 hkx
    rw [he] at he'
    have := GP.colName_inj (GP.Data.str.inj he')
    omega

/-! ## Arithmetic without overflow -/

/-- All items are finite. -/
def AllFinite (a : Arr Num) : Prop := ∀ i, InShape a.shape i → isFinite (a.item i)

theorem isFinite_iff {x : Num} : isFinite x ↔ ∃ a, x = .fin a := by cases x <;> simp [isFinite]

theorem items_finite {rnd : ℝ → Num} (hr : ∀ x, isFinite (rnd x)) (op : Op) (xs : List Num) (hl : xs.length = op.arity)
    (hx : ∀ x ∈ xs, isFinite x) : isFinite (op.items rnd xs) := by
  have h1 : ∀ b, isFinite (ofBool b) := by intro b; cases b <;> simp [ofBool, isFinite]
  have h2 : ∀ (b : Bool) (u v : Num), isFinite u → isFinite v → isFinite (bif b then u else v) := by
    intro b u v hu hv; cases b <;> assumption
  have htiny : (0 : ℝ) < tiny := by unfold tiny; positivity
  have hdiv : ∀ a b : ℝ, isFinite (bif gt (Prim.abs (.fin b)) (.fin tiny) then Prim.div rnd (.fin a) (.fin b) else .fin 0) := by
    intro a b
    by_cases h : tiny < |b|
    · have hb : b ≠ 0 := by rintro rfl; simp at h; linarith
      simp only [Prim.abs, gt, h, decide_true, cond_true, Prim.div, if_neg hb]
      exact hr _
    · simp only [Prim.abs, gt, h, decide_false, cond_false]
      trivial
  match xs, op, hl with
  | [x], .sqrt, _ =>
    obtain ⟨a, rfl⟩ := isFinite_iff.1 (hx x (by simp))
    simp only [Op.items, Prim.abs, Prim.sqrt, if_neg (not_lt.2 (abs_nonneg a))]
    exact hr _
  | [x], .log, _ =>
    obtain ⟨a, rfl⟩ := isFinite_iff.1 (hx x (by simp))
    by_cases h : tiny < |a|
    · have h0 : ¬ |a| < 0 := not_lt.2 (abs_nonneg a)
      have h3 : ¬ |a| = 0 := by linarith
      simp only [Op.items, Prim.abs, gt, h, decide_true, cond_true, Prim.log, if_neg h0, if_neg h3]
      exact hr _
    · simp only [Op.items, Prim.abs, gt, h, decide_false, cond_false]
      trivial
  | [x], .abs, _ => obtain ⟨a, rfl⟩ := isFinite_iff.1 (hx x (by simp)); trivial
  | [x], .neg, _ => obtain ⟨a, rfl⟩ := isFinite_iff.1 (hx x (by simp)); trivial
  | [x], .inv, _ => obtain ⟨a, rfl⟩ := isFinite_iff.1 (hx x (by simp)); exact hdiv 1 a
  | [x], .sin, _ => obtain ⟨a, rfl⟩ := isFinite_iff.1 (hx x (by simp)); exact hr _
  | [x], .cos, _ => obtain ⟨a, rfl⟩ := isFinite_iff.1 (hx x (by simp)); exact hr _
  | [x], .tan, _ => obtain ⟨a, rfl⟩ := isFinite_iff.1 (hx x (by simp)); exact hr _
  | [x], .not, _ => exact h1 _
  | [x, y], .add, _ =>
    obtain ⟨a, rfl⟩ := isFinite_iff.1 (hx x (by simp)); obtain ⟨b, rfl⟩ := isFinite_iff.1 (hx y (by simp)); exact hr _
  | [x, y], .sub, _ =>
    obtain ⟨a, rfl⟩ := isFinite_iff.1 (hx x (by simp)); obtain ⟨b, rfl⟩ := isFinite_iff.1 (hx y (by simp)); exact hr _
  | [x, y], .mul, _ =>
    obtain ⟨a, rfl⟩ := isFinite_iff.1 (hx x (by simp)); obtain ⟨b, rfl⟩ := isFinite_iff.1 (hx y (by simp)); exact hr _
  | [x, y], .div, _ =>
    obtain ⟨a, rfl⟩ := isFinite_iff.1 (hx x (by simp)); obtain ⟨b, rfl⟩ := isFinite_iff.1 (hx y (by simp)); exact hdiv a b
  | [x, y], .max, _ =>
    obtain ⟨a, rfl⟩ := isFinite_iff.1 (hx x (by simp)); obtain ⟨b, rfl⟩ := isFinite_iff.1 (hx y (by simp))
    exact h2 _ _ _ trivial trivial
  | [x, y], .min, _ =>
    obtain ⟨a, rfl⟩ := isFinite_iff.1 (hx x (by simp)); obtain ⟨b, rfl⟩ := isFinite_iff.1 (hx y (by simp))
    exact h2 _ _ _ trivial trivial
  | [x, y], .logicalAnd, _ => exact h1 _
  | [x, y], .logicalOr, _ => exact h1 _
  | [x, y], .argmax, _ =>
    obtain ⟨a, rfl⟩ := isFinite_iff.1 (hx x (by simp)); obtain ⟨b, rfl⟩ := isFinite_iff.1 (hx y (by simp))
    exact h2 _ _ _ trivial trivial
  | [x, y, z], .iflte0, _ => exact h2 _ _ _ (hx y (by simp)) (hx z (by simp))
  | [x, y, z], .ifgt0, _ => exact h2 _ _ _ (hx y (by simp)) (hx z (by simp))
  | [x, y, z], .ifThenElse, _ => exact h2 _ _ _ (hx y (by simp)) (hx z (by simp))
  | [x, y, z, w], .iflte, _ => exact h2 _ _ _ (hx z (by simp)) (hx w (by simp))
  | [x, y, z, w], .ifgt, _ => exact h2 _ _ _ (hx z (by simp)) (hx w (by simp))

theorem inShape_args {args : List (Arr Num)} {k i : Nat} (ho : ∀ a ∈ args, Of k a) (h : InShape (shapes args) i) :
    ∀ a ∈ args, InShape a.shape i := by
  induction args with
  | nil => simp
  | cons a as ih =>
    have h2 : shapes as = none ∨ shapes as = some k := by
      clear ih h
      induction as with
      | nil => exact .inl rfl
      | cons b bs ih => exact or_of (ho b (by simp)) (ih fun c hc => ho c (by simp at hc ⊢; tauto))
    obtain ⟨h3, h4⟩ := inShape_or (ho a (by simp)) h2 h
    intro b hb
    rcases List.mem_cons.1 hb with rfl | hb
    · exact h3
    · exact ih (fun b hb => ho b (by simp [hb])) h4 b hb

theorem call_finite {rnd : ℝ → Num} (hr : ∀ x, isFinite (rnd x)) (op : Op) (hop : op ≠ .argmax) {k : Nat} (args : List (Arr Num))
    (hlen : args.length = op.arity) (ho : ∀ a ∈ args, Of k a) (hf : ∀ a ∈ args, AllFinite a) :
    ∃ r, op.call rnd args = .ok r ∧ Of k r ∧ AllFinite r := by
  obtain ⟨r, h1, h2, h3, h4⟩ := call_lifts rnd op args hlen ho fun h => absurd h hop
  refine ⟨r, h1, h2, fun i hi => ?_⟩
  rw [h4 i hi]
  refine items_finite hr op _ (by simpa using hlen) fun x hx => ?_
  obtain ⟨a, ha, rfl⟩ := List.mem_map.1 hx
  exact hf a ha i (inShape_args ho (h3 ▸ hi) a ha)

theorem vec_finite {xs : List Num} : AllFinite (.vec xs) ↔ ∀ x ∈ xs, isFinite x := by
  constructor
  · intro h x hx
    obtain ⟨i, hi, rfl⟩ := List.getElem_of_mem hx
    have := h i (by rintro m ⟨⟩; exact hi)
    unfold Arr.item at this
    dsimp only at this
    split at this
    · rename_i h1
      have : i = 0 := by omega
      subst this
      simpa [List.getD_eq_getElem?_getD, hi] using ‹isFinite (xs.getD 0 default)›
    · simpa [List.getD_eq_getElem?_getD, hi] using this
  · intro h i hi
    have hi : i < xs.length := hi _ rfl
    unfold Arr.item
    dsimp only
    split
    · have h0 : 0 < xs.length := by omega
      simpa [List.getD_eq_getElem?_getD, h0] using h xs[0] (by simp)
    · simpa [List.getD_eq_getElem?_getD, hi] using h xs[i] (by simp)

theorem column_finite {k : Nat} (h : ∀ r < X.nrows, isFinite (X.entry r k)) : AllFinite (X.column k) := by
  unfold FMat.column
  rw [vec_finite]
  intro x hx
  simp only [List.mem_map, List.mem_range] at hx
  obtain ⟨r, hr, rfl⟩ := hx
  exact h r hr

/-- If nothing overflows, then the outputs for finite data are finite. -/
theorem output_finite (h : Suits R cfg n) (hr : ∀ x, isFinite (R.rnd x)) {i : GP.Ind} (hi : GP.Legal cfg i) (hX : X.ncols = n)
    (hn : 0 < n) (hf : ∀ r < X.nrows, ∀ k < X.ncols, isFinite (X.entry r k)) :
    ∃ p, R.output i X = .ok p ∧ p.length = X.nrows ∧ ∀ x ∈ p, isFinite x := by
  obtain ⟨q, hq, hl⟩ := output_ok h hi hX hn
  refine ⟨q, hq, hl, ?_⟩
  obtain ⟨hc, p, hp, hok, hfn⟩ := hi
  rw [hc] at hfn
  unfold Reg.output at hq
  rw [hc, hp, (GP.C14_execute_kwargs_partial _ _ cfg p hok X.args).1 ⟨?_, ?_⟩] at hq
  rotate_left
  · intro kx hkx
    obtain ⟨k, hk, rfl⟩ := mem_args.1 hkx
    exact h.columns k (by omega)
  · intro kv hkv
    obtain ⟨k, hk, he⟩ := h.terminals kv hkv
    exact ⟨_, mem_args.2 ⟨k, by omega, rfl⟩, he⟩
  have key : ∃ v w, p.denote (fun f => (R.op f).call R.rnd) (GP.leafVal (fun v => .scalar (R.lit v)) (GP.kwFun X.args)) = .ok v ∧
      p.denote (fun f => (R.op f).call R.rnd) (GP.leafVal (fun v => .scalar (R.lit v)) (GP.kwFun X.args)) = .ok w ∧
      (v = w ∧ Of X.nrows v ∧ AllFinite v) := by
    refine denote_rel (R := fun a b => a = b ∧ Of X.nrows a ∧ AllFinite a) (P := fun f => f ∈ cfg.functionSet) ?_ ?_ p hok hfn
    · intro v
      refine ⟨rfl, ?_⟩
      have hlit : Of X.nrows (.scalar (R.lit v)) ∧ AllFinite (.scalar (R.lit v)) := ⟨.inl rfl, fun _ _ => h.constants v⟩
      unfold GP.leafVal
      split
      · rename_i name _
        cases hkw : GP.kwFun X.args name with
        | none => exact hlit
        | some a =>
          unfold GP.kwFun at hkw
          rw [Option.map_eq_some_iff] at hkw
          obtain ⟨kx, hfd, rfl⟩ := hkw
          obtain ⟨k, hk, rfl⟩ := mem_args.1 (List.mem_of_find?_eq_some hfd)
          exact ⟨column_of k, column_finite fun r hr => hf r hr k hk⟩
      · exact hlit
    · intro f vs ws hP hlv hvw
      have e : vs = ws ∧ ∀ a ∈ vs, Of X.nrows a ∧ AllFinite a := by
        clear hlv
        induction hvw with
        | nil => simp
        | cons h _ ih => obtain ⟨rfl, h2⟩ := h; obtain ⟨rfl, h3⟩ := ih; exact ⟨rfl, by simpa using ⟨h2, h3⟩⟩
      obtain ⟨rfl, e⟩ := e
      obtain ⟨r, a1, a2, a3⟩ := call_finite hr (R.op f) (h.numeric f hP).1 vs (by rw [hlv]; exact h.arity f hP)
        (fun a ha => (e a ha).1) fun a ha => (e a ha).2
      exact ⟨r, r, a1, a1, rfl, a2, a3⟩
  obtain ⟨v, w, k1, -, -, k2, k3⟩ := key
  rw [k1] at hq
  cases v with
  | scalar x =>
    dsimp only at hq
    rw [if_neg (by omega)] at hq
    cases hq
    intro z hz
    rw [List.eq_of_mem_replicate hz]
    exact k3 0 (by rintro m ⟨⟩)
  | vec xs =>
    cases hq
    exact vec_finite.1 k3

theorem reals_finite {l : List Num} (h : ∀ x ∈ l, isFinite x) : ∃ rs, reals l = some rs := by
  induction l with
  | nil => exact ⟨[], rfl⟩
  | cons x l ih =>
    obtain ⟨rs, hrs⟩ := ih fun x hx => h x (by simp [hx])
    obtain ⟨a, rfl⟩ := isFinite_iff.1 (h x (by simp))
    exact ⟨a :: rs, by simp [reals, hrs]⟩

theorem reals_infinite {l : List Num} (h : reals l = none) : ∃ x ∈ l, ¬ isFinite x := by
  by_contra hc
  obtain ⟨rs, hrs⟩ := reals_finite (l := l) fun x hx => by_contra fun hx' => hc ⟨x, hx, hx'⟩
  rw [h] at hrs
  cases hrs

theorem score_of (hy : ∀ a ∈ y, isFinite a) (hne : 0 < y.length) {p : List Num} (hl : p.length = y.length) :
    (∃ q, R.score y p = .ok q) ∨ (R.score y p = .error .valueError ∧ ∃ x ∈ p, ¬ isFinite x) := by
  unfold Reg.score
  rw [if_neg (by simp [hl]), if_neg (by rintro rfl; simp at hne)]
  obtain ⟨ys, hys⟩ := reals_finite hy
  rw [hys]
  cases hp : reals p with
  | some ps => exact .inl ⟨_, rfl⟩
  | none => exact .inr ⟨rfl, reals_infinite hp⟩

theorem score_finite (hy : ∀ a ∈ y, isFinite a) (hne : 0 < y.length) {p : List Num} (hl : p.length = y.length)
    (hp : ∀ x ∈ p, isFinite x) : ∃ q, R.score y p = .ok q := by
  rcases score_of (R := R) hy hne hl with h | ⟨-, x, hx, hx'⟩
  · exact h
  · exact absurd (hp x hx) hx'

/-! ## Fitting -/

/-- The fitted regressor predicts one number for each row of every matrix with `n` columns (finite numbers, if `P`), and
refuses matrices with another number of columns. -/
def Predicts (R : Reg) (n : Nat) (s : Run GP.Ind κ) (P : Prop) : Prop :=
  ∀ Y : FMat, (Y.ncols = n → ∃ p, R.predict s Y = .ok p ∧ p.length = Y.nrows ∧
      (P → (∀ r < Y.nrows, ∀ k < Y.ncols, isFinite (Y.entry r k)) → ∀ x ∈ p, isFinite x)) ∧
    (Y.ncols ≠ n → R.predict s Y = .error .valueError)

theorem withData_built {c : Evo.Cfg GP.Ind κ} {sub : SubCfg GP.Ind} {CR OP}
    (h : c.BuiltWith sub m CR OP) :
    (R.withData c X y).BuiltWith { sub with evaluate := fun i t => (R.evaluate X y i, t) } m CR OP where
  subs := by simp only [Reg.withData, h.subs, List.map_cons, List.map_nil]
  dir := h.dir
  creators := h.creators
  sels := h.sels
  ops := h.ops
  sched := h.sched
  map := h.map

theorem predicts_of (hs : Suits R cfg n) (hn : 0 < n) {c : Evo.Cfg GP.Ind κ} {sub : SubCfg GP.Ind}
    (h : c.BuiltWith sub m (GP.LibCreator cfg m) GP.LibOp) {s s' : Run GP.Ind κ} (hr : s.Ready m) (hst : s.Starts (GP.Legal cfg))
    (hrun : evolve (R.withData c X y) s = (.ok (), s')) : Predicts R n s' (∀ x, isFinite (R.rnd x)) := by
  have hb := withData_built (R := R) (X := X) (y := y) h
  have hall := GP.C75_programs_legal hb hr hst _ _ hrun
  obtain ⟨b, i, q, h1, h2, -⟩ := best_objective (hb.ordinary (fun _ h => h.good) (fun _ h => h.good)) (f := R.evaluate X y)
    (fun _ _ => rfl) hr hst.log hrun
  obtain ⟨e, he, h3, h4⟩ := Examples.evolve_last hrun
  obtain ⟨j, h5, h6⟩ := (hall e he).2.1 b (h4.trans h1) b (by simp)
  rw [h3, h2, Option.some.injEq] at h5
  subst h5
  have hpred : ∀ Y, R.predict s' Y = R.output i.genome Y := by
    intro Y
    unfold Reg.predict
    rw [h1]
    dsimp only
    rw [h2]
  intro Y
  rw [hpred]
  refine ⟨fun hY => ?_, fun hY => output_bad hs h6 hY⟩
  obtain ⟨p, hp, hl⟩ := output_ok hs h6 hY hn
  refine ⟨p, hp, hl, fun hP hYf => ?_⟩
  obtain ⟨p', hp', -, hf⟩ := output_finite hs hP h6 hY hn hYf
  rw [hp, Except.ok.injEq] at hp'
  exact hp' ▸ hf

/-- C154: a regressor put together from the tree creators and operators of the library and the numeric functions can be
fitted to every data set with the right number of features that scikit-learn accepts, and then predicts for every matrix
with that number of features. -/
def C154_statement : Prop :=
  ∀ (R : Reg) (cfg : GP.Cfg) (n : Nat) (m : Mode) (c : Evo.Cfg GP.Ind Unit) (sub : SubCfg GP.Ind) (X : FMat) (y : List Num)
    (s : Run GP.Ind Unit), Suits R cfg n → cfg.Plain → c.BuiltWith sub m (GP.SizedCreator cfg m sub.popSize) GP.LibOp →
    c.Fitting sub → c.Calm sub.hib (fun _ => True) → s.Open (GP.PlainLegal cfg) c sub m → s.Starts (GP.Legal cfg) →
    Accepted X y → X.ncols = n → ∃ s', R.fit c X y s = (.ok (), s') ∧ Predicts R n s' False

variable {c : Evo.Cfg GP.Ind κ} {sub : SubCfg GP.Ind} {s : Run GP.Ind κ}

theorem open_withData (ho : s.Open (GP.PlainLegal cfg) c sub m K) :
    s.Open (GP.PlainLegal cfg) (R.withData c X y) { sub with evaluate := fun i t => (R.evaluate X y i, t) } m K where
  ready := ho.ready
  given := ho.given
  fits := ho.fits
  executor := ho.executor
  states := ho.states

/-- **C154 (partial).** It can if nothing overflows.  Then the predictions for finite numbers are finite, too. -/
theorem C154_fit_partial (hs : Suits R cfg n) (hrnd : ∀ x, isFinite (R.rnd x)) (hp : cfg.Plain)
    (h : c.BuiltWith sub m (GP.SizedCreator cfg m sub.popSize) GP.LibOp) (hf : c.Fitting sub) (hc : c.Calm sub.hib K)
    (ho : s.Open (GP.PlainLegal cfg) c sub m K) (hst : s.Starts (GP.Legal cfg)) (ha : Accepted X y) (hX : X.ncols = n) :
    ∃ s', R.fit c X y s = (.ok (), s') ∧ Predicts R n s' True := by
  have hn : 0 < n := hX ▸ ha.features
  have htot : ∀ i, GP.Legal cfg i → Total (fun t : Tape => (R.evaluate X y i, t)) := by
    intro i hi t
    obtain ⟨p, hp, hl, hfin⟩ := output_finite hs hrnd hi hX hn ha.entries
    obtain ⟨q, hq⟩ := score_finite (R := R) ha.targets (by rw [ha.lengths]; exact ha.samples) (hl.trans ha.lengths.symm) hfin
    refine ⟨q, t, ?_⟩
    show (R.evaluate X y i, t) = _
    unfold Reg.evaluate
    rw [hp]
    dsimp only
    rw [hq]
  obtain ⟨s', hrun, -⟩ := GP.C80_programs (K := K) hp (withData_built (R := R) (X := X) (y := y) h)
    ⟨hf.popSize, hf.arities, hf.pick, hf.select, htot, hc⟩ (open_withData ho)
  refine ⟨s', ?_, ?_⟩
  · unfold Reg.fit
    rw [if_pos ha]
    exact hrun
  · have := predicts_of hs hn (m := m) (c := c) (sub := sub) { h with creators := fun x hx => (h.creators x hx).lib } ho.ready hst hrun
    intro Y
    refine ⟨fun hY => ?_, (this Y).2⟩
    obtain ⟨p, h1, h2, h3⟩ := (this Y).1 hY
    exact ⟨p, h1, h2, fun _ => h3 hrnd⟩

/-- **C154 (partial).** Otherwise it may fail with the `ValueError` of the metric, because the output of some program is not
finite, and in no other way. -/
theorem C154_overflow_partial (hs : Suits R cfg n) (hp : cfg.Plain)
    (h : c.BuiltWith sub m (GP.SizedCreator cfg m sub.popSize) GP.LibOp) (hf : c.Fitting sub) (hc : c.Calm sub.hib K)
    (ho : s.Open (GP.PlainLegal cfg) c sub m K) (hst : s.Starts (GP.Legal cfg)) (ha : Accepted X y) (hX : X.ncols = n) :
    (∃ s', R.fit c X y s = (.ok (), s') ∧ Predicts R n s' (∀ x, isFinite (R.rnd x))) ∨
    ∃ s', R.fit c X y s = (.error .valueError, s') ∧ ∃ i p, GP.Legal cfg i ∧ R.output i X = .ok p ∧ ∃ x ∈ p, ¬ isFinite x := by
  have hn : 0 < n := hX ▸ ha.features
  have hall : ∀ t ∈ c.checker.all, Checker.Calm c.size sub.hib K t := by
    unfold Cfg.Calm at hc
    cases hk : c.checker with
    | none => simp [Checkers.all]
    | one t => rw [hk] at hc; simpa [Checkers.all] using hc
    | many ts => rw [hk] at hc; simpa [Checkers.all] using hc
  have hfit : R.fit c X y s = evolve (R.withData c X y) s := by unfold Reg.fit; rw [if_pos ha]
  rw [hfit]
  have hK : (R.withData c X y).KeepsStates sub.hib K := by
    intro t ht k heap inds best gen v k' hc' hr
    obtain ⟨v', k'', h1, h2⟩ := hall t ht k heap inds best gen hc'
    rw [hr] at h1
    cases h1
    exact h2
  rcases GP.C121_programs hp (withData_built (R := R) (X := X) (y := y) h) ⟨hf.popSize, hf.arities, hf.pick, hf.select⟩ hK
    (open_withData ho) with ⟨s', h1, -⟩ | ⟨e, s', h1, ⟨i, t, t', hi, he⟩ | ⟨t, ht, k, heap, inds, best, gen, k', hc', hr⟩⟩
  · exact .inl ⟨s', h1, predicts_of hs hn (m := m) (c := c) (sub := sub)
      { h with creators := fun x hx => (h.creators x hx).lib } ho.ready hst h1⟩
  · obtain ⟨p, h2, h3⟩ := output_ok hs hi hX hn
    have he : R.evaluate X y i = .error e := congrArg Prod.fst he
    unfold Reg.evaluate at he
    rw [h2] at he
    rcases score_of (R := R) ha.targets (by rw [ha.lengths]; exact ha.samples) (h3.trans ha.lengths.symm) with ⟨q, hq⟩ | ⟨hq, hx⟩
    · dsimp only at he
      rw [hq] at he
      cases he
    · dsimp only at he
      rw [hq] at he
      cases he
      exact .inr ⟨s', h1, i, p, hi, h2, hx⟩
  · obtain ⟨v', k'', h1, h2⟩ := hall t ht k heap inds best gen hc'
    rw [hr] at h1
    cases h1

end Verif.FloatFit

/-! ## Data that overflow -/

namespace Verif.FloatFit.Big
open PyM Verif.Evo Verif.Prim

/-- A function of two parameters, here `f_mul`. -/
def mul : GP.Fn := ⟨0, [none, none], none⟩
/-- The terminal `x0`. -/
def x0 : GP.Val := ⟨1, .str (GP.colName 0)⟩
def cfg : GP.Cfg := ⟨[mul], [(x0, none)], none, none⟩

/-- Products of finite doubles: numbers of at least 2^1024 are out of range.  (Smaller ones are not rounded here.) -/
noncomputable def rnd (x : ℝ) : Num := if 2 ^ 1024 ≤ x then .posInf else .fin x

noncomputable def reg : Reg := ⟨rnd, fun _ => .mul, fun _ => .fin 0, fun _ _ => 0⟩

def create : Nat → Bool → WM GP.Ind (List Nat) := GP.fullCreator cfg 1 (fun h => ⟨.none, false, h, false, true, none⟩) true

def sub : SubCfg GP.Ind where
  creators := [create]
  pick := pure 0
  ops := []
  sels := [tournament (fun i => i.tree.length) 2 false]
  popSize := 4
  nElite := 0
  hib := false
  evaluate := fun _ => pure 0

def alg : Evo.Cfg GP.Ind Unit := { GP.exLibCfg with subs := [sub], maxGen := 0 }

def start : Run GP.Ind Unit := GP.exLibRun

/-- One sample with the feature 2^600. -/
noncomputable def X : FMat := ⟨1, 1, fun _ _ => .fin (2 ^ 600)⟩

theorem suits : Suits reg cfg 1 where
  terminals := by simp [cfg, x0]
  columns := by simp [cfg, x0]
  arity := by simp [cfg, mul, reg, Prim.Op.arity]
  numeric := by simp [reg, Op.Numeric]
  constants := fun _ => trivial

theorem untyped : cfg.Untyped := by simp [GP.Cfg.Untyped, cfg, mul]

theorem plain : cfg.Plain :=
  untyped.plain rfl (by simp [GP.Cfg.HasTerminal, cfg]) (by simp [cfg])
    (by simp [cfg, x0, GP.Data.isNumber, GP.Data.type, GP.Ty.isNumber])

theorem built : alg.BuiltWith sub ⟨false, none⟩ (GP.SizedCreator cfg ⟨false, none⟩ sub.popSize) GP.LibOp where
  subs := rfl
  dir := rfl
  creators := by
    intro x h
    simp only [sub, List.mem_singleton] at h
    subst h
    exact .full _ _ _ ⟨rfl, rfl⟩
  sels := ⟨_, _, rfl, tournament_good _ _, tournament_fills _ _⟩
  ops := by
    intro o ho
    simp [sub] at ho
  sched := fun _ k => .refl (List.range k)
  map := rfl

theorem fitting : alg.Fitting sub where
  popSize := by decide
  arities := by
    intro a ha
    simp [sub, tournament] at ha
    subst ha
    decide
  pick := fun t => ⟨0, t, rfl, by decide⟩
  select := by
    intro sel rest h
    simp only [sub, List.cons.injEq] at h
    obtain ⟨rfl, -⟩ := h
    exact tournament_worksOn (by omega) (by simp [sub])

theorem opened : start.Open (GP.PlainLegal cfg) alg sub ⟨false, none⟩ where
  ready := .inl rfl
  given := by simp [start, GP.exLibRun]
  fits := by simp [Cfg.Fits, alg, GP.exLibCfg]
  executor := rfl

theorem starts (P : GP.Ind → Prop) : start.Starts P := ⟨by simp [start, GP.exLibRun], rfl, rfl, rfl⟩

theorem accepted : Accepted X [.fin 0] where
  samples := by decide
  features := by decide
  lengths := rfl
  entries := fun _ _ _ _ => trivial
  targets := by simp [isFinite]

/-- The individual holds the program `mul(x0, x0)`. -/
def Square (i : GP.Ind) : Prop := i.cfg = cfg ∧ ∃ t u, i.tree = (GP.Prog.app mul [.term x0 t, .term x0 u]).flatten

theorem create_makes : Makes Square create := by
  refine createIndividuals_makes' _ _ _ (Post.bind (Q := fun l => ∃ t u, l = (GP.Prog.app mul [.term x0 t, .term x0 u]).flatten) ?_
    fun l h => Post.pure ⟨rfl, h⟩)
  intro t l t' hrun
  obtain ⟨p, rfl, hp⟩ := (GP.C85_full cfg (by simp [GP.DistinctKeys, cfg]) (by simp [GP.Cfg.ErcProper, cfg]) 1 none (.inl ⟨untyped, rfl⟩) l).1
    ⟨t, t', hrun⟩
  have hleaf : ∀ q : GP.Prog, q.Growable cfg none 0 0 → ∃ t, q = .term x0 t := by
    intro q hq
    cases q with
    | term v t =>
      have := (GP.Prog.growable_term.1 hq).2.1
      simp [GP.Cfg.Leaf, cfg] at this
      exact ⟨t, by rw [this.1]⟩
    | app f args => exact absurd (GP.Prog.growable_app.1 hq).1 (by omega)
  cases p with
  | term v t =>
    exact absurd (GP.Prog.growable_term.1 hp) (by simp)
  | app f args =>
    obtain ⟨-, -, hf, -, hargs⟩ := GP.Prog.growable_app.1 hp
    simp only [cfg, List.mem_singleton] at hf
    subst hf
    simp only [mul] at hargs
    cases hargs with
    | cons h1 h2 =>
      cases h2 with
      | cons h2 h3 =>
        cases h3
        obtain ⟨t, rfl⟩ := hleaf _ h1
        obtain ⟨u, rfl⟩ := hleaf _ h2
        exact ⟨t, u, rfl⟩

theorem square_output {i : GP.Ind} (h : Square i) : reg.output i X = .ok [.posInf] := by
  obtain ⟨hc, t, u, ht⟩ := h
  unfold Reg.output
  rw [hc, ht, (GP.C14_execute_kwargs_partial _ _ cfg _ (by simp [GP.Prog.Ok, GP.Prog.OkAll, mul]) X.args).1
    ⟨by simp [X, FMat.args, cfg, x0], by simp [X, FMat.args, cfg, x0]⟩]
  have h2 : (2 : ℝ) ^ 1024 ≤ 2 ^ 600 * 2 ^ 600 := by
    rw [← pow_add]
    exact pow_le_pow_right₀ (by norm_num) (by norm_num)
  have h3 : GP.leafVal (fun v => Arr.scalar (reg.lit v)) (GP.kwFun X.args) x0 = .vec [.fin (2 ^ 600)] := by
    simp [GP.leafVal, GP.kwFun, X, FMat.args, x0, FMat.column]
  have h4 : Prim.Op.call rnd .mul [.vec [.fin (2 ^ 600)], .vec [.fin (2 ^ 600)]] = .ok (.vec [.posInf]) := by
    simp [Prim.Op.call, map2, broadcast, Arr.shape, Arr.build, Arr.item, Prim.mul, rnd, h2]
  simp only [GP.Prog.denote, GP.Prog.denoteAll, h3, bind, Except.bind]
  rw [show (reg.op mul).call reg.rnd = Prim.Op.call rnd .mul from rfl, h4]

theorem square_evaluate {i : GP.Ind} (h : Square i) : reg.evaluate X [.fin 0] i = .error .valueError := by
  unfold Reg.evaluate
  rw [square_output h]
  simp [Reg.score, reals]

theorem no_fit (s' : Run GP.Ind Unit) : reg.fit alg X [.fin 0] start ≠ (.ok (), s') := by
  intro hrun
  unfold Reg.fit at hrun
  rw [if_pos accepted] at hrun
  have hb : (reg.withData alg X [.fin 0]).BuiltWith { sub with evaluate := fun i t => (reg.evaluate X [.fin 0] i, t) } ⟨false, none⟩
      (· = create) (fun _ => False) :=
    { withData_built built with
      creators := by simp [sub]
      ops := by simp [sub] }
  have hcg : ∀ x, x = create → CreatorGood ⟨false, none⟩ x := by
    rintro x rfl
    exact (GP.SizedCreator.full (n := 4) 1 _ _ ⟨rfl, rfl⟩).lib.good
  have hall := run_invariant (P := Square) hb hcg (by rintro x rfl; exact create_makes) (by simp) (by simp) opened.ready (starts _)
    _ _ hrun
  obtain ⟨b, i, q, h1, h2, h3, -⟩ := best_objective (hb.ordinary hcg (by simp)) (f := reg.evaluate X [.fin 0])
    (fun _ _ => rfl) opened.ready rfl hrun
  obtain ⟨e, he, h4, h5⟩ := Examples.evolve_last hrun
  obtain ⟨j, h6, h7⟩ := (hall e he).2.1 b (h5.trans h1) b (by simp)
  rw [h4, h2, Option.some.injEq] at h6
  subst h6
  rw [square_evaluate h7] at h3
  cases h3

end Verif.FloatFit.Big

namespace Verif.FloatFit

/-- **C154 is false of the code.** The single feature of the single sample is 2^600, every program that is created is
`mul(x0, x0)`, and its output is infinite, so that `fit` raises `ValueError`. -/
theorem C154_refuted : ¬ C154_statement := by
  intro h
  obtain ⟨s', h1, -⟩ := h Big.reg Big.cfg 1 ⟨false, none⟩ Big.alg Big.sub Big.X [.fin 0] Big.start Big.suits Big.plain Big.built Big.fitting
    trivial Big.opened (Big.starts _) Big.accepted rfl
  exact Big.no_fit s' h1

/-- With exact arithmetic the same regressor can be fitted to the same data, and predicts. -/
example : ∃ s', Reg.fit { Big.reg with rnd := .fin } Big.alg Big.X [.fin 0] Big.start = (.ok (), s') ∧
    Predicts { Big.reg with rnd := .fin } 1 s' True :=
  C154_fit_partial (K := fun _ => True) ⟨Big.suits.terminals, Big.suits.columns, Big.suits.arity, Big.suits.numeric, Big.suits.constants⟩
    (fun _ => trivial) Big.plain Big.built Big.fitting trivial Big.opened (Big.starts _) Big.accepted rfl

/-- With overflow it raises `ValueError`. -/
example : ∃ s', Big.reg.fit Big.alg Big.X [.fin 0] Big.start = (.error .valueError, s') := by
  rcases C154_overflow_partial (K := fun _ => True) Big.suits Big.plain Big.built Big.fitting trivial Big.opened (Big.starts _) Big.accepted
    rfl with ⟨s', h, -⟩ | ⟨s', h, -⟩
  · exact absurd h (Big.no_fit s')
  · exact ⟨s', h⟩

end Verif.FloatFit
