import Verif.Props.Blame
import Verif.Props.Budget
import Verif.Props.Termination

/-! # C80 and C121 with the termination checkers of the library: they raise nothing -/

namespace Verif.Evo
open PyM
variable {G κ : Type} {P : G → Prop} {size : G → Nat} {hib : Bool}

/-- The termination checkers of the library for single-objective runs, with any arguments.  Both are given a state of the
second, which the first does not use. -/
inductive LibChecker (size : G → Nat) (hib : Bool) : Checker G Stag → Prop
  | threshold (optimal thr : ℚ) : LibChecker size hib fun k heap inds best gen => ((threshold optimal thr () heap inds best gen).1, k)
  | stagnation (n : Int) : LibChecker size hib (stagnation size [hib] n)

/-- A state with no other values than numbers, such as the state of a new checker. -/
def Stag.Numeric (k : Stag) : Prop := ∀ vs, k.bestFitnesses = some vs → ∃ xs : List ℚ, vs = xs.map FVal.num

theorem stagStep_numeric {n : Int} {k : Stag} (hk : k.Numeric) (w : List ℚ) :
    ∃ b k', stagStep n k (w.map FVal.num) = (.ok b, k') ∧ k'.Numeric := by
  have hnew : Stag.Numeric ⟨some (w.map FVal.num), 0⟩ := fun vs h => ⟨w, (Option.some.inj h).symm⟩
  unfold stagStep
  cases hb : k.bestFitnesses with
  | none => exact ⟨_, _, rfl, hnew⟩
  | some vs =>
    obtain ⟨xs, rfl⟩ := hk vs hb
    cases xs with
    | nil => exact ⟨_, _, rfl, hnew⟩
    | cons x xs =>
      have := allClose_eq w (x :: xs)
      simp only [List.map_cons] at this ⊢
      rw [this]
      by_cases hc : Close w (x :: xs)
      · rw [decide_eq_true hc]
        exact ⟨_, _, rfl, fun vs h => ⟨x :: xs, (Option.some.inj h).symm⟩⟩
      · rw [decide_eq_false hc]
        exact ⟨_, _, rfl, hnew⟩

theorem HasScore.pure {w : World G} {r : Nat} {x : ℚ} (h : HasScore size hib w r x) : ∃ q, pureOf w.heap r = .ok (.num q) := by
  obtain ⟨i, b, q, hi, hh, -⟩ := h
  refine ⟨q, ?_⟩
  unfold pureOf
  rw [hi]
  exact hh.getPure

theorem LibChecker.calm {t : Checker G Stag} (h : LibChecker size hib t) : Checker.Calm size hib Stag.Numeric t := by
  rintro k heap inds best gen ⟨hk, w, is, b, x, rfl, rfl, hne, hev, rfl, hx⟩
  cases h with
  | threshold optimal thr =>
    obtain ⟨q, hq⟩ := hx.pure
    refine ⟨decide (|q - optimal| ≤ thr), k, ?_, hk⟩
    unfold Evo.threshold
    simp only [hq]
  | stagnation n =>
    obtain ⟨r, hr, hfr⟩ := C46_best hev hne
    obtain ⟨y, hy⟩ := hev r hfr.mem
    obtain ⟨q, hq⟩ := hy.pure
    obtain ⟨v, k', h1, h2⟩ := stagStep_numeric (n := n) hk [q]
    refine ⟨v, k', ?_, h2⟩
    unfold Evo.stagnation bestFitnesses
    rw [hr]
    dsimp only
    rw [hq]
    exact h1

/-- All checkers of the configuration are checkers of the library. -/
def Cfg.LibCheckers (c : Cfg G Stag) (hib : Bool) : Prop := ∀ t ∈ c.checker.all, LibChecker c.size hib t

theorem Cfg.LibCheckers.calm {c : Cfg G Stag} (h : c.LibCheckers hib) : c.Calm hib Stag.Numeric := by
  unfold Cfg.Calm
  unfold Cfg.LibCheckers at h
  cases hc : c.checker with
  | none => trivial
  | one t =>
    rw [hc] at h
    exact (h t (by simp [Checkers.all])).calm
  | many ts =>
    rw [hc] at h
    exact fun t ht => (h t (by simpa [Checkers.all] using ht)).calm

theorem Cfg.LibCheckers.keeps {c : Cfg G Stag} (h : c.LibCheckers hib) : c.KeepsStates hib Stag.Numeric := by
  intro t ht k heap inds best gen v k' hc hr
  obtain ⟨v', k'', h1, h2⟩ := (h t ht).calm k heap inds best gen hc
  rw [hr] at h1
  cases h1
  exact h2

theorem Cfg.LibCheckers.silent {c : Cfg G Stag} (h : c.LibCheckers hib) (e : Err) : ¬ c.CheckerRaises hib Stag.Numeric e := by
  rintro ⟨t, ht, k, heap, inds, best, gen, k', hc, hr⟩
  obtain ⟨v', k'', h1, h2⟩ := (h t ht).calm k heap inds best gen hc
  rw [hr] at h1
  cases h1

/-- `evolve` completes, or raises an exception of the evaluator. -/
def CompletesOrEvaluatorRaises (P : G → Prop) (c : Cfg G κ) (sub : SubCfg G) (m : Mode) (s : Run G κ) : Prop :=
  (∃ s', evolve c s = (.ok (), s') ∧ Completed P c sub m s') ∨
    ∃ e s', evolve c s = (.error e, s') ∧ sub.EvaluatorRaises P e

theorem Cfg.LibCheckers.blames {c : Cfg G Stag} {sub : SubCfg G} {m : Mode} {s : Run G Stag} (h : c.LibCheckers sub.hib)
    (hb : CompletesOrBlames P c sub m s Stag.Numeric) : CompletesOrEvaluatorRaises P c sub m s := by
  rcases hb with hb | ⟨e, s', h1, h2 | h2⟩
  · exact .inl hb
  · exact .inr ⟨e, s', h1, h2⟩
  · exact absurd h2 (h.silent e)

end Verif.Evo

namespace Verif.GA
open PyM Verif.Evo
variable {kind : Kind} {bounds : Bounds} {length : Nat} {m : Mode}

/-- **C121** for vectors and the library's termination checkers: the only exceptions of a run are those of the evaluator. -/
theorem C121_vectors_checkers (hb : bounds.Proper kind length) {c : Evo.Cfg Vec Stag} {sub : SubCfg Vec}
    (h : c.BuiltWith sub m (LibCreator kind bounds length m) (PairedOp kind length)) (hf : c.Fitting sub)
    (hc : c.LibCheckers sub.hib) {s : Run Vec Stag} (ho : s.Open (Legal kind bounds length) c sub m Stag.Numeric) :
    CompletesOrEvaluatorRaises (Legal kind bounds length) c sub m s :=
  hc.blames (C121_vectors hb h hf hc.keeps ho)

/-- **C80** for vectors and the library's termination checkers: if the evaluator raises nothing, the run completes. -/
theorem C80_vectors_checkers (hb : bounds.Proper kind length) {c : Evo.Cfg Vec Stag} {sub : SubCfg Vec}
    (h : c.BuiltWith sub m (LibCreator kind bounds length m) (PairedOp kind length)) (hf : c.Fitting sub)
    (hc : c.LibCheckers sub.hib) (he : ∀ v, Legal kind bounds length v → Total (sub.evaluate v)) {s : Run Vec Stag}
    (ho : s.Open (Legal kind bounds length) c sub m Stag.Numeric) :
    ∃ s', evolve c s = (.ok (), s') ∧ Completed (Legal kind bounds length) c sub m s' :=
  C80_vectors hb h ⟨hf.popSize, hf.arities, hf.pick, hf.select, he, hc.calm⟩ ho

/-! A run with both checkers, the second of which ends it. -/

def exCheckCfg : Evo.Cfg Vec Stag where
  size := fun v => v.vector.length
  subs := [exLibSub]
  stream := fun seed n => seed + n * n
  maxGen := 5
  checker := .many [fun k heap inds best gen => ((threshold 5 0 () heap inds best gen).1, k),
    stagnation (fun v => v.vector.length) [true] 1]
  sched := fun _ n => List.range n
  submit := false

def exCheckRun : Run Vec Stag :=
  ⟨⟨[], 1, fun n => n⟩, [none], none, none, none, 0, 42, 42, none, [⟨none, 0⟩, ⟨none, 0⟩], false, []⟩

theorem exCheck_built : exCheckCfg.BuiltWith exLibSub ⟨true, none⟩ (LibCreator .float (.tup [0, 1]) 3 ⟨true, none⟩)
    (PairedOp .float 3) where
  subs := rfl
  dir := rfl
  creators := exLibCfg_built.creators
  sels := exLibCfg_built.sels
  ops := exLib_paired
  sched := fun _ _ => .refl _
  map := rfl

theorem exCheck_fitting : exCheckCfg.Fitting exLibSub where
  popSize := exLib_smooth.popSize
  arities := exLib_smooth.arities
  pick := exLib_smooth.pick
  select := exLib_smooth.select

theorem exCheck_lib : exCheckCfg.LibCheckers exLibSub.hib := by
  intro t ht
  simp only [exCheckCfg, Checkers.all, List.mem_cons, List.not_mem_nil, or_false] at ht
  rcases ht with rfl | rfl
  · exact .threshold _ _
  · exact .stagnation _

theorem exCheck_open : exCheckRun.Open (Legal .float (.tup [0, 1]) 3) exCheckCfg exLibSub ⟨true, none⟩ Stag.Numeric where
  ready := .inl rfl
  given := by simp [exCheckRun]
  fits := rfl
  executor := rfl
  states := by
    intro k hk
    simp only [exCheckRun, List.mem_cons, List.not_mem_nil, or_false, or_self] at hk
    subst hk
    intro vs h
    cases h

example : ∃ s', evolve exCheckCfg exCheckRun = (.ok (), s') ∧
    Completed (Legal .float (.tup [0, 1]) 3) exCheckCfg exLibSub ⟨true, none⟩ s' :=
  C80_vectors_checkers exLib_proper exCheck_built exCheck_fitting exCheck_lib (fun _ _ => Total.pure) exCheck_open

example : CompletesOrEvaluatorRaises (Legal .float (.tup [0, 1]) 3) exCheckCfg exLibSub ⟨true, none⟩ exCheckRun :=
  C121_vectors_checkers exLib_proper exCheck_built exCheck_fitting exCheck_lib exCheck_open

/-- It ends in generation 2 of 5. -/
example : (evolve exCheckCfg exCheckRun).2.finalGen = some 2 := by decide +kernel

end Verif.GA

namespace Verif.GP
open PyM Verif.Evo
variable {cfg : GP.Cfg} {m : Mode}

/-- **C121** for programs and the library's termination checkers. -/
theorem C121_programs_checkers (hp : cfg.Plain) {c : Evo.Cfg GP.Ind Stag} {sub : SubCfg GP.Ind}
    (h : c.BuiltWith sub m (SizedCreator cfg m sub.popSize) LibOp) (hf : c.Fitting sub) (hc : c.LibCheckers sub.hib)
    {s : Run GP.Ind Stag} (ho : s.Open (PlainLegal cfg) c sub m Stag.Numeric) :
    CompletesOrEvaluatorRaises (Legal cfg) c sub m s :=
  hc.blames (C121_programs hp h hf hc.keeps ho)

/-- **C80** for programs and the library's termination checkers. -/
theorem C80_programs_checkers (hp : cfg.Plain) {c : Evo.Cfg GP.Ind Stag} {sub : SubCfg GP.Ind}
    (h : c.BuiltWith sub m (SizedCreator cfg m sub.popSize) LibOp) (hf : c.Fitting sub) (hc : c.LibCheckers sub.hib)
    (he : ∀ i, Legal cfg i → Total (sub.evaluate i)) {s : Run GP.Ind Stag} (ho : s.Open (PlainLegal cfg) c sub m Stag.Numeric) :
    ∃ s', evolve c s = (.ok (), s') ∧ Completed (Legal cfg) c sub m s' :=
  C80_programs hp h ⟨hf.popSize, hf.arities, hf.pick, hf.select, he, hc.calm⟩ ho

/-! A run with an evaluator that raises on some programs. -/

def exCheckCfg : Evo.Cfg GP.Ind Stag where
  size := fun i => i.tree.length
  subs := [exBlameSub]
  stream := fun seed n => seed + n * n
  maxGen := 2
  checker := .one (stagnation (fun i => i.tree.length) [true] 3)
  sched := fun _ n => List.range n
  submit := false

def exCheckRun : Run GP.Ind Stag :=
  ⟨⟨[], 1, fun n => n⟩, [none], none, none, none, 0, 42, 42, none, [⟨none, 0⟩], false, []⟩

example : CompletesOrEvaluatorRaises (Legal Sample.cfg) exCheckCfg exBlameSub ⟨true, none⟩ exCheckRun :=
  C121_programs_checkers exPlain
    { subs := rfl, dir := rfl, creators := exBlame_built.creators, sels := exBlame_built.sels, ops := exBlame_built.ops,
      sched := fun _ _ => .refl _, map := rfl }
    { popSize := exBlame_fitting.popSize, arities := exBlame_fitting.arities, pick := exBlame_fitting.pick,
      select := exBlame_fitting.select }
    (by
      intro t ht
      simp only [exCheckCfg, Checkers.all, List.mem_singleton] at ht
      subst ht
      exact .stagnation _)
    { ready := .inl rfl, given := by simp [exCheckRun], fits := rfl, executor := rfl, states := by simp [exCheckRun, Stag.Numeric] }

end Verif.GP
