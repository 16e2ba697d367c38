import Verif.Model.FloatClassify
import Verif.Props.FloatFit
import Verif.Props.Classifier

/-! # C165: fitting a classifier succeeds even if programs overflow -/

namespace Verif.FloatFit
open PyM Verif.Evo Verif.Prim
variable {κ : Type} {K : κ → Prop} {R : Reg} {cfg : GP.Cfg} {n k : Nat} {m : Mode} {X Y : FMat} {y : List Num}
  {c : Evo.Cfg GP.Ind κ} {sub : SubCfg GP.Ind} {s s' : Run GP.Ind κ}

theorem withClasses_built {CR OP} (h : c.BuiltWith sub m CR OP) :
    (R.withClasses k c X y).BuiltWith { sub with evaluate := fun i t => (R.accuracyOf k X y i, t) } m CR OP where
  subs := by simp only [Reg.withClasses, h.subs, List.map_cons, List.map_nil]
  dir := h.dir
  creators := h.creators
  sels := h.sels
  ops := h.ops
  sched := h.sched
  map := h.map

theorem open_withClasses (ho : s.Open (GP.PlainLegal cfg) c sub m K) :
    s.Open (GP.PlainLegal cfg) (R.withClasses k c X y) { sub with evaluate := fun i t => (R.accuracyOf k X y i, t) } m K where
  ready := ho.ready
  given := ho.given
  fits := ho.fits
  executor := ho.executor
  states := ho.states

theorem labels_ok (hs : Suits R cfg n) {i : GP.Ind} (hi : GP.Legal cfg i) (hX : X.ncols = n) (hn : 0 < n) (hk : 0 < k) :
    ∃ p, R.labels k i X = .ok p ∧ p.length = X.nrows ∧ ∀ l ∈ p, l < k := by
  obtain ⟨os, h1, h2⟩ := output_ok hs hi hX hn
  refine ⟨os.map (Verif.Clf.sigmoidLabel k), by unfold Reg.labels; rw [h1], by simpa using h2, ?_⟩
  intro l hl
  obtain ⟨o, -, rfl⟩ := List.mem_map.1 hl
  exact Verif.Clf.C58_range k hk o

open Classical in
theorem accuracy_ok {p : List Nat} (hne : 0 < y.length) (hy : ∀ a ∈ y, isClass a) (hl : p.length = y.length) :
    accuracy y p = .ok (((y.zip p).countP fun a : Num × Nat => decide (agrees a.1 a.2) : Nat) / (y.length : ℚ)) := by
  unfold accuracy
  rw [if_neg (by simp [hl]), if_neg (by rintro rfl; simp at hne), if_neg]
  rintro ⟨a, ha, h⟩
  exact h (hy a ha)

theorem accuracy_bad {p : List Nat} (hy : ∃ a ∈ y, ¬ isClass a) : accuracy y p = .error .valueError := by
  unfold accuracy
  rw [if_pos hy]
  simp

/-- What is known of a fitted classifier: it predicts one label below `k` for each row of every matrix with `n` columns,
whatever numbers the matrix holds, and refuses matrices with another number of columns; its `score` on the training data is
the fitness of the best individual of the run, and at least (at most, with `higher_is_better=False`) that of every program
that was evaluated, up to the penalty for large programs. -/
structure Classifies (R : Reg) (n k : Nat) (m : Mode) (size : GP.Ind → Nat) (X : FMat) (y : List Num) (s : Run GP.Ind κ) : Prop where
  predicts : ∀ Y : FMat, Y.ncols = n → ∃ p, R.predictClasses k s Y = .ok p ∧ p.length = Y.nrows ∧ ∀ l ∈ p, l < k
  refuses : ∀ Y : FMat, Y.ncols ≠ n → R.predictClasses k s Y = .error .valueError
  scores : ∃ b i q, s.bestOfRun = some b ∧ s.w.heap[b]? = some i ∧ i.fit.value = .num q ∧ R.scoreClasses k s X y = .ok q ∧
    ∀ e ∈ s.log, e.IsEval → ∀ r, e.Shows r → ∃ j p x, e.snap.heap[r]? = some j ∧ R.labels k j.genome X = .ok p ∧
      accuracy y p = .ok x ∧
      ¬ Preferred m.hib (score m.hib m.bloat x (size j.genome)) (score m.hib m.bloat q (size i.genome))

theorem classifies_of (hs : Suits R cfg n) (hn : 0 < n) (hk : 0 < k)
    (h : c.BuiltWith sub m (GP.LibCreator cfg m) GP.LibOp) (hr : s.Ready m) (hst : s.Starts (GP.Legal cfg))
    (hrun : evolve (R.withClasses k c X y) s = (.ok (), s')) : Classifies R n k m c.size X y s' := by
  have hb := withClasses_built (R := R) (X := X) (y := y) (k := k) h
  have hall := GP.C75_programs_legal hb hr hst _ _ hrun
  obtain ⟨b, i, q, h1, h2, hq, hv, -, hev⟩ := best_objective (hb.ordinary (fun _ h => h.good) (fun _ h => h.good))
    (f := R.accuracyOf k X y) (fun _ _ => rfl) hr hst.log hrun
  obtain ⟨e, he, h3, h4⟩ := Examples.evolve_last hrun
  obtain ⟨j, h5, h6⟩ := (hall e he).2.1 b (h4.trans h1) b (by simp)
  rw [h3, h2, Option.some.injEq] at h5
  subst h5
  have hpred : ∀ Y, R.predictClasses k s' Y = R.labels k i.genome Y := by
    intro Y
    unfold Reg.predictClasses
    rw [h1]
    dsimp only
    rw [h2]
  refine ⟨fun Y hY => ?_, fun Y hY => ?_, b, i, q, h1, h2, hv, ?_, ?_⟩
  · rw [hpred]
    exact labels_ok hs h6 hY hn hk
  · rw [hpred]
    unfold Reg.labels
    rw [output_bad hs h6 hY]
  · unfold Reg.scoreClasses
    rw [hpred]
    exact hq
  · intro e he hie r hsh
    obtain ⟨j, x, g1, g2, g3⟩ := hev e he hie r hsh
    unfold Reg.accuracyOf at g2
    cases hp : R.labels k j.genome X with
    | error e => rw [hp] at g2; cases g2
    | ok p => rw [hp] at g2; exact ⟨j, p, x, g1, hp, g2, g3⟩

/-- **C165.** A classifier put together from the tree creators and operators of the library, the numeric functions and the
method `sigmoid` can be fitted to every data set with the right number of features that scikit-learn accepts and whose
targets are whole numbers, whatever the arithmetic rounds to and even if programs overflow or are undefined for samples. -/
theorem C165_fit (hs : Suits R cfg n) (hp : cfg.Plain) (hk : 0 < k)
    (h : c.BuiltWith sub m (GP.SizedCreator cfg m sub.popSize) GP.LibOp) (hf : c.Fitting sub) (hc : c.Calm sub.hib K)
    (ho : s.Open (GP.PlainLegal cfg) c sub m K) (hst : s.Starts (GP.Legal cfg)) (ha : Accepted X y) (hX : X.ncols = n)
    (hy : ∀ a ∈ y, isClass a) :
    ∃ s', R.fitClasses k c X y s = (.ok (), s') ∧ Classifies R n k m c.size X y s' := by
  have hn : 0 < n := hX ▸ ha.features
  have htot : ∀ i, GP.Legal cfg i → Total (fun t : Tape => (R.accuracyOf k X y i, t)) := by
    intro i hi t
    obtain ⟨p, hp, hl, -⟩ := labels_ok (k := k) hs hi hX hn hk
    have hq := accuracy_ok (by rw [ha.lengths]; exact ha.samples) hy (hl.trans ha.lengths.symm)
    generalize (_ / (y.length : ℚ) : ℚ) = q at hq
    refine ⟨q, t, ?_⟩
    show (R.accuracyOf k X y i, t) = _
    unfold Reg.accuracyOf
    rw [hp]
    dsimp only
    rw [hq]
  obtain ⟨s', hrun, -⟩ := GP.C80_programs (K := K) hp (withClasses_built (R := R) (X := X) (y := y) (k := k) h)
    ⟨hf.popSize, hf.arities, hf.pick, hf.select, htot, hc⟩ (open_withClasses ho)
  refine ⟨s', ?_, ?_⟩
  · unfold Reg.fitClasses
    rw [if_pos ha]
    exact hrun
  · exact classifies_of hs hn hk { h with creators := fun x hx => (h.creators x hx).lib } ho.ready hst hrun

/-- **C165.** With a target that is not a whole number, `fit` raises `ValueError`: the metric does not take the targets for
classes. -/
theorem C165_continuous (hs : Suits R cfg n) (hp : cfg.Plain) (hk : 0 < k)
    (h : c.BuiltWith sub m (GP.SizedCreator cfg m sub.popSize) GP.LibOp) (hf : c.Fitting sub) (hc : c.Calm sub.hib K)
    (ho : s.Open (GP.PlainLegal cfg) c sub m K) (hst : s.Starts (GP.Legal cfg)) (hX : X.ncols = n)
    (hy : ∃ a ∈ y, ¬ isClass a) :
    ∃ s', R.fitClasses k c X y s = (.error .valueError, s') := by
  by_cases ha : Accepted X y
  swap
  · exact ⟨s, by unfold Reg.fitClasses; rw [if_neg ha]⟩
  have hn : 0 < n := hX ▸ ha.features
  have hall : ∀ t ∈ c.checker.all, Checker.Calm c.size sub.hib K t := by
    unfold Cfg.Calm at hc
    cases hk : c.checker with
    | none => simp [Checkers.all]
    | one t => rw [hk] at hc; simpa [Checkers.all] using hc
    | many ts => rw [hk] at hc; simpa [Checkers.all] using hc
  have hfit : R.fitClasses k c X y s = evolve (R.withClasses k c X y) s := by unfold Reg.fitClasses; rw [if_pos ha]
  rw [hfit]
  have hK : (R.withClasses k c X y).KeepsStates sub.hib K := by
    intro t ht k heap inds best gen v k' hc' hr
    obtain ⟨v', k'', h1, h2⟩ := hall t ht k heap inds best gen hc'
    rw [hr] at h1
    cases h1
    exact h2
  rcases GP.C121_programs hp (withClasses_built (R := R) (X := X) (y := y) (k := k) h) ⟨hf.popSize, hf.arities, hf.pick, hf.select⟩ hK
    (open_withClasses ho) with ⟨s', h1, -⟩ | ⟨e, s', h1, ⟨i, t, t', hi, he⟩ | ⟨t, ht, k, heap, inds, best, gen, k', hc', hr⟩⟩
  · exfalso
    obtain ⟨b, i, q, -, -, -, hq, -⟩ := (classifies_of hs hn hk (m := m) (c := c) (sub := sub)
      { h with creators := fun x hx => (h.creators x hx).lib } ho.ready hst h1).scores
    unfold Reg.scoreClasses at hq
    split at hq
    · cases hq
    · rw [accuracy_bad hy] at hq
      cases hq
  · obtain ⟨p, h2, -⟩ := labels_ok (k := k) hs hi hX hn hk
    have he : R.accuracyOf k X y i = .error e := congrArg Prod.fst he
    unfold Reg.accuracyOf at he
    rw [h2] at he
    dsimp only at he
    rw [accuracy_bad hy] at he
    cases he
    exact ⟨s', h1⟩
  · obtain ⟨v', k'', h1, h2⟩ := hall t ht k heap inds best gen hc'
    rw [hr] at h1
    cases h1

/-- **C165.** A program whose output for a sample is not a number, or is infinite, is as good as one that is certain: the
label is the last class, and the first one for minus infinity. -/
theorem C165_undefined {i : GP.Ind} {os : List Num} (hk : 0 < k) (ho : R.output i X = .ok os) :
    ∃ p, R.labels k i X = .ok p ∧ p.length = os.length ∧ ∀ (r : Nat) (o : Num) (l : Nat), os[r]? = some o → p[r]? = some l →
      (o = .nan ∨ o = .posInf → l = k - 1) ∧ (o = .negInf → l = 0) := by
  refine ⟨os.map (Verif.Clf.sigmoidLabel k), by unfold Reg.labels; rw [ho], by simp, ?_⟩
  intro r o l h1 h2
  rw [List.getElem?_map, h1] at h2
  cases h2
  have := Verif.Clf.C58_bins k hk
  constructor
  · rintro (rfl | rfl)
    · exact this.2.2.2
    · exact this.2.2.1
  · rintro rfl
    exact this.2.1

theorem isClass_zero : isClass (.fin 0) := ⟨0, by norm_num, by norm_num, by simp⟩

/-- The data to which no regressor can be fitted (C154): every program overflows.  Every classifier with two classes can. -/
example : ∃ s', Big.reg.fitClasses 2 Big.alg Big.X [.fin 0] Big.start = (.ok (), s') ∧
    Classifies Big.reg 1 2 ⟨false, none⟩ Big.alg.size Big.X [.fin 0] s' :=
  C165_fit (K := fun _ => True) Big.suits Big.plain (by omega) Big.built Big.fitting trivial Big.opened (Big.starts _) Big.accepted rfl
    (by simp [isClass_zero])

/-- With the target 1/2 it cannot. -/
example : ∃ s', Big.reg.fitClasses 2 Big.alg Big.X [.fin (1 / 2)] Big.start = (.error .valueError, s') := by
  refine C165_continuous (K := fun _ => True) Big.suits Big.plain (by omega) Big.built Big.fitting trivial Big.opened (Big.starts _) rfl
    ⟨_, List.mem_singleton_self _, ?_⟩
  rintro ⟨k, -, -, h⟩
  rw [Num.fin.injEq] at h
  have : (1 : ℝ) = ((2 * k : ℤ) : ℝ) := by push_cast; linarith
  have : (1 : ℤ) = 2 * k := by exact_mod_cast this
  omega

/-- The square of 2^600 gets the last of three labels. -/
example {i : GP.Ind} (h : Big.Square i) : Big.reg.labels 3 i Big.X = .ok [2] := by
  obtain ⟨p, h1, h2, h3⟩ := C165_undefined (k := 3) (by omega) (Big.square_output h)
  rw [h1]
  match p, h2 with
  | [l], _ => rw [(h3 0 .posInf l rfl rfl).1 (.inr rfl)]

end Verif.FloatFit
