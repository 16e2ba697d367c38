import Verif.Props.MooProgress
import Verif.Props.MooCourse

/-!
# C156 — what NSGA-II returns, compared with everything it has evaluated

`best_of_gen` is the Pareto front of the last generation (C55).  Users take it for the Pareto front of all that was
evaluated during the run.
-/

namespace Verif.Moo
open PyM
variable {G : Type} {n m : Nat} {ds : List Bool} {c : MCfg G} {s s' : MRun G} {f : G → List ℚ}

/-- The population has just been evaluated. -/
def MEvent.Evaluated (e : MEvent) : Prop := e.publisher = "population_evaluator" ∧ e.name = "after_operator"

/-- A generation has just ended. -/
def MEvent.Ended (e : MEvent) : Prop := e.publisher = "algorithm" ∧ e.name = "after_generation" ∧ 1 ≤ e.genNum

/-- Not worse in any objective: the same, or dominating. -/
def Covers (ds : List Bool) (w v : List ℚ) : Prop := w = v ∨ Pareto ds w v

theorem Covers.trans {a b d : List ℚ} (ha : a.length = ds.length) (hb : b.length = ds.length) (h : Covers ds a b)
    (h' : Covers ds b d) : Covers ds a d := by
  rcases h with rfl | h
  · exact h'
  · rcases h' with rfl | h'
    · exact .inr h
    · exact .inr (h.trans ha hb h')

/-- C156 as stated: no member of the front at the end of a generation is dominated by an individual that has been
evaluated before. -/
def C156_statement : Prop :=
  ∀ (G : Type) (c : MCfg G) (n m : Nat) (ds : List Bool) (f : G → List ℚ) (s s' : MRun G), c.Good n m ds → c.Steady f →
    c.nsga2Breeder = true → s.Fresh m ds → mevolve c s = (.ok (), s') →
    ∀ pre e mid e' post, s'.log = pre ++ e :: (mid ++ e' :: post) → e.Evaluated → e'.Ended →
    ∀ front r w x v, e'.bestOfGen = some front → r ∈ front → (e'.fits r).objs = some w → e.Has x v → ¬ Pareto ds v w

/-- In each generation the non-dominated individuals of those that were evaluated fit into a population of size `n`. -/
def Fits (n : Nat) (ds : List Bool) (log : List MEvent) : Prop :=
  ∀ e ∈ log, e.Evaluated → ∃ front : List Nat, front.length ≤ n ∧
    ∀ x v, e.Has x v → (∀ y u, e.Has y u → ¬ Pareto ds u v) → x ∈ front

/-- After the evaluation of the population comes an event of the algorithm. -/
def NextTags (a b : String × String) : Prop := a = ("population_evaluator", "after_operator") → b.1 = "algorithm"

theorem evaluated_next (hlog : s.log = []) (hg : s.genNum = 0) (h : mevolve c s = (.ok (), s')) {pre post : List MEvent}
    {e : MEvent} (hsplit : s'.log = pre ++ e :: post) (he : e.Evaluated) :
    ∃ e' post', post = e' :: post' ∧ e'.publisher = "algorithm" := by
  obtain ⟨evs, stop, hc⟩ := C126_course hlog hg h
  have hchain : List.IsChain NextTags (s'.log.map MEvent.tag) := by
    rw [hc.tags]
    have hgen : ∀ k, List.IsChain NextTags ((List.replicate k mgenTags).flatten) ∧
        ∀ y, ((List.replicate k mgenTags).flatten).getLast? = some y → y.1 = "algorithm" := by
      intro k
      induction k with
      | zero => simp
      | succ k ih =>
        rw [List.replicate_succ', List.flatten_append, List.flatten_singleton]
        refine ⟨List.isChain_append.2 ⟨ih.1, by simp [mgenTags, NextTags], ?_⟩, ?_⟩
        · intro a ha b hb hab
          have := ih.2 a ha
          rw [hab] at this
          exact absurd this (by decide)
        · intro y hy
          simp [mgenTags, List.getLast?_append] at hy
          rw [← hy]
    refine List.isChain_append.2 ⟨List.isChain_append.2 ⟨List.isChain_append.2 ⟨by simp [minitTags, NextTags], (hgen _).1, ?_⟩,
      ?_, ?_⟩, by simp, ?_⟩
    · intro a ha b hb hab
      simp [minitTags] at ha
      rw [← ha] at hab
      exact absurd hab (by decide)
    · split <;> simp
    · intro a ha b hb hab
      split at hb
      · simp at hb; rw [← hb]
      · simp at hb
    · intro a ha b hb hab
      simp at hb; rw [← hb]
  rw [hsplit] at hchain
  cases post with
  | nil =>
    exfalso
    have h1 : (s'.log.map MEvent.tag).getLast? = some ("algorithm", "evolution_finished") := by rw [hc.tags]; simp
    rw [hsplit] at h1
    simp [MEvent.tag, he.1] at h1
  | cons e' post' =>
    refine ⟨e', post', rfl, ?_⟩
    rw [List.map_append, List.map_cons, List.map_cons, List.isChain_append] at hchain
    have := (List.isChain_cons_cons.1 hchain.2.1).1
    exact this (by simp [MEvent.tag, he.1, he.2])

/-- Two positions in a log. -/
theorem append_cons_cases {α : Type} {a b c d : List α} {x y : α} (h : a ++ x :: b = c ++ y :: d) :
    (∃ l, a = c ++ y :: l ∧ d = l ++ x :: b) ∨ (a = c ∧ x = y ∧ b = d) ∨ ∃ l, c = a ++ x :: l ∧ b = l ++ y :: d := by
  rcases List.append_eq_append_iff.1 h with ⟨as, h1, h2⟩ | ⟨bs, h1, h2⟩
  · cases as with
    | nil =>
      simp only [List.nil_append, List.cons.injEq] at h2
      simp only [List.append_nil] at h1
      exact .inr (.inl ⟨h1.symm, h2.1, h2.2⟩)
    | cons z as =>
      simp only [List.cons_append, List.cons.injEq] at h2
      obtain ⟨rfl, h2⟩ := h2
      exact .inr (.inr ⟨as, h1, h2⟩)
  · cases bs with
    | nil =>
      simp only [List.nil_append, List.cons.injEq] at h2
      simp only [List.append_nil] at h1
      exact .inr (.inl ⟨h1, h2.1.symm, h2.2.symm⟩)
    | cons z bs =>
      simp only [List.cons_append, List.cons.injEq] at h2
      obtain ⟨rfl, h2⟩ := h2
      exact .inl ⟨bs, h1, h2⟩

/-- From one event of the algorithm to a later one. -/
theorem steps_cover {log : List MEvent} (hlog : StepLog ds log) (hsz : ∀ e ∈ log, e.publisher = "algorithm" → e.inds.length = n)
    (hfits : Fits n ds log) {pre mid post : List MEvent} {e e' : MEvent} (hsplit : log = pre ++ e :: (mid ++ e' :: post))
    (he : e.publisher = "algorithm") (he' : e'.publisher = "algorithm") {x : Nat} {v : List ℚ} (hx : e.Has x v)
    (hv : v.length = ds.length) :
    ∃ y w, e'.Has y w ∧ Covers ds w v ∧ w.length = ds.length := by
  induction hk : mid.length using Nat.strong_induction_on generalizing mid e' post with
  | _ k ih =>
    have hat : log = (pre ++ e :: mid) ++ e' :: post := by rw [hsplit]; simp
    rcases hlog (pre ++ e :: mid) e' post hat he' with ⟨-, h, -⟩ | ⟨-, pre', e0, hpre, h0, h1, h2⟩ |
      ⟨pre', e0, mid', e1, hpre, h0, hmid, hp1, hn1, -, hcar⟩
    · exact absurd he (h e (by simp))
    · rcases List.eq_nil_or_concat mid with rfl | ⟨mid₀, z, rfl⟩
      · obtain ⟨-, h3⟩ := List.append_inj' (s₁ := pre) (t₁ := [e]) hpre rfl
        simp only [List.cons.injEq, and_true] at h3
        subst h3
        exact ⟨x, v, ⟨h1 ▸ hx.1, h2 ▸ hx.2⟩, .inl rfl, hv⟩
      · rw [List.concat_eq_append, ← List.cons_append, ← List.append_assoc] at hpre
        obtain ⟨-, h3⟩ := List.append_inj' hpre rfl
        simp only [List.cons.injEq, and_true] at h3
        subst h3
        obtain ⟨y, w, hy, hw⟩ := ih mid₀.length (by rw [← hk]; simp) (mid := mid₀) (post := e' :: post)
          (by rw [hsplit]; simp) h0 rfl
        exact ⟨y, w, ⟨h1 ▸ hy.1, h2 ▸ hy.2⟩, hw⟩
    · obtain ⟨front, hfl, hfr⟩ := hfits e1 (by rw [hat, hpre]; simp) ⟨hp1, hn1⟩
      have hstep : ∀ z u, e0.Has z u → ∃ y w, e'.Has y w ∧ Covers ds w u ∧ w.length = ds.length := by
        intro z u hz
        obtain ⟨y, hy⟩ := hcar.inherits z u hz
        obtain ⟨y', w, h3, h4⟩ := hcar.front front (by rw [hsz e' (by rw [hat]; simp) he']; exact hfl) hfr y u hy
        exact ⟨y', w, h3, h4, hcar.length y' w (hcar.stays y' w h3)⟩
      rcases append_cons_cases hpre with ⟨l, h3, h4⟩ | ⟨h3, rfl, h4⟩ | ⟨l, h3, h4⟩
      · exact absurd he (hmid e (by rw [h4]; simp))
      · exact hstep x v hx
      · obtain ⟨y, w, hy, hw, hwl⟩ := ih l.length (by rw [← hk, h4]; simp) (mid := l)
          (post := mid' ++ [e1] ++ e' :: post) (by rw [hsplit, h4]; simp) h0 rfl
        obtain ⟨y', w', hy', hw', hwl'⟩ := hstep y w hy
        exact ⟨y', w', hy', hw'.trans hwl' hwl hw, hwl'⟩

/-- C156, if in each generation the non-dominated individuals fit into the population: for everything that has been
evaluated there is, at the end of each later generation, a survivor with the same objectives or one that dominates
it. -/
theorem C156_covers_partial (hc : c.Good n m ds) (hst : c.Steady f) (hb : c.nsga2Breeder = true) (hf : s.Fresh m ds)
    (hrun : mevolve c s = (.ok (), s')) (hfits : Fits n ds s'.log) {pre mid post : List MEvent} {e e' : MEvent}
    (hsplit : s'.log = pre ++ e :: (mid ++ e' :: post)) (he : e.Evaluated) (he' : e'.Ended) {x : Nat} {v : List ℚ}
    (hx : e.Has x v) : v.length = ds.length ∧
    ∃ y w, e'.Has y w ∧ (w = v ∨ Pareto ds w v) ∧ w.length = ds.length := by
  have hlog := (mevolve_prog hc hst hb hf () s' hrun).log
  have hsz := C53_size hc hb hf hrun
  obtain ⟨e2, post2, hnext, halg⟩ := evaluated_next hf.log hf.genNum hrun hsplit he
  -- at the next event of the algorithm
  have hat2 : s'.log = (pre ++ [e]) ++ e2 :: post2 := by rw [hsplit, hnext]; simp
  have hv : v.length = ds.length ∧ ∃ y w, e2.Has y w ∧ Covers ds w v ∧ w.length = ds.length := by
    rcases hlog _ e2 post2 hat2 halg with ⟨hn, -, pre', e1, hpre, h1, h2, h3⟩ | ⟨-, pre', e0, hpre, h0, -⟩ |
      ⟨pre', e0, mid', e1, hpre, h0, hmid, hp1, hn1, -, hcar⟩
    · obtain ⟨-, h4⟩ := List.append_inj' hpre rfl
      simp only [List.cons.injEq, and_true] at h4
      subst h4
      exact ⟨h3 x v hx, x, v, ⟨h1 ▸ hx.1, h2 ▸ hx.2⟩, .inl rfl, h3 x v hx⟩
    · obtain ⟨-, h3⟩ := List.append_inj' hpre rfl
      simp only [List.cons.injEq, and_true] at h3
      subst h3
      rw [he.1] at h0
      exact absurd h0 (by decide)
    · rw [← List.cons_append, ← List.append_assoc] at hpre
      obtain ⟨-, h3⟩ := List.append_inj' hpre rfl
      simp only [List.cons.injEq, and_true] at h3
      subst h3
      obtain ⟨front, hfl, hfr⟩ := hfits e (by rw [hsplit]; simp) he
      obtain ⟨y, w, h3, h4⟩ := hcar.front front (by rw [hsz e2 (by rw [hat2]; simp) halg]; exact hfl) hfr x v hx
      exact ⟨hcar.length x v hx, y, w, h3, h4, hcar.length y w (hcar.stays y w h3)⟩
  obtain ⟨hvl, y, w, hy, hw, hwl⟩ := hv
  refine ⟨hvl, ?_⟩
  cases mid with
  | nil =>
    simp only [List.nil_append, List.cons.injEq] at hnext
    obtain ⟨rfl, -⟩ := hnext
    exact ⟨y, w, hy, hw, hwl⟩
  | cons z mid =>
    simp only [List.cons_append, List.cons.injEq] at hnext
    obtain ⟨rfl, hnext⟩ := hnext
    obtain ⟨y', w', h1, h2, h3⟩ := steps_cover hlog hsz hfits (pre := pre ++ [e]) (mid := mid) (post := post) (by rw [hsplit]; simp) halg he'.1 hy hwl
    exact ⟨y', w', h1, h2.trans h3 hwl hw, h3⟩

/-- C156, if in each generation the non-dominated individuals fit into the population: no member of the front at the
end of a generation is dominated by an individual that has been evaluated before. -/
theorem C156_front_partial (hc : c.Good n m ds) (hst : c.Steady f) (hb : c.nsga2Breeder = true) (hf : s.Fresh m ds)
    (hrun : mevolve c s = (.ok (), s')) (hfits : Fits n ds s'.log) {pre mid post : List MEvent} {e e' : MEvent}
    (hsplit : s'.log = pre ++ e :: (mid ++ e' :: post)) (he : e.Evaluated) (he' : e'.Ended) {front : List Nat}
    {r x : Nat} {w v : List ℚ} (hfront : e'.bestOfGen = some front) (hr : r ∈ front) (hw : (e'.fits r).objs = some w)
    (hx : e.Has x v) : ¬ Pareto ds v w := by
  intro hdom
  obtain ⟨hvl, y, u, hy, hcov, hul⟩ := C156_covers_partial hc hst hb hf hrun hfits hsplit he he' hx
  have hat : s'.log = (pre ++ e :: mid) ++ e' :: post := by rw [hsplit]; simp
  obtain ⟨pre', e1, front', hpre, hp1, hn1, -, hfr', vec, hvec, hiff⟩ := C55_pareto_front hc hf hrun hat he'.1 he'.2.1 he'.2.2
  obtain rfl : front = front' := Option.some.inj (hfront.symm.trans hfr')
  have hlog := (mevolve_prog hc hst hb hf () s' hrun).log
  rcases hlog _ e' post hat he'.1 with ⟨h, -⟩ | ⟨h | h, -⟩ | ⟨pre₂, e0, mid₂, e1', hpre₂, -, -, -, -, -, hcar⟩
  · rw [he'.2.1] at h; exact absurd h (by decide)
  · rw [he'.2.1] at h; exact absurd h (by decide)
  · have := he'.2.2; omega
  · have hsame : e1 = e1' := by
      rw [hpre₂, ← List.cons_append, ← List.append_assoc] at hpre
      obtain ⟨-, h3⟩ := List.append_inj' hpre rfl
      simp only [List.cons.injEq, and_true] at h3
      exact h3.symm
    subst hsame
    obtain ⟨hri, hnd⟩ := (hiff r).1 hr
    have hr1 := hcar.stays r w ⟨hri, hw⟩
    have hy1 := hcar.stays y u hy
    have h1 : vec r = w := Option.some.inj ((hvec r hr1.1).symm.trans hr1.2)
    have h2 : vec y = u := Option.some.inj ((hvec y hy1.1).symm.trans hy1.2)
    refine hnd y hy1.1 ?_
    rw [h1, h2]
    rcases hcov with rfl | hcov
    · exact hdom
    · exact hcov.trans hul hvl hdom

/-! ## Examples -/

/-- A test for domination. -/
def domB (ds : List Bool) (a b : List ℚ) : Bool :=
  decide (∀ i < ds.length, atLeast (ds.getD i false) (a.getD i 0) (b.getD i 0) = true) &&
    decide (∃ i < ds.length, i < a.length ∧ i < b.length ∧ atLeast (ds.getD i false) (b.getD i 0) (a.getD i 0) = false)

theorem domB_sound {a b : List ℚ} (h : domB ds a b = true) : Pareto ds a b := by
  unfold domB at h
  rw [Bool.and_eq_true, decide_eq_true_eq, decide_eq_true_eq] at h
  obtain ⟨h1, i, hi, ha, hb, h2⟩ := h
  refine ⟨fun j d x y hd hx hy => ?_, i, ds[i], a[i], b[i], List.getElem?_eq_getElem hi, List.getElem?_eq_getElem ha,
    List.getElem?_eq_getElem hb, ?_⟩
  · have := h1 j (List.getElem?_eq_some_iff.1 hd).1
    rw [List.getD_eq_getElem?_getD, List.getD_eq_getElem?_getD, List.getD_eq_getElem?_getD, hd, hx, hy] at this
    exact atLeast_iff.1 this
  · rw [List.getD_eq_getElem?_getD, List.getD_eq_getElem?_getD, List.getD_eq_getElem?_getD, List.getElem?_eq_getElem hi,
      List.getElem?_eq_getElem ha, List.getElem?_eq_getElem hb] at h2
    replace h2 : ¬ AtLeast ds[i] b[i] a[i] := fun h =>
      absurd ((atLeast_iff.2 h).symm.trans h2) (by decide)
    cases hdi : ds[i] <;> simp [hdi, AtLeast, Better] at h2 ⊢ <;> exact h2

/-- A test for `Fits`. -/
def fitsB (n : Nat) (ds : List Bool) (log : List MEvent) : Bool :=
  log.all fun e => !decide (e.publisher = "population_evaluator" ∧ e.name = "after_operator") ||
    decide ((e.inds.filter fun x => !e.inds.any fun y =>
      domB ds ((e.fits y).objs.getD []) ((e.fits x).objs.getD []) && (e.fits y).objs.isSome).length ≤ n)

theorem fitsB_sound {log : List MEvent} (h : fitsB n ds log = true) : Fits n ds log := by
  intro e he hev
  have := List.all_eq_true.1 h e he
  rw [Bool.or_eq_true, decide_eq_true_eq] at this
  rcases this with h1 | h1
  · simp [hev.1, hev.2] at h1
  · refine ⟨_, h1, fun x v hx hnd => List.mem_filter.2 ⟨hx.1, ?_⟩⟩
    rw [Bool.not_eq_true', List.any_eq_false]
    intro y hy hdom
    rw [Bool.and_eq_true] at hdom
    obtain ⟨u, hu⟩ := Option.isSome_iff_exists.1 hdom.2
    have h2 := domB_sound hdom.1
    rw [hu, hx.2] at h2
    exact hnd y u ⟨hy, hu⟩ h2

theorem exCfg_fits : Fits 4 [false, true] (mevolve (exCfg true 1) exRun).2.log := fitsB_sound (by decide +kernel)

/-- Three of the eight individuals evaluated in the first generation are not dominated, so nothing is lost. -/
example {pre mid post : List MEvent} {e e' : MEvent}
    (hsplit : (mevolve (exCfg true 1) exRun).2.log = pre ++ e :: (mid ++ e' :: post)) (he : e.Evaluated) (he' : e'.Ended)
    (hx : e.Has 1 [3, 6]) : ∃ y w, e'.Has y w ∧ (w = [3, 6] ∨ Pareto [false, true] w [3, 6]) ∧ w.length = 2 :=
  (C156_covers_partial (exCfg_good true 1) (exCfg_steady true 1) rfl exRun_fresh (ok_pair (by decide +kernel)) exCfg_fits
    hsplit he he' hx).2

example {pre mid post : List MEvent} {e e' : MEvent}
    (hsplit : (mevolve (exCfg true 1) exRun).2.log = pre ++ e :: (mid ++ e' :: post)) (he : e.Evaluated) (he' : e'.Ended)
    {front : List Nat} {r x : Nat} {v : List ℚ} (hfront : e'.bestOfGen = some front) (hr : r ∈ front)
    (hw : (e'.fits r).objs = some [3, 6]) (hx : e.Has x v) : ¬ Pareto [false, true] v [3, 6] :=
  C156_front_partial (exCfg_good true 1) (exCfg_steady true 1) rfl exRun_fresh (ok_pair (by decide +kernel)) exCfg_fits
    hsplit he he' hfront hr hw hx

/-- The run has such events. -/
example : ((mevolve (exCfg true 1) exRun).2.log.map fun e => (e.publisher, e.name, e.genNum, e.inds.length, e.bestOfGen)) =
    [("population_evaluator", "before_operator", 0, 4, none), ("population_evaluator", "after_operator", 0, 4, none),
      ("algorithm", "init", 0, 4, none), ("breeder", "before_operator", 1, 4, none), ("breeder", "after_operator", 1, 8, none),
      ("population_evaluator", "before_operator", 1, 8, none), ("population_evaluator", "after_operator", 1, 8, none),
      ("algorithm", "after_generation", 1, 4, some [5, 0, 6]), ("algorithm", "evolution_finished", 1, 4, some [5, 0, 6])] := by
  decide +kernel

/-! ## The refutation -/

/-- The objectives of eight genomes, both to be minimised. -/
def lostObj (g : ℚ) : List ℚ :=
  [[7, 17], [15, 8], [14, 8], [14, 9], [1, 22], [8, 15], [10, 14], [14, 10]].getD g.num.toNat [0, 0]

/-- What the operator makes of them. -/
def lostOp (g : ℚ) : ℚ := ([1, 6, 3, 4, 7, 7, 7, 3] : List ℚ).getD g.num.toNat 0

/-- Four individuals, two for each objective. -/
def exLost (maxGen : Nat) : MCfg ℚ where
  sub := {
    create := mapL exNew2 [1, 5, 4, 6]
    ops := [MOp.inPlace 1 1 fun refs => modify fun w =>
      { w with genome := fun r => if r ∈ refs then lostOp (w.genome r) else w.genome r }]
    sels := [⟨1, tournamentM 2 true⟩]
    popSize := 4
    nElite := 0
    hib := false
    evaluate := fun g => PyM.pure (lostObj g) }
  nsga2Breeder := true
  stream := fun seed k => seed + k
  maxGen := maxGen
  checker := fun _ _ _ _ => .ok false
  sched := fun _ k => List.range k
  setOrder := fun _ _ l => l.reverse

theorem lostObj_length (g : ℚ) : (lostObj g).length = 2 := by
  unfold lostObj
  generalize g.num.toNat = k
  match k with
  | 0 | 1 | 2 | 3 | 4 | 5 | 6 | 7 => rfl
  | k + 8 => rfl

theorem exLost_good (maxGen : Nat) : (exLost maxGen).Good 4 2 [false, false] := by
  refine ⟨fun s hd => ?_, ?_, ?_, fun g t => wlp_pure.2 (lostObj_length g), rfl, fun g k l => List.reverse_perm l⟩
  · refine wlp.mono (wlp_mapL (I := fun (pre : List ℚ) (l : List Nat) s' => l.length = pre.length ∧ l.Nodup ∧
      Exist s' l ∧ AllDir 2 [false, false] s') ⟨rfl, List.nodup_nil, by intro r hr; simp at hr, hd⟩ ?_)
      (fun l s' h => ⟨h.1, h.2.1, h.2.2.1, h.2.2.2⟩)
    rintro pre x post l s₁ - ⟨h1, h2, h3, h4⟩
    unfold exNew2
    rw [wlp_bind, wlp_get, wlp_bind, wlp_set]
    refine wlp_pure.2 ⟨by simp [h1], ?_, ?_, ?_⟩
    · rw [List.nodup_append]
      refine ⟨h2, by simp, fun a ha b hb hab => ?_⟩
      simp only [List.mem_singleton] at hb
      have := h3 a ha
      omega
    · intro r hr
      simp only [List.mem_append, List.mem_singleton] at hr
      rcases hr with hr | rfl
      · exact Nat.lt_succ_of_lt (h3 r hr)
      · exact Nat.lt_succ_self _
    · intro r hr
      dsimp only at hr ⊢
      split
      · rfl
      · exact h4 r (by omega)
  · intro o ho
    simp only [exLost, List.mem_singleton] at ho
    subst ho
    exact MOp.inPlace_good fun refs s => wlp_modify.2 ⟨rfl, rfl⟩
  · intro x hx
    simp only [exLost, List.mem_singleton] at hx
    subst hx
    exact MSel.tournament_good 1 2 true

theorem exLost_steady (maxGen : Nat) : (exLost maxGen).Steady lostObj := by
  refine ⟨?_, ?_, fun g t => wlp_pure.2 rfl⟩
  · intro o ho
    simp only [exLost, List.mem_singleton] at ho
    subst ho
    intro refs s _
    unfold MOp.inPlace
    dsimp only
    rw [wlp_bind, wlp_modify]
    refine wlp_pure.2 fun r _ hr => ?_
    dsimp only
    rw [if_neg hr]
  · intro x hx
    simp only [exLost, List.mem_singleton] at hx
    subst hx
    exact MSel.tournament_local 1 2 true

/-- C156 is false, even of populations with two individuals for each objective: in the second generation an individual
with the objectives `(14, 9)` is evaluated, not dominated by any other, and lost when the front is cut to the size
of the population; the front of the third generation has a member with `(14, 10)`. -/
theorem C156_refuted : ¬ C156_statement := by
  intro h
  have hrun : mevolve (exLost 3) exRun = (.ok (), (mevolve (exLost 3) exRun).2) := ok_pair (by decide +kernel)
  have hf : exRun.Fresh 2 [false, false] := ⟨rfl, fun r hr => absurd hr (Nat.not_lt_zero r), rfl, rfl⟩
  have h1 : ((mevolve (exLost 3) exRun).2.log[11]?.any fun e => decide ((e.publisher = "population_evaluator" ∧
      e.name = "after_operator") ∧ 1 ∈ e.inds ∧ (e.fits 1).objs = some [14, 9])) = true := by decide +kernel
  have h2 : ((mevolve (exLost 3) exRun).2.log[17]?.any fun e => decide ((e.publisher = "algorithm" ∧
      e.name = "after_generation" ∧ 1 ≤ e.genNum) ∧ e.bestOfGen = some [12, 13, 14, 9] ∧
      (e.fits 9).objs = some [14, 10])) = true := by decide +kernel
  obtain ⟨e, he, h1⟩ := Option.any_eq_true _ _ |>.1 h1
  obtain ⟨e', he', h2⟩ := Option.any_eq_true _ _ |>.1 h2
  rw [decide_eq_true_eq] at h1 h2
  obtain ⟨pre, mid, post, hsplit⟩ := split_two (by decide) he he'
  exact h ℚ (exLost 3) 4 2 [false, false] _ exRun _ (exLost_good 3) (exLost_steady 3) rfl hf hrun pre e mid e' post hsplit
    h1.1 h2.1 _ 9 [14, 10] 1 [14, 9] h2.2.1 (by simp) h2.2.2 h1.2 (domB_sound (by decide +kernel))

end Verif.Moo
