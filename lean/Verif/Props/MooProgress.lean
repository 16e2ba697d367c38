import Verif.Lemmas.MooProgress

/-!
# C114 — NSGA-II does not lose the best values it has found

The theorems are about every successful run of `NSGA2Evolution.evolve` with `NSGA2Breeder` and an evaluator that
computes the objectives from the genome, observed through the events of the algorithm.
-/

namespace Verif.Moo
open PyM
variable {G : Type} {n m : Nat} {ds : List Bool} {c : MCfg G} {s s' : MRun G} {f : G → List ℚ}

/-- What the parts of the run must do in addition to `MCfg.Good`: operators and selection methods leave the
genomes of individuals that are not theirs alone, and the objectives are a function of the genome. -/
structure MCfg.Steady (c : MCfg G) (f : G → List ℚ) : Prop where
  ops : ∀ o ∈ c.sub.ops, o.Local
  sels : ∀ x ∈ c.sub.sels, x.Local
  evaluates : c.sub.Computes f

/-- The individual `x` has the objectives `v` at the event. -/
def MEvent.Has (e : MEvent) (x : Nat) (v : List ℚ) : Prop := x ∈ e.inds ∧ (e.fits x).objs = some v

/-- `e0` is the end of the generation before (or of the initialisation), `e1` the evaluation of the doubled
population and `e2` the end of the generation. -/
structure Carries (ds : List Bool) (e0 e1 e2 : MEvent) : Prop where
  inherits : ∀ x v, e0.Has x v → ∃ y, e1.Has y v
  extremes : 2 * ds.length ≤ e2.inds.length → ∀ x v, e1.Has x v → ∀ (i : Nat) (d : Bool), ds[i]? = some d →
    ∃ y w, e2.Has y w ∧ AtLeast d (w.getD i 0) (v.getD i 0)
  front : ∀ front : List Nat, front.length ≤ e2.inds.length →
    (∀ x v, e1.Has x v → (∀ y u, e1.Has y u → ¬ Pareto ds u v) → x ∈ front) →
    ∀ x v, e1.Has x v → ∃ y w, e2.Has y w ∧ (w = v ∨ Pareto ds w v)
  stays : ∀ x v, e2.Has x v → e1.Has x v
  length : ∀ x v, e1.Has x v → v.length = ds.length

/-- What comes before an event of the algorithm. -/
def Follows (ds : List Bool) (pre : List MEvent) (e2 : MEvent) : Prop :=
  (e2.name = "init" ∧ (∀ x ∈ pre, x.publisher ≠ "algorithm") ∧
    ∃ pre' e1, pre = pre' ++ [e1] ∧ e1.inds = e2.inds ∧ e1.fits = e2.fits ∧ ∀ x v, e1.Has x v → v.length = ds.length) ∨
  ((e2.name = "evolution_finished" ∨ e2.genNum = 0) ∧
    ∃ pre' e0, pre = pre' ++ [e0] ∧ e0.publisher = "algorithm" ∧ e0.inds = e2.inds ∧ e0.fits = e2.fits) ∨
  ∃ pre' e0 mid e1, pre = pre' ++ e0 :: (mid ++ [e1]) ∧ e0.publisher = "algorithm" ∧
    (∀ x ∈ mid ++ [e1], x.publisher ≠ "algorithm") ∧ e1.publisher = "population_evaluator" ∧
    e1.name = "after_operator" ∧ e0.genNum + 1 = e2.genNum ∧ Carries ds e0 e1 e2

/-- Each event of the algorithm follows the one before. -/
def StepLog (ds : List Bool) (log : List MEvent) : Prop :=
  ∀ pre e2 post, log = pre ++ e2 :: post → e2.publisher = "algorithm" → Follows ds pre e2

theorem StepLog.snoc {log : List MEvent} {e : MEvent} (h : StepLog ds log)
    (he : e.publisher = "algorithm" → Follows ds log e) : StepLog ds (log ++ [e]) := by
  intro pre e2 post hsplit h1
  rcases snoc_split hsplit with ⟨rfl, rfl, -⟩ | ⟨post', -, hl⟩
  · exact he h1
  · exact h pre e2 post' hl h1

/-- At the events of the algorithm, all individuals have objectives computed by `f`. -/
def Shown (f : G → List ℚ) (log : List MEvent) : Prop :=
  ∀ e ∈ log, e.publisher = "algorithm" → ∀ r ∈ e.inds, ∃ g, (e.fits r).objs = some (f g)

theorem Shown.snoc {log : List MEvent} {e : MEvent} (h : Shown f log) (he : ∀ r ∈ e.inds, ∃ g, (e.fits r).objs = some (f g)) :
    Shown f (log ++ [e]) := by
  intro x hx hp
  rcases List.mem_append.1 hx with hx | hx
  · exact h x hx hp
  · rw [List.mem_singleton.1 hx]; exact he

/-- The invariant at the end of a generation. -/
structure MRun.Prog (s : MRun G) (n m : Nat) (ds : List Bool) (f : G → List ℚ) : Prop where
  pop : ∃ l pre e0, s.Pop n m ds l ∧ (∀ r ∈ l, (s.w.fits r).objs = some (f (s.w.genome r))) ∧
    s.log = pre ++ [e0] ∧ e0.publisher = "algorithm" ∧ e0.genNum = s.genNum ∧ e0.inds = l ∧ e0.fits = s.w.fits
  log : StepLog ds s.log
  shown : Shown f s.log

theorem mevaluate_value (hc : c.Good n m ds) (hv : c.sub.Computes f) {k : Nat} {inds : List Nat} (hp : s.Pop k m ds inds) :
    wlp (mevaluate c) (fun _ s' => s'.Pop k m ds inds ∧ s'.genNum = s.genNum ∧ s'.w.genome = s.w.genome ∧
      (∀ r ∈ inds, (s'.w.fits r).Is ds (f (s.w.genome r))) ∧
      ∃ e0, s'.log = s.log ++ [e0] ++ [s'.event "population_evaluator" "after_operator"] ∧
        e0.publisher = "population_evaluator") s := by
  unfold mevaluate
  rw [wlp_mact]
  unfold mevaluateBody
  rw [wlp_bind, wlp_individuals]
  intro is his
  obtain rfl : is = inds := Option.some.inj (his.symm.trans hp.inds)
  rw [wlp_bind, wlp_get, wlp_mworld]
  refine ((evaluateM_wlp hc.evaluates hc.directions hp.exist hp.dirs).and (evaluateM_value hv)).mono ?_
  rintro b w ⟨⟨h0, h1, h2, h3, h4, h5⟩, h6⟩
  refine ⟨⟨hp.inds, hp.length, hp.nodup, fun r hr => by dsimp only; rw [h1]; exact hp.exist r hr, h3⟩, rfl, h2,
    fun r hr => ?_, _, rfl, rfl⟩
  obtain ⟨v, hIs⟩ := h4 r hr
  have h7 := h6 r hr
  rw [hIs.objs] at h7
  rw [Option.some.inj h7] at hIs
  exact hIs

theorem mbreed_genomes (hc : c.Good n m ds) (hst : c.Steady f) (hb : c.nsga2Breeder = true) {k : Nat} {inds : List Nat}
    (hp : s.Pop k m ds inds) :
    wlp (mbreed c) (fun _ s' => ∃ inds', s'.Pop (2 * k) m ds inds' ∧
      (∀ x ∈ inds, ∃ y ∈ inds', s'.w.genome y = s.w.genome x) ∧
      s'.genNum = s.genNum ∧ ∃ e0 e1, s'.log = s.log ++ [e0] ++ [e1] ∧ e0.publisher = "breeder" ∧ e1.publisher = "breeder") s := by
  unfold mbreed
  rw [wlp_mact]
  unfold mbreedBody
  rw [wlp_bind, wlp_individuals]
  intro is his
  obtain rfl : is = inds := Option.some.inj (his.symm.trans hp.inds)
  rw [wlp_bind, wlp_mworld, if_pos hb]
  refine ((nsga2Breed_wlp hc.ops hc.sels hp.exist hp.nodup hp.dirs).and
    (nsga2Breed_genomes hc.ops hst.ops hc.sels hst.sels hp.exist hp.nodup hp.dirs)).mono ?_
  rintro l w ⟨⟨h1, h2, h3, h4⟩, h5⟩
  rw [wlp_modify]
  exact ⟨l, ⟨rfl, by rw [h1, hp.length], h2, h3, h4⟩, h5, rfl, _, _, rfl, rfl, rfl⟩

/-- What front sorting keeps. -/
theorem sortM_keeps {w : MWorld G} {order : Nat → List Nat → List Nat} (horder : ∀ k l, (order k l).Perm l) {inds : List Nat}
    (hn : inds.Nodup) {vec : Nat → List ℚ} (hIs : ∀ r ∈ inds, (w.fits r).Is ds (vec r)) :
    wlp (sortM order inds) (fun l w' =>
      (∀ r, (w'.fits r).objs = (w.fits r).objs) ∧
      (2 * ds.length ≤ l.length → ∀ x ∈ inds, ∀ (i : Nat) (d : Bool), ds[i]? = some d →
        ∃ y ∈ l, AtLeast d ((vec y).getD i 0) ((vec x).getD i 0)) ∧
      (∀ front : List Nat, front.length ≤ l.length →
        (∀ x ∈ inds, (∀ y ∈ inds, ¬ Pareto ds (vec y) (vec x)) → x ∈ front) →
        ∀ x ∈ inds, ∃ y ∈ l, y = x ∨ Pareto ds (vec y) (vec x))) w := by
  unfold sortM
  rw [wlp_bind, wlp_get]
  cases hrun : select order (inds.length + 1) w.fits inds [] none with
  | none => simp
  | some r =>
    cases r with
    | error e => simp
    | ok p =>
      obtain ⟨h, dest⟩ := p
      dsimp only
      rw [wlp_bind, wlp_set]
      refine wlp_pure.2 ⟨fun r => ?_, fun hsize x hx i d hd => ?_, fun front h1 h2 x hx => ?_⟩
      · dsimp only
        rw [(C49_frame hn hIs horder hrun r).2]
      · exact select_keeps_extreme hn hIs horder hrun hsize hd hx
      · exact select_keeps_front hn hIs horder hrun h1 h2 hx

/-- One generation. -/
theorem mgeneration_carries (hc : c.Good n m ds) (hst : c.Steady f) (hb : c.nsga2Breeder = true) {k : Nat} {inds : List Nat}
    (hp : s.Pop k m ds inds) (hv : ∀ r ∈ inds, (s.w.fits r).objs = some (f (s.w.genome r))) {e0 : MEvent}
    (hi0 : e0.inds = inds) (hf0 : e0.fits = s.w.fits) :
    wlp (mgeneration c) (fun _ s' => ∃ l mid e1, s'.Pop k m ds l ∧
      (∀ r ∈ l, (s'.w.fits r).objs = some (f (s'.w.genome r))) ∧ s'.genNum = s.genNum ∧
      s'.log = s.log ++ (mid ++ [e1]) ∧ (∀ x ∈ mid ++ [e1], x.publisher ≠ "algorithm") ∧
      e1.publisher = "population_evaluator" ∧ e1.name = "after_operator" ∧
      Carries ds e0 e1 (s'.event "algorithm" "after_generation")) s := by
  unfold mgeneration
  rw [wlp_bind]
  refine (mbreed_genomes hc hst hb hp).mono ?_
  rintro _ s₁ ⟨inds₁, hp₁, hgen, g1, b0, b1, hlog1, hb0, hb1⟩
  rw [wlp_bind]
  refine (mevaluate_value hc hst.evaluates hp₁).mono ?_
  rintro b s₂ ⟨hp₂, g2, hgm, hvec, v0, hlog2, hv0⟩
  rw [wlp_bind]
  unfold msort
  rw [wlp_bind, wlp_individuals]
  intro is his
  obtain rfl : is = inds₁ := Option.some.inj (his.symm.trans hp₂.inds)
  rw [wlp_bind, wlp_get, wlp_bind, wlp_mworld]
  refine ((sortM_wlp (hc.order _) hp₂.nodup hvec hp₂.dirs).and (sortM_keeps (hc.order _) hp₂.nodup hvec)).mono ?_
  rintro l w ⟨⟨q1, q2, q3, q4, q5, q6, -, -⟩, r1, r2, r3⟩
  rw [wlp_modify]
  unfold mfronts
  rw [wlp_bind, wlp_individuals]
  intro is' his'
  obtain rfl : l = is' := Option.some.inj his'
  rw [wlp_modify]
  have hinds2 : s₂.inds.getD [] = is := by rw [hp₂.inds]; rfl
  have hobj2 : ∀ r ∈ is, (s₂.w.fits r).objs = some (f (s₁.w.genome r)) := fun r hr => (hvec r hr).objs
  refine ⟨l, [b0, b1, v0], s₂.event "population_evaluator" "after_operator",
    ⟨rfl, by rw [q4, hp₂.length]; omega, q5, ?_, q3⟩, fun r hr => ?_, by rw [← g1, ← g2], ?_, ?_, rfl, rfl, ?_, ?_, ?_, ?_, ?_⟩
  · intro r hr
    dsimp only
    rw [q1]
    exact hp₂.exist r (q6 r hr)
  · dsimp only
    rw [r1 r, q2, hobj2 r (q6 r hr), hgm]
  · dsimp only
    rw [hlog2, hlog1]
    simp
  · intro x hx
    simp only [List.cons_append, List.nil_append, List.mem_cons, List.not_mem_nil, or_false] at hx
    rcases hx with rfl | rfl | rfl | rfl
    · rw [hb0]; decide
    · rw [hb1]; decide
    · rw [hv0]; decide
    · exact show ¬ "population_evaluator" = "algorithm" by decide
  · rintro x v ⟨hx, hxv⟩
    rw [hi0] at hx
    rw [hf0, hv x hx] at hxv
    obtain ⟨y, hy, hg⟩ := hgen x hx
    refine ⟨y, (show y ∈ s₂.inds.getD [] from hinds2 ▸ hy), ?_⟩
    show (s₂.w.fits y).objs = _
    rw [hobj2 y hy, hg, hxv]
  · rintro hsize x v ⟨hx, hxv⟩ i d hd
    have hx' : x ∈ is := hinds2 ▸ hx
    have hxv' : (s₂.w.fits x).objs = some v := hxv
    rw [hobj2 x hx'] at hxv'
    obtain ⟨y, hy, hyx⟩ := r2 hsize x hx' i d hd
    refine ⟨y, f (s₁.w.genome y), ⟨hy, ?_⟩, by rw [← Option.some.inj hxv']; exact hyx⟩
    show (w.fits y).objs = _
    rw [r1 y, hobj2 y (q6 y hy)]
  · rintro front hfl hfr x v ⟨hx, hxv⟩
    have hx' : x ∈ is := hinds2 ▸ hx
    have hxv' : (s₂.w.fits x).objs = some v := hxv
    rw [hobj2 x hx'] at hxv'
    obtain ⟨y, hy, hyx⟩ := r3 front hfl (fun z hz hnd => hfr z (f (s₁.w.genome z))
      ⟨(show z ∈ s₂.inds.getD [] from hinds2 ▸ hz), hobj2 z hz⟩ (by
        rintro u' vu ⟨hu, huv⟩
        have hu' : u' ∈ is := hinds2 ▸ hu
        have huv' : (s₂.w.fits u').objs = some vu := huv
        rw [hobj2 u' hu'] at huv'
        rw [← Option.some.inj huv']
        exact hnd u' hu')) x hx'
    refine ⟨y, f (s₁.w.genome y), ⟨hy, ?_⟩, ?_⟩
    · show (w.fits y).objs = _
      rw [r1 y, hobj2 y (q6 y hy)]
    · rw [← Option.some.inj hxv']
      rcases hyx with rfl | hyx
      · exact .inl rfl
      · exact .inr hyx
  · rintro x v ⟨hx, hxv⟩
    exact ⟨(show x ∈ s₂.inds.getD [] from hinds2 ▸ q6 x hx), (r1 x).symm.trans hxv⟩
  · rintro x v ⟨hx, hxv⟩
    have hx' : x ∈ is := hinds2 ▸ hx
    have hxv' : (s₂.w.fits x).objs = some v := hxv
    rw [hobj2 x hx'] at hxv'
    rw [← Option.some.inj hxv']
    exact (hvec x hx').length

theorem minit_prog (hc : c.Good n m ds) (hst : c.Steady f) (hn : s.inds = none) (hd : AllDir m ds s.w) (hlog : s.log = [])
    (hg : s.genNum = 0) : wlp (minit c) (fun _ s' => s'.Prog n m ds f ∧ s'.genNum = 0) s := by
  unfold minit
  rw [wlp_bind, wlp_get, wlp_bind]
  unfold msetSeed
  rw [wlp_modify, wlp_bind]
  unfold mcreate
  rw [wlp_bind, wlp_get]
  dsimp only
  rw [hn]
  dsimp only
  rw [wlp_bind, wlp_mworld]
  refine (hc.creates { s.w with tape := c.stream s.randomSeed } hd).mono ?_
  rintro l w ⟨h1, h2, h3, h4⟩
  rw [wlp_modify, wlp_bind]
  refine (mevaluate_value (k := n) (inds := l) hc hst.evaluates ⟨rfl, h1, h2, h3, h4⟩).mono ?_
  rintro b s₁ ⟨hp, hg1, hgm, hvec, e0, hl, he0⟩
  rw [wlp_bind, wlp_modify, wlp_mpublish]
  have hg1' : s₁.genNum = 0 := by rw [hg1]; exact hg
  dsimp only at hl hgm hvec
  rw [hlog, List.nil_append] at hl
  have hpubs : ∀ x ∈ s₁.log, x.publisher ≠ "algorithm" := by
    intro x hx
    rw [hl] at hx
    simp only [List.cons_append, List.nil_append, List.mem_cons, List.not_mem_nil, or_false] at hx
    rcases hx with rfl | rfl
    · rw [he0]; decide
    · exact show ¬ "population_evaluator" = "algorithm" by decide
  have hlen : ∀ x v, (s₁.event "population_evaluator" "after_operator").Has x v → v.length = ds.length := by
    rintro x v ⟨hx, hxv⟩
    have hx' : x ∈ l := by
      have : x ∈ s₁.inds.getD [] := hx
      rw [hp.inds] at this
      exact this
    have hxv' : (s₁.w.fits x).objs = some v := hxv
    rw [(hvec x hx').objs] at hxv'
    rw [← Option.some.inj hxv']
    exact (hvec x hx').length
  have hnil : StepLog ds s₁.log := by
    intro pre e2 post hsplit h1
    exact absurd h1 (hpubs e2 (by rw [hsplit]; simp))
  refine ⟨⟨⟨l, s₁.log, _, ⟨hp.inds, hp.length, hp.nodup, hp.exist, hp.dirs⟩, fun r hr => ?_, rfl, rfl, rfl, ?_, rfl⟩,
    hnil.snoc fun _ => .inl ⟨rfl, hpubs, _, _, hl, rfl, rfl, hlen⟩,
    Shown.snoc (fun e he h => absurd h (hpubs e he)) fun r hr => ?_⟩, hg1'⟩
  · dsimp only
    rw [(hvec r hr).objs, hgm]
  · show s₁.inds.getD [] = l
    rw [hp.inds]; rfl
  · have hr' : r ∈ l := by
      have : r ∈ s₁.inds.getD [] := hr
      rw [hp.inds] at this
      exact this
    exact ⟨_, (hvec r hr').objs⟩

theorem Prog.after {s : MRun G} {l : List Nat} {pre mid : List MEvent} {e0 e1 : MEvent} {x : Option Nat}
    (hlog0 : StepLog ds (pre ++ [e0])) (hsh0 : Shown f (pre ++ [e0])) (he0 : e0.publisher = "algorithm") (hg0 : e0.genNum + 1 = s.genNum)
    (hp : s.Pop n m ds l) (hv : ∀ r ∈ l, (s.w.fits r).objs = some (f (s.w.genome r)))
    (hlog : s.log = pre ++ [e0] ++ (mid ++ [e1])) (hmid : ∀ x ∈ mid ++ [e1], x.publisher ≠ "algorithm")
    (h1 : e1.publisher = "population_evaluator") (h2 : e1.name = "after_operator")
    (hcar : Carries ds e0 e1 (s.event "algorithm" "after_generation")) :
    MRun.Prog { s with finalGen := x, log := s.log ++ [s.event "algorithm" "after_generation"] } n m ds f := by
  have hstep : StepLog ds s.log := by
    rw [hlog]
    intro a e2 b hsplit ha
    rcases List.append_eq_append_iff.1 hsplit with ⟨as, rfl, has⟩ | ⟨bs, hbs, hb⟩
    · exact absurd ha (hmid e2 (by rw [has]; simp))
    · cases bs with
      | nil =>
        simp only [List.nil_append] at hb
        exact absurd ha (hmid e2 (by rw [← hb]; simp))
      | cons b0 bs =>
        simp only [List.cons_append, List.cons.injEq] at hb
        rw [← hb.1] at hbs
        exact hlog0 a e2 bs hbs ha
  refine ⟨⟨l, s.log, _, ⟨hp.inds, hp.length, hp.nodup, hp.exist, hp.dirs⟩, hv, rfl, rfl, rfl, ?_, rfl⟩,
    hstep.snoc fun _ => .inr (.inr ⟨pre, e0, mid, e1, ?_, he0, hmid, h1, h2, hg0, hcar⟩),
    Shown.snoc (fun e he h => ?_) fun r hr => ?_⟩
  · show s.inds.getD [] = l
    rw [hp.inds]; rfl
  · rw [hlog]; simp
  · rw [hlog] at he
    rcases List.mem_append.1 he with he | he
    · exact hsh0 e he h
    · exact absurd h (hmid e he)
  · have hr' : r ∈ l := by
      have : r ∈ s.inds.getD [] := hr
      rw [hp.inds] at this
      exact this
    exact ⟨_, hv r hr'⟩

theorem mloop_prog (hc : c.Good n m ds) (hst : c.Steady f) (hb : c.nsga2Breeder = true) (N : Nat) (hi : s.Prog n m ds f) :
    wlp (mloop c N (s.genNum + 1)) (fun _ s' => s'.Prog n m ds f) s := by
  induction N generalizing s with
  | zero => unfold mloop; exact wlp_pure.2 hi
  | succ N ih =>
    unfold mloop
    rw [wlp_bind, wlp_modify, wlp_bind, wlp_individuals]
    intro is his
    rw [wlp_bind, wlp_get, wlp_bind]
    unfold msetSeed
    rw [wlp_modify, wlp_bind, wlp_modify, wlp_bind]
    obtain ⟨l, pre, e0, hp, hv, hlog, he0, hg0, hi0, hf0⟩ := hi.pop
    refine wlp.mono (mgeneration_carries (k := n) (inds := l) (e0 := e0) hc hst hb
      (by exact ⟨hp.inds, hp.length, hp.nodup, hp.exist, hp.dirs⟩) (by exact hv) hi0 (by exact hf0)) ?_
    rintro _ s₁ ⟨l₁, mid, e1, hp1, hv1, hg1, hlog1, hmid, h1, h2, hcar⟩
    dsimp only at hg1 hlog1
    have hinv : ∀ x, MRun.Prog { s₁ with finalGen := x, log := s₁.log ++ [s₁.event "algorithm" "after_generation"] } n m ds f :=
      fun x => Prog.after (by rw [← hlog]; exact hi.log) (by rw [← hlog]; exact hi.shown) he0 (by omega) hp1 hv1 (by rw [hlog1, hlog]) hmid h1 h2 hcar
    rw [wlp_bind]
    unfold mstop
    rw [wlp_bind, wlp_get, wlp_ofExcept]
    intro stop hstop
    rw [wlp_ite]
    refine ⟨fun _ => ?_, fun _ => ?_⟩
    · rw [wlp_bind, wlp_modify, wlp_mpublish]
      exact hinv _
    · rw [wlp_bind, wlp_mpublish]
      have := ih (hinv s₁.finalGen)
      dsimp only at this
      rw [← hg1]
      exact this

theorem Prog.again {s : MRun G} (hi : s.Prog n m ds f) {name : String} {x : Option Nat}
    (hname : name = "evolution_finished" ∨ s.genNum = 0) :
    MRun.Prog { s with finalGen := x, log := s.log ++ [s.event "algorithm" name] } n m ds f := by
  obtain ⟨l, pre, e0, hp, hv, hlog, he0, hg0, hi0, hf0⟩ := hi.pop
  have hinds : s.inds.getD [] = l := by rw [hp.inds]; rfl
  exact ⟨⟨l, s.log, _, ⟨hp.inds, hp.length, hp.nodup, hp.exist, hp.dirs⟩, hv, rfl, rfl, rfl, hinds, rfl⟩,
    hi.log.snoc fun _ => .inr (.inl ⟨hname, pre, e0, hlog, he0, hi0.trans hinds.symm, hf0⟩),
    hi.shown.snoc fun r hr => ⟨_, hv r (by rw [← hinds]; exact hr)⟩⟩

theorem mevolve_prog (hc : c.Good n m ds) (hst : c.Steady f) (hb : c.nsga2Breeder = true) (hf : s.Fresh m ds) :
    wlp (mevolve c) (fun _ s' => s'.Prog n m ds f) s := by
  unfold mevolve
  rw [wlp_bind]
  refine (minit_prog hc hst hf.inds hf.dirs hf.log hf.genNum).mono ?_
  rintro _ s₁ ⟨hi, hg⟩
  rw [wlp_bind]
  have key : wlp (mafterInit c) (fun _ s' => s'.Prog n m ds f) s₁ := by
    unfold mafterInit
    rw [wlp_bind, wlp_get, wlp_bind]
    unfold mstop
    rw [wlp_bind, wlp_get, wlp_ofExcept]
    intro stop hstop
    rw [wlp_ite]
    refine ⟨fun _ => ?_, fun _ => ?_⟩
    · rw [wlp_bind, wlp_modify, wlp_mpublish]
      exact Prog.again hi (.inr hg)
    · have := mloop_prog hc hst hb c.maxGen hi
      rw [hg] at this
      exact this
  refine key.mono ?_
  rintro _ s₂ hi2
  rw [wlp_bind, wlp_mpublish]
  unfold mfinish
  rw [wlp_bind, wlp_get]
  dsimp only
  split
  · simp
  · rw [wlp_bind, wlp_ofExcept]
    intro _ _
    exact wlp_pure.2 (Prog.again (x := s₂.finalGen) hi2 (.inl rfl))

/-! ## The theorems -/

/-- C114 as stated: for every objective, the best value seen at an event of the algorithm is matched at every later
one. -/
def C114_statement : Prop :=
  ∀ (G : Type) (c : MCfg G) (n m : Nat) (ds : List Bool) (f : G → List ℚ) (s s' : MRun G), c.Good n m ds → c.Steady f →
    c.nsga2Breeder = true → s.Fresh m ds → mevolve c s = (.ok (), s') →
    ∀ pre e mid e' post, s'.log = pre ++ e :: (mid ++ e' :: post) → e.publisher = "algorithm" → e'.publisher = "algorithm" →
    ∀ x v, e.Has x v → ∀ (i : Nat) (d : Bool), ds[i]? = some d → ∃ y w, e'.Has y w ∧ AtLeast d (w.getD i 0) (v.getD i 0)

/-- C114, if the population has at least two individuals for each objective: the best value of each objective never
gets worse. -/
theorem C114_extremes_partial (hc : c.Good n m ds) (hst : c.Steady f) (hb : c.nsga2Breeder = true) (hf : s.Fresh m ds)
    (hsize : 2 * m ≤ n) (hrun : mevolve c s = (.ok (), s')) {pre mid post : List MEvent} {e e' : MEvent}
    (hsplit : s'.log = pre ++ e :: (mid ++ e' :: post)) (he : e.publisher = "algorithm") (he' : e'.publisher = "algorithm")
    {x : Nat} {v : List ℚ} (hx : e.Has x v) {i : Nat} {d : Bool} (hd : ds[i]? = some d) :
    ∃ y w, e'.Has y w ∧ AtLeast d (w.getD i 0) (v.getD i 0) := by
  have hlog := (mevolve_prog hc hst hb hf () s' hrun).log
  have hsz := C53_size hc hb hf hrun
  induction hk : mid.length using Nat.strong_induction_on generalizing mid e' post with
  | _ k ih =>
    have hat : s'.log = (pre ++ e :: mid) ++ e' :: post := by rw [hsplit]; simp
    have hdsm := hc.directions
    rcases hlog (pre ++ e :: mid) e' post hat he' with ⟨-, h, -⟩ | ⟨-, pre', e0, hpre, h0, h1, h2⟩ |
      ⟨pre', e0, mid', e1, hpre, h0, hmid, -, -, -, hcar⟩
    · exact absurd he (h e (by simp))
    · rcases List.eq_nil_or_concat mid with rfl | ⟨mid₀, z, rfl⟩
      · obtain ⟨-, h3⟩ := List.append_inj' (s₁ := pre) (t₁ := [e]) hpre rfl
        simp only [List.cons.injEq, and_true] at h3
        subst h3
        exact ⟨x, v, ⟨h1 ▸ hx.1, h2 ▸ hx.2⟩, AtLeast.refl _ _⟩
      · rw [List.concat_eq_append, ← List.cons_append, ← List.append_assoc] at hpre
        obtain ⟨-, h3⟩ := List.append_inj' hpre rfl
        simp only [List.cons.injEq, and_true] at h3
        subst h3
        obtain ⟨y, w, hy, hw⟩ := ih mid₀.length (by rw [← hk]; simp) (mid := mid₀) (post := e' :: post)
          (by rw [hsplit]; simp) h0 rfl
        exact ⟨y, w, ⟨h1 ▸ hy.1, h2 ▸ hy.2⟩, hw⟩
    · have hstep : ∀ z u, e0.Has z u → ∃ y w, e'.Has y w ∧ AtLeast d (w.getD i 0) (u.getD i 0) := by
        intro z u hz
        obtain ⟨y, hy⟩ := hcar.inherits z u hz
        exact hcar.extremes (by rw [hsz e' (by rw [hat]; simp) he', hdsm]; exact hsize) y u hy i d hd
      rcases List.append_eq_append_iff.1 hpre with ⟨as, has, has'⟩ | ⟨bs, hbs, hbs'⟩
      · -- `e` comes at or after the start of `as`
        cases as with
        | nil =>
          simp only [List.nil_append, List.cons.injEq] at has'
          rw [has'.1] at hx
          exact hstep x v hx
        | cons a as =>
          simp only [List.cons_append, List.cons.injEq] at has'
          obtain ⟨h3, h4⟩ := has'
          subst h3
          obtain ⟨y, w, hy, hw⟩ := ih as.length (by rw [← hk, h4]; simp) (mid := as)
            (post := mid' ++ [e1] ++ e' :: post) (by rw [hsplit, h4]; simp) h0 rfl
          obtain ⟨y', w', hy', hw'⟩ := hstep y w hy
          exact ⟨y', w', hy', hw'.trans hw⟩
      · cases bs with
        | nil =>
          simp only [List.nil_append, List.cons.injEq] at hbs'
          rw [← hbs'.1] at hx
          exact hstep x v hx
        | cons b0 bs =>
          simp only [List.cons_append, List.cons.injEq] at hbs'
          exact absurd he (hmid e (by rw [hbs'.2]; simp))

/-- C114: a generation after which the non-dominated individuals of the doubled population fit into the
population loses nothing: for every individual of the generation before there is one with the same objectives or
one that dominates it. -/
theorem C114_front (hc : c.Good n m ds) (hst : c.Steady f) (hb : c.nsga2Breeder = true) (hf : s.Fresh m ds)
    (hrun : mevolve c s = (.ok (), s')) {pre post : List MEvent} {e : MEvent}
    (hsplit : s'.log = pre ++ e :: post) (he : e.publisher = "algorithm") (hname : e.name = "after_generation")
    (hgen : 1 ≤ e.genNum) :
    ∃ pre' e0 mid e1, pre = pre' ++ e0 :: (mid ++ [e1]) ∧ e0.publisher = "algorithm" ∧ e0.genNum + 1 = e.genNum ∧
      e1.publisher = "population_evaluator" ∧ e1.name = "after_operator" ∧
      (∀ x v, e0.Has x v → ∃ y, e1.Has y v) ∧
      ∀ front : List Nat, front.length ≤ n →
        (∀ x v, e1.Has x v → (∀ y u, e1.Has y u → ¬ Pareto ds u v) → x ∈ front) →
        ∀ x v, e0.Has x v → ∃ y w, e.Has y w ∧ (w = v ∨ Pareto ds w v) := by
  have hlog := (mevolve_prog hc hst hb hf () s' hrun).log
  rcases hlog pre e post hsplit he with ⟨h, -⟩ | ⟨h | h, -⟩ | ⟨pre', e0, mid, e1, hpre, h0, -, h1, h2, h3, hcar⟩
  · rw [hname] at h; exact absurd h (by decide)
  · rw [hname] at h; exact absurd h (by decide)
  · omega
  · refine ⟨pre', e0, mid, e1, hpre, h0, h3, h1, h2, hcar.inherits, fun front hfl hfr x v hx => ?_⟩
    obtain ⟨y, hy⟩ := hcar.inherits x v hx
    exact hcar.front front (by rw [C53_size hc hb hf hrun e (by rw [hsplit]; simp) he]; exact hfl) hfr y v hy

/-! ## Examples -/

theorem exCfg_steady (nsga2 : Bool) (maxGen : Nat) : (exCfg nsga2 maxGen).Steady fun g => [g, g * (5 - g)] := by
  refine ⟨?_, ?_, fun g t => wlp_pure.2 rfl⟩
  · intro o ho
    simp only [exCfg, List.mem_singleton] at ho
    subst ho
    intro refs s _
    unfold MOp.inPlace
    dsimp only
    rw [wlp_bind, wlp_modify]
    refine wlp_pure.2 fun r _ hr => ?_
    dsimp only
    rw [if_neg hr]
  · intro x hx
    simp only [exCfg, List.mem_singleton] at hx
    subst hx
    exact MSel.tournament_local 1 2 true

/-- The objectives seen at the events of the algorithm. -/
def seen (c : MCfg ℚ) : Bool × List (List (Option (List ℚ))) :=
  match mevolve c exRun with
  | (.ok (), s) => (true, (s.log.filter fun e => e.publisher = "algorithm").map fun e => e.inds.map fun r => (e.fits r).objs)
  | (.error _, _) => (false, [])

/-- Four individuals and two objectives: the least first objective and the greatest second one are kept. -/
example : seen (exCfg true 1) = (true, [
    [some [0, 0], some [3, 6], some [5, 0], some [7, -14]],
    [some [0, 0], some [1, 4], some [3, 6], some [4, 4]],
    [some [0, 0], some [1, 4], some [3, 6], some [4, 4]]]) := by
  decide +kernel

example {pre mid post : List MEvent} {e e' : MEvent}
    (hsplit : (mevolve (exCfg true 1) exRun).2.log = pre ++ e :: (mid ++ e' :: post)) (he : e.publisher = "algorithm")
    (he' : e'.publisher = "algorithm") (hx : e.Has 1 [3, 6]) :
    ∃ y w, e'.Has y w ∧ AtLeast true (w.getD 1 0) 6 :=
  C114_extremes_partial (exCfg_good true 1) (exCfg_steady true 1) rfl exRun_fresh (by decide) (ok_pair (by decide +kernel))
    hsplit he he' hx (i := 1) rfl

example {pre post : List MEvent} {e : MEvent} (hsplit : (mevolve (exCfg true 1) exRun).2.log = pre ++ e :: post)
    (he : e.publisher = "algorithm") (hname : e.name = "after_generation") (hgen : 1 ≤ e.genNum) :
    ∃ e0 ∈ pre, e0.publisher = "algorithm" ∧ e0.genNum + 1 = e.genNum := by
  obtain ⟨pre', e0, mid, e1, h1, h2, h3, -⟩ := C114_front (exCfg_good true 1) (exCfg_steady true 1) rfl exRun_fresh
    (ok_pair (by decide +kernel)) hsplit he hname hgen
  exact ⟨e0, by rw [h1]; simp, h2, h3⟩
/-- An individual with the given genome. -/
def exNew2 (g : ℚ) : MM ℚ Nat := do
  let w ← PyM.get
  PyM.set { w with
    fits := fun x => if x = w.next then .new none (.each [false, false]) false false else w.fits x
    genome := fun x => if x = w.next then g else w.genome x
    next := w.next + 1 }
  PyM.pure w.next

/-- Two individuals, on which nothing is ever done: minimise `x` and `1 - x`. -/
def exPair (maxGen : Nat) : MCfg ℚ where
  sub := {
    create := mapL exNew2 [0, 1]
    ops := []
    sels := [⟨1, tournamentM 2 true⟩]
    popSize := 2
    nElite := 0
    hib := false
    evaluate := fun g => PyM.pure [g, 1 - g] }
  nsga2Breeder := true
  stream := fun seed k => seed + k
  maxGen := maxGen
  checker := fun _ _ _ _ => .ok false
  sched := fun _ k => List.range k
  setOrder := fun _ _ l => l.reverse

theorem exPair_good (maxGen : Nat) : (exPair maxGen).Good 2 2 [false, false] := by
  refine ⟨fun s hd => ?_, by simp [exPair], ?_, fun g t => wlp_pure.2 rfl, rfl, fun g k l => List.reverse_perm l⟩
  · refine wlp.mono (wlp_mapL (I := fun (pre : List ℚ) (l : List Nat) s' => l.length = pre.length ∧ l.Nodup ∧
      Exist s' l ∧ AllDir 2 [false, false] s') ⟨rfl, List.nodup_nil, by intro r hr; simp at hr, hd⟩ ?_)
      (fun l s' h => ⟨h.1, h.2.1, h.2.2.1, h.2.2.2⟩)
    rintro pre x post l s₁ - ⟨h1, h2, h3, h4⟩
    unfold exNew2
    rw [wlp_bind, wlp_get, wlp_bind, wlp_set]
    refine wlp_pure.2 ⟨by simp [h1], ?_, ?_, ?_⟩
    · rw [List.nodup_append]
      refine ⟨h2, by simp, fun a ha b hb hab => ?_⟩
      simp only [List.mem_singleton] at hb
      have := h3 a ha
      omega
    · intro r hr
      simp only [List.mem_append, List.mem_singleton] at hr
      rcases hr with hr | rfl
      · exact Nat.lt_succ_of_lt (h3 r hr)
      · exact Nat.lt_succ_self _
    · intro r hr
      dsimp only at hr ⊢
      split
      · rfl
      · exact h4 r (by omega)
  · intro x hx
    simp only [exPair, List.mem_singleton] at hx
    subst hx
    exact MSel.tournament_good 1 2 true

theorem exPair_steady (maxGen : Nat) : (exPair maxGen).Steady fun g => [g, 1 - g] := by
  refine ⟨by simp [exPair], ?_, fun g t => wlp_pure.2 rfl⟩
  intro x hx
  simp only [exPair, List.mem_singleton] at hx
  subst hx
  exact MSel.tournament_local 1 2 true

theorem split_at {α : Type} {l : List α} {i : Nat} {a : α} (h : l[i]? = some a) : l = l.take i ++ a :: l.drop (i + 1) := by
  obtain ⟨hi, rfl⟩ := List.getElem?_eq_some_iff.1 h
  rw [← List.drop_eq_getElem_cons hi, List.take_append_drop]

theorem split_two {α : Type} {l : List α} {i j : Nat} {a b : α} (hij : i < j) (h1 : l[i]? = some a) (h2 : l[j]? = some b) :
    ∃ pre mid post, l = pre ++ a :: (mid ++ b :: post) := by
  have h3 : (l.drop (i + 1))[j - (i + 1)]? = some b := by
    rw [List.getElem?_drop, ← h2]
    congr 1
    omega
  exact ⟨_, _, _, by rw [← split_at h3]; exact split_at h1⟩

/-- After one generation both individuals are copies of the same one. -/
example : seen (exPair 1) = (true, [[some [0, 1], some [1, 0]], [some [1, 0], some [1, 0]], [some [1, 0], some [1, 0]]]) := by
  decide +kernel

/-- C114 is false: a population of two, one best in the first objective and the other in the second, is doubled (no
operator changes anything), and front sorting keeps the two copies of the second. -/
theorem C114_refuted : ¬ C114_statement := by
  intro h
  have hrun : mevolve (exPair 1) exRun = (.ok (), (mevolve (exPair 1) exRun).2) := ok_pair (by decide +kernel)
  have hf : exRun.Fresh 2 [false, false] := ⟨rfl, fun r hr => absurd hr (Nat.not_lt_zero r), rfl, rfl⟩
  have h2 : ((mevolve (exPair 1) exRun).2.log[2]?.any fun e =>
      decide (e.publisher = "algorithm" ∧ 0 ∈ e.inds ∧ (e.fits 0).objs = some [0, 1])) = true := by decide +kernel
  have h7 : ((mevolve (exPair 1) exRun).2.log[7]?.any fun e =>
      decide (e.publisher = "algorithm" ∧ ∀ y ∈ e.inds, (e.fits y).objs = some [1, 0])) = true := by decide +kernel
  obtain ⟨e, he, h2⟩ := Option.any_eq_true _ _ |>.1 h2
  obtain ⟨e', he', h7⟩ := Option.any_eq_true _ _ |>.1 h7
  rw [decide_eq_true_eq] at h2 h7
  obtain ⟨pre, mid, post, hsplit⟩ := split_two (by decide) he he'
  obtain ⟨y, w, ⟨hy, hyw⟩, hw⟩ := h ℚ (exPair 1) 2 2 [false, false] _ exRun _ (exPair_good 1) (exPair_steady 1) rfl hf hrun
    pre e mid e' post hsplit h2.1 h7.1 0 [0, 1] h2.2 0 false rfl
  rw [h7.2 y hy] at hyw
  obtain rfl := Option.some.inj hyw
  simp [AtLeast] at hw
  norm_num at hw

end Verif.Moo
