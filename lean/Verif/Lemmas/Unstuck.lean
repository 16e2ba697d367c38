import Verif.Lemmas.Free
import Verif.Lemmas.Total
import Verif.Lemmas.Lineage
import Verif.Props.Seeds
import Verif.Props.Objective

/-! # What a generation can be made to hold, given suitable draws -/

namespace Verif.Evo
open PyM
variable {G κ : Type} {P : G → Prop} {K : κ → Prop}

/-- Applied to any individual whose genome satisfies `P` the operator can, with suitable draws, turn it into one with the
genome `g`. -/
def Op.CanMake (P : G → Prop) (g : G) (o : Op G) : Prop :=
  ∀ (w : World G) (r : Nat) (i : Ind G), w.heap[r]? = some i → P i.genome →
    ∃ t w', applyOperator o [r] { w with tape := t } = (.ok [r], w') ∧ genomeAt w' r = some g

/-! ## One round of breeding -/

theorem selectStage_total {c : Cfg G κ} {sub : SubCfg G} {m : Mode} (hc : c.Sound P sub m K) {w : World G}
    {is : List Nat} (hn : is.length = sub.popSize) (hm : ∀ r ∈ is, modeAt w r = some m)
    (he : Evaluated c.size m.hib w is) (hcar : Carry P w.heap is) :
    wp (selectStage c.size sub is) (fun res w' => Brood w sub.popSize m w' res ∧ Carry P w'.heap res) w := by
  obtain ⟨sel, rest, h1, h2, h3⟩ := hc.sels
  have hsel : wp (selectStage c.size sub is) (fun _ _ => True) w := by
    unfold selectStage
    rw [wp_bind, h1]
    rw [hc.dir] at he
    have hel : wp (eliteStage c.size sub is) (fun _ s' => Ext (fun _ => False) w s') w := by
      unfold eliteStage
      rw [wp_ite]
      exact ⟨fun _ => (C27_elitism sub.nElite [] he).mono fun _ _ h => h.1,
        fun _ => by rw [wp_pure]; exact Ext.refl _ _⟩
    exact hel.mono fun next s₁ e => hc.select sel rest h1 is next s₁ hn (he.ext e (by simp))
  refine (hsel.and (select_brood h1 h2 h3 he.valid hm)).mono ?_
  rintro res s₂ ⟨-, hb, hcopy⟩
  rw [hn] at hb
  refine ⟨hb, fun r hr => ?_⟩
  obtain ⟨src, hsrc, hcp⟩ := hcopy r hr
  obtain ⟨i, hi, hpi⟩ := hcar src hsrc
  have := hcp.genome
  unfold genomeAt at this
  rw [hi] at this
  cases hj : s₂.heap[r]? with
  | none => simp [hj] at this
  | some j =>
    simp only [hj, Option.map_some, Option.some.injEq] at this
    exact ⟨j, rfl, this ▸ hpi⟩

theorem applyChunks_append (o : Op G) (is js inds : List Nat) :
    applyChunks o (is ++ js) inds = applyChunks o is inds >>= applyChunks o js := by
  induction is generalizing inds with
  | nil => rfl
  | cons i is ih =>
    show (applyOperator o _ >>= fun res => applyChunks o (is ++ js) _) = (applyOperator o _ >>= fun res => applyChunks o is _) >>= _
    rw [bind_assoc]
    congr 1
    funext res
    exact ih _

theorem applyOperators_append (os ps : List (Op G)) (inds : List Nat) :
    applyOperators (os ++ ps) inds = applyOperators os inds >>= applyOperators ps := by
  induction os generalizing inds with
  | nil => rfl
  | cons o os ih =>
    rw [List.cons_append]
    unfold applyOperators
    split
    · rfl
    · rw [bind_assoc]
      congr 1
      funext res
      exact ih _

theorem rangeStep_one (n : Nat) : rangeStep n 1 = List.range n := by
  unfold rangeStep
  simp

/-- The parts of breeding that come before the last application of the last operator draw freely. -/
structure SubCfg.Free (sub : SubCfg G) : Prop where
  sels : ∀ sel ∈ sub.sels, ∀ source dest, FreeW (sel.select source dest)
  ops : ∀ o ∈ sub.ops, ∀ refs, FreeW (o.apply refs)

theorem selectStage_free {sub : SubCfg G} (h : sub.Free) (size : G → Nat) (is : List Nat) : FreeW (selectStage size sub is) := by
  refine Free.bind (Free.ite (fun _ => FreeW.elitismSelect _ _ _ _ _) fun _ => Free.pure _) fun next => ?_
  split
  · exact Free.raise _
  · rename_i sel rest he
    exact h.sels sel (by rw [he]; simp) _ _

theorem breedSub_makes {c : Cfg G κ} {sub : SubCfg G} {m : Mode} (hc : c.Sound P sub m K) (hfree : sub.Free) {os : List (Op G)}
    {o : Op G} (hops : sub.ops = os ++ [o]) (ha : o.arity = 1) {g : G} (hmake : o.CanMake P g) {w : World G} {is : List Nat}
    (hn : is.length = sub.popSize) (hm : ∀ r ∈ is, modeAt w r = some m) (he : Evaluated c.size m.hib w is)
    (hcar : Carry P w.heap is) :
    ∃ t l w', breedSub c.size sub is { w with tape := t } = (.ok l, w') ∧ ∃ r ∈ l, genomeAt w' r = some g := by
  have hmem : ∀ o' ∈ os, o' ∈ sub.ops := fun o' h => by rw [hops]; exact List.mem_append_left _ h
  have homem : o ∈ sub.ops := by rw [hops]; simp
  have hpos := hc.popSize
  -- everything before the last application
  have hpre : wp (selectStage c.size sub is >>= applyOperators os >>= applyChunks o (List.range (sub.popSize - 1)))
      (fun l w' => Brood w sub.popSize m w' l ∧ Carry P w'.heap l) w := by
    rw [bind_assoc, wp_bind]
    refine (selectStage_total hc hn hm he hcar).mono fun l1 w1 h1 => ?_
    rw [wp_bind]
    refine (applyOperators_worksOn os (fun o h => hc.ops o (hmem o h)) (fun o h => hc.preserve o (hmem o h))
      (fun o h => hc.operate o (hmem o h)) (fun o ho => ?_) h1.1 h1.2).mono fun l2 w2 h2 => ?_
    · exact hc.arities _ (List.mem_append_right _ (List.mem_map_of_mem (hmem o ho)))
    · refine applyChunks_worksOn (hc.ops o homem) (hc.preserve o homem) (hc.operate o homem) _ (fun i hi => ?_) h2.1 h2.2
      have := List.mem_range.1 hi
      omega
  have hfr : FreeW (selectStage c.size sub is >>= applyOperators os >>= applyChunks o (List.range (sub.popSize - 1))) :=
    Free.bind (Free.bind (selectStage_free hfree _ _) fun _ => FreeW.applyOperators (fun o h => hfree.ops o (hmem o h)) _)
      fun _ => FreeW.applyChunks (hfree.ops o homem) _ _
  obtain ⟨l, w1, hrun, hb, hcl⟩ := hpre
  have hll := hb.length
  obtain ⟨init, r, rfl⟩ : ∃ init r, l = init ++ [r] := by
    refine ⟨l.dropLast, l.getLast (by rintro rfl; simp at hll; omega), (List.dropLast_append_getLast _).symm⟩
  have hil : init.length = sub.popSize - 1 := by simp at hll; omega
  obtain ⟨i, hi, hpi⟩ := hcl r (by simp)
  obtain ⟨t1, w', hop, hg⟩ := hmake w1 r i hi hpi
  obtain ⟨t, ht⟩ := hfr _ _ _ hrun t1
  refine ⟨t, init ++ [r], w', ?_, r, by simp, hg⟩
  unfold breedSub
  refine (bind_of_ok (checkArities_ok hc.arities _)).trans ?_
  obtain ⟨l1, w2, e1, h1, h1'⟩ := selectStage_total (w := { w with tape := t }) hc hn hm he hcar
  obtain ⟨l2, w3, e2, h2, -⟩ := applyOperators_worksOn os (fun o h => hc.ops o (hmem o h)) (fun o h => hc.preserve o (hmem o h))
    (fun o h => hc.operate o (hmem o h))
    (fun o ho => hc.arities _ (List.mem_append_right _ (List.mem_map_of_mem (hmem o ho)))) h1 h1'
  have ht' : applyChunks o (List.range (sub.popSize - 1)) l2 w3 = (.ok (init ++ [r]), { w1 with tape := t1 }) := by
    have := ht
    rw [bind_assoc] at this
    exact ((bind_of_ok (f := fun x => applyOperators os x >>= applyChunks o (List.range (sub.popSize - 1))) e1).trans
      (bind_of_ok e2)).symm.trans this
  refine (bind_of_ok e1).trans ?_
  rw [hops, applyOperators_append]
  refine (bind_of_ok e2).trans ?_
  unfold applyOperators
  rw [if_neg (by omega), ha, rangeStep_one, h2.length]
  have hr : List.range sub.popSize = List.range (sub.popSize - 1) ++ [sub.popSize - 1] := by
    rw [← List.range_succ]; congr 1; omega
  rw [hr, applyChunks_append, bind_assoc]
  refine (bind_of_ok ht').trans ?_
  have hs1 : Py.slice (init ++ [r]) ((sub.popSize - 1 : Nat) : Int) ((sub.popSize - 1 + o.arity : Nat) : Int) = [r] := by
    have := slice_group (init ++ [r]) (sub.popSize - 1) 1
    rw [Nat.mul_one] at this
    rw [ha, this, List.drop_append, ← hil]
    simp
  have hs2 : Py.setSlice (init ++ [r]) ((sub.popSize - 1 : Nat) : Int) ((sub.popSize - 1 + o.arity : Nat) : Int) [r] = init ++ [r] := by
    have := setSlice_same (init ++ [r]) ((sub.popSize - 1 : Nat) : Int) ((sub.popSize - 1 + o.arity : Nat) : Int)
    rwa [hs1] at this
  show (applyChunks o [sub.popSize - 1] (init ++ [r]) >>= fun x => Pure.pure x) _ = _
  refine bind_of_ok (a := init ++ [r]) (s' := w') ?_
  show (applyOperator o (Py.slice (init ++ [r]) ((sub.popSize - 1 : Nat) : Int) ((sub.popSize - 1 + o.arity : Nat) : Int)) >>= fun res =>
    applyChunks o [] (Py.setSlice (init ++ [r]) ((sub.popSize - 1 : Nat) : Int) ((sub.popSize - 1 + o.arity : Nat) : Int) res)) _ = _
  rw [hs1]
  refine (bind_of_ok hop).trans ?_
  rw [hs2]
  rfl

/-! ## One generation -/

/-- One round of the loop of `evolve_main_loop`: whether to stop. -/
def oneGen (c : Cfg G κ) (gen : Nat) : RM G κ Bool := do
  modify fun s => { s with genNum := gen }
  updateGen gen
  let s ← PyM.get
  setSeed c (nextSeed s.genSeed)
  modify fun s => { s with genSeed := nextSeed s.genSeed }
  generationIteration c
  shouldTerminate c gen

theorem mainLoop_oneGen (c : Cfg G κ) (n gen : Nat) : mainLoop c (n + 1) gen = (do
    let stop ← oneGen c gen
    if stop then do
      modify fun s => { s with finalGen := some gen }
      publish "algorithm" "after_generation"
    else do
      publish "algorithm" "after_generation"
      mainLoop c n (gen + 1)) := by
  rw [mainLoop]
  unfold oneGen
  simp only [bind_assoc]

theorem oneGen_total {c : Cfg G κ} {sub : SubCfg G} {m : Mode} (hc : c.Sound P sub m K) (gen : Nat) {s : Run G κ}
    (h : Living K P c sub m s) : wp (oneGen c gen) (fun _ s' => Living K P c sub m s') s := by
  unfold oneGen
  rw [wp_bind, wp_modify, wp_bind]
  refine (updateGen_total (⟨h.fits, h.executor, h.best, h.pop⟩ :
    Living K P c sub m { s with genNum := gen }) gen).mono fun _ s₁ h1 => ?_
  unfold setSeed
  rw [wp_bind, wp_get, wp_bind, wp_modify, wp_bind, wp_modify, wp_bind]
  exact (generation_total hc (⟨h1.fits, h1.executor, h1.best, h1.pop⟩ : Living K P c sub m
    { s₁ with w := { s₁.w with tape := c.stream (nextSeed s₁.genSeed) }, genSeed := nextSeed s₁.genSeed })).mono
    fun _ s₂ h2 => shouldTerminate_total hc h2 gen

/-- What has been recorded since `base`: events whose generation numbers satisfy `N`. -/
def LogSince (N : Nat → Prop) (base : List (Event G)) (s : Run G κ) : Prop :=
  ∃ evs, s.log = base ++ evs ∧ ∀ e ∈ evs, N e.snap.genNum

theorem sinceInv (N : Nat → Prop) (base : List (Event G)) (x : Nat) :
    SeedInv fun s : Run G κ => N s.genNum ∧ s.genSeed = x ∧ LogSince N base s where
  only s s' h1 h2 h3 h := by
    refine ⟨h1 ▸ h.1, h2.trans h.2.1, ?_⟩
    unfold LogSince
    rw [h3]
    exact h.2.2
  publish s p n h := by
    obtain ⟨h1, h2, evs, h3, h4⟩ := h
    refine ⟨h1, h2, evs ++ [⟨p, n, s.snapshot⟩], ?_, ?_⟩
    · show s.log ++ _ = _
      rw [h3, List.append_assoc]
    · intro e he
      simp only [List.mem_append, List.mem_singleton] at he
      rcases he with he | rfl
      · exact h4 e he
      · exact h1

theorem oneGen_since {N : Nat → Prop} {base : List (Event G)} {c : Cfg G κ} {gen : Nat} (hN : N gen) {s s' : Run G κ} {stop : Bool}
    (hs : LogSince N base s) (h : oneGen c gen s = (.ok stop, s')) :
    N s'.genNum ∧ s'.genSeed = nextSeed s.genSeed ∧ LogSince N base s' := by
  unfold oneGen at h
  obtain ⟨_, s₁, h1, h⟩ := bind_ok.1 h
  obtain ⟨_, s₂, h2, h⟩ := bind_ok.1 h
  obtain ⟨_, s₃, h3, h⟩ := bind_ok.1 h
  obtain ⟨_, s₄, h4, h⟩ := bind_ok.1 h
  obtain ⟨_, s₅, h5, h⟩ := bind_ok.1 h
  obtain ⟨_, s₆, h6, h7⟩ := bind_ok.1 h
  cases h1
  have g2 := Stays.of_ok (s := { s with genNum := gen }) (stays_updateGen (sinceInv N base s.genSeed).only gen) ⟨hN, rfl, hs⟩ h2
  cases h3
  cases h4
  cases h5
  have g6 := Stays.of_ok (s := { s₂ with w := { s₂.w with tape := c.stream (nextSeed s₂.genSeed) }, genSeed := nextSeed s₂.genSeed })
    (stays_generation (c := c) (sinceInv N base (nextSeed s.genSeed))) ⟨g2.1, congrArg nextSeed g2.2.1, g2.2.2⟩ h6
  exact Stays.of_ok (stays_shouldTerminate (c := c) (sinceInv N base (nextSeed s.genSeed)).only gen) g6 h7

/-- One round of the loop uses the generators of its seed only. -/
theorem oneGen_stream {c : Cfg G κ} {gen : Nat} {s : Run G κ} {st : Nat → Tape}
    (h : st (nextSeed s.genSeed) = c.stream (nextSeed s.genSeed)) : oneGen { c with stream := st } gen s = oneGen c gen s := by
  unfold oneGen
  refine bind_congr fun _ s₁ h1 => bind_congr fun _ s₂ h2 => bind_congr fun x s₃ h3 => ?_
  cases h1
  have g2 : s₂.genSeed = s.genSeed := Stays.of_ok (s := { s with genNum := gen }) (stays_updateGen (genSeedInv s.genSeed).only gen) rfl h2
  cases h3
  have e : setSeed { c with stream := st } (nextSeed s₂.genSeed) = (setSeed c (nextSeed s₂.genSeed) : RM G κ Unit) := by
    unfold setSeed
    rw [g2]
    simp only [h]
  rw [e]
  rfl

/-- The event shows a population that has been evaluated in generation `gen`, and there is an individual with the genome
`g` in it. -/
def Event.Holds (e : Event G) (gen : Nat) (g : G) : Prop :=
  e.IsEval ∧ e.snap.genNum = gen ∧ ∃ r i, e.Shows r ∧ e.snap.heap[r]? = some i ∧ i.genome = g

theorem evaluatePopulation_told (c : Cfg G κ) (s : Run G κ) :
    wlp (evaluatePopulation c) (fun _ s' => ⟨"population_evaluator", "after_operator", s'.snapshot⟩ ∈ s'.log) s := by
  unfold evaluatePopulation act
  rw [wlp_bind]
  refine (wlp_true _ _).mono fun _ s₁ _ => ?_
  rw [wlp_bind]
  refine (wlp_true _ _).mono fun _ s₂ _ => ?_
  rw [wlp_bind]
  unfold publish
  rw [wlp_modify, wlp_pure]
  exact List.mem_append_right _ (by simp; rfl)

/-- If breeding makes an individual with the genome `g`, the evaluation that follows shows it. -/
theorem generation_holds {c : Cfg G κ} {sub : SubCfg G} {m : Mode} (hc : c.Sound P sub m K) {s : Run G κ} {is : List Nat}
    (hi : s.inds = [some is]) (hexec : s.shutdown = false) (hn : is.length = sub.popSize) (hm : ∀ r ∈ is, modeAt s.w r = some m)
    (hev : Evaluated c.size m.hib s.w is) (hcar : Carry P s.w.heap is) {l : List Nat} {w : World G} {g : G}
    (hbreed : breedSub c.size sub is s.w = (.ok l, w)) {r : Nat} (hr : r ∈ l) (hg : genomeAt w r = some g) :
    wlp (generationIteration c) (fun _ s' => ∃ e ∈ s'.log, e.Holds s.genNum g) s := by
  obtain ⟨l', w', e1, hb, hcar1⟩ := breedSub_total hc hn hm hev hcar
  rw [hbreed] at e1
  cases e1
  unfold generationIteration
  rw [wlp_bind]
  unfold breed act
  rw [wlp_bind]
  unfold publish
  rw [wlp_modify, wlp_bind]
  unfold breedBody
  rw [wlp_bind, wlp_get, wlp_bind]
  refine wlp_zoom.2 ?_
  show wlp (breedAll c.size (c.subs.zip s.inds)) _ s.w
  rw [hc.subs, hi]
  show wlp (breedAll c.size [(sub, some is)]) _ _
  unfold breedAll
  rw [wlp_bind]
  intro l' w' hrun
  rw [hbreed] at hrun
  cases hrun
  unfold breedAll
  rw [wlp_bind, wlp_pure, wlp_pure, wlp_modify, wlp_bind, wlp_modify, wlp_pure, wlp_bind]
  obtain ⟨b, s₂, e2, w2, log, rfl, e, hg2, hev2, -⟩ := evaluatePopulation_total hc
    (s := Run.push { s.push "breeder" "before_operator" with w := w, inds := [some l] } "breeder" "after_operator") (is := l)
    rfl hb.length hb.mode hcar1 hexec
  have ht := evaluatePopulation_told c _ _ _ e2
  intro b' s₂' hrun
  have hrun' := hrun.symm.trans e2
  cases hrun'
  clear hrun
  rw [wlp_bind, wlp_modify, wlp_bind]
  have hmono : ∀ (t : Run G κ), (∃ e ∈ t.log, e.Holds s.genNum g) → wlp (recordWorst c) (fun _ s' => ∃ e ∈ s'.log, e.Holds s.genNum g) t := by
    intro t ht
    unfold recordWorst
    rw [wlp_bind, wlp_get]
    split
    · rw [wlp_bind]
      refine wlp_zoom.2 ((wlp_true _ _).mono fun _ w _ => ?_)
      rw [wlp_modify]
      exact ht
    · simp
  unfold recordBest
  rw [wlp_bind, wlp_get, wlp_bind]
  refine wlp_zoom.2 ?_
  rw [wlp_reading]
  intro v _
  obtain ⟨i, hir, hig⟩ : ∃ i, w2.heap[r]? = some i ∧ i.genome = g := by
    have := (hg2 r).trans hg
    unfold genomeAt at this
    cases hh : w2.heap[r]? with
    | none => rw [hh] at this; simp at this
    | some i => rw [hh] at this; exact ⟨i, rfl, by simpa using this⟩
  have hend : ∃ e ∈ log, Event.Holds e s.genNum g := ⟨_, ht, ⟨rfl, rfl⟩, rfl, r, i, ⟨l, by simp [Run.snapshot, Run.push], hr⟩, hir, hig⟩
  rw [wlp_ite]
  refine ⟨fun _ => ?_, fun _ => ?_⟩
  · rw [wlp_modify]
    exact hmono _ hend
  · rw [wlp_pure]
    exact hmono _ hend

/-- Generations that come later show later numbers. -/
theorem mainLoop_since {c : Cfg G κ} {N : Nat → Prop} {base : List (Event G)} (n gen : Nat) (hN : ∀ k, gen ≤ k → N k)
    {s s' : Run G κ} (hs : LogSince N base s) (h : mainLoop c n gen s = (.ok (), s')) : LogSince N base s' := by
  induction n generalizing gen s with
  | zero => cases h; exact hs
  | succ n ih =>
    rw [mainLoop_oneGen] at h
    obtain ⟨stop, s₁, h1, h⟩ := bind_ok.1 h
    have g1 := oneGen_since (hN gen le_rfl) hs h1
    have hp := (sinceInv (κ := κ) N base (nextSeed s.genSeed)).publish
    cases stop with
    | true =>
      rw [if_pos rfl] at h
      cases h
      exact (hp { s₁ with finalGen := some gen } _ _ g1).2.2
    | false =>
      rw [if_neg (by simp)] at h
      obtain ⟨_, s₂, h2, h⟩ := bind_ok.1 h
      cases h2
      exact ih (gen + 1) (fun k hk => hN k (by omega)) (hp s₁ _ _ g1).2.2 h

end Verif.Evo

namespace Verif.Evo
open PyM
variable {G κ : Type} {P : G → Prop} {K : κ → Prop} {c : Cfg G κ} {sub : SubCfg G} {m : Mode}

theorem Cfg.Sound.withStream (hc : c.Sound P sub m K) (st : Nat → Tape) : ({ c with stream := st } : Cfg G κ).Sound P sub m K :=
  ⟨⟨hc.subs, hc.dir, hc.creators, hc.sels, hc.ops, hc.sched, hc.map⟩, hc.popSize, hc.arities, hc.pick, hc.create, hc.select,
    hc.preserve, hc.operate, hc.evaluate, hc.calm⟩

theorem mainLoop_genNum {M : Nat} (n gen : Nat) (hM : M ≤ gen) {s s' : Run G κ} (hs : M ≤ s.genNum ∨ 0 < n)
    (h : mainLoop c n gen s = (.ok (), s')) : M ≤ s'.genNum := by
  induction n generalizing gen s with
  | zero => cases h; rcases hs with h | h; exacts [h, absurd h (lt_irrefl _)]
  | succ n ih =>
    rw [mainLoop_oneGen] at h
    obtain ⟨stop, s₁, h1, h⟩ := bind_ok.1 h
    have g2 : s₁.genNum = gen := (oneGen_since (N := fun k => k = gen) (base := s.log) rfl ⟨[], by simp, by simp⟩ h1).1
    cases stop with
    | true =>
      rw [if_pos rfl] at h
      cases h
      exact g2 ▸ hM
    | false =>
      rw [if_neg (by simp)] at h
      obtain ⟨_, s₂, h2, h⟩ := bind_ok.1 h
      cases h2
      exact ih (gen + 1) (by omega) (s := s₁.push "algorithm" "after_generation") (.inl (g2 ▸ hM : M ≤ s₁.genNum)) h

theorem oneGen_makes (hc : c.Sound P sub m K) (hfree : sub.Free) {os : List (Op G)}
    {o : Op G} (hops : sub.ops = os ++ [o]) (ha : o.arity = 1) {g : G} (hmake : o.CanMake P g) (gen : Nat) {s : Run G κ}
    (h : Living K P c sub m s) : ∃ t, ∀ st : Nat → Tape, st (nextSeed s.genSeed) = t →
      wlp (oneGen { c with stream := st } gen) (fun _ s' => ∃ e ∈ s'.log, e.Holds gen g) s := by
  obtain ⟨_, s₁, e1, h1⟩ := updateGen_total (⟨h.fits, h.executor, h.best, h.pop⟩ :
    Living K P c sub m { s with genNum := gen }) gen
  have hg : s₁.genNum = gen ∧ s₁.genSeed = s.genSeed ∧ LogSince (fun _ => True) s.log s₁ :=
    Stays.of_ok (s := { s with genNum := gen })
    (stays_updateGen (I := fun t => t.genNum = gen ∧ t.genSeed = s.genSeed ∧ LogSince (fun _ => True) s.log t)
      (fun a b h1 h2 h3 h => ⟨h1.trans h.1, h2.trans h.2.1, by unfold LogSince; rw [h3]; exact h.2.2⟩) gen) ⟨rfl, rfl, [], by simp, by simp⟩ e1
  obtain ⟨is, hi, hn, -, hm, hev, hcar⟩ := h1.pop
  obtain ⟨t, l, w, hb, r, hr, hgr⟩ := breedSub_makes hc hfree hops ha hmake hn hm hev hcar
  refine ⟨t, fun st hst => ?_⟩
  unfold oneGen
  rw [wlp_bind, wlp_modify, wlp_bind]
  intro _ s₁' e1'
  have := e1'.symm.trans e1
  cases this
  rw [wlp_bind, wlp_get, wlp_bind]
  unfold setSeed
  rw [wlp_modify, wlp_bind, wlp_modify, wlp_bind]
  have hgen := generation_holds (hc.withStream st) (s := { s₁ with w := { s₁.w with tape := t }, genSeed := nextSeed s₁.genSeed })
    (is := is) hi h1.executor hn hm hev hcar hb hr hgr
  have hst' : st (nextSeed s₁.genSeed) = t := by rw [hg.2.1]; exact hst
  rw [← hst'] at hgen
  refine hgen.mono ?_
  rintro _ s₂ ⟨e, he, hh⟩
  intro v s₃ hrun
  have hh' : e.Holds gen g := by rw [← hg.1]; exact hh
  exact Stays.of_ok (stays_shouldTerminate (c := { c with stream := st }) (I := fun t => ∃ e ∈ t.log, e.Holds gen g)
    (fun a b _ _ h3 h => by rw [h3]; exact h) gen) ⟨e, he, hh'⟩ hrun

/-- The configuration with other random numbers for one seed. -/
def Cfg.redrawn (c : Cfg G κ) (seed : Nat) (t : Tape) : Cfg G κ :=
  { c with stream := fun x => if x = seed then t else c.stream x }

theorem mainLoop_makes (hc : c.Sound P sub m K) (hfree : sub.Free) {os : List (Op G)}
    {o : Op G} (hops : sub.ops = os ++ [o]) (ha : o.arity = 1) {g : G} (hmake : o.CanMake P g) (N n gen : Nat) {s s' : Run G κ}
    (h : Living K P c sub m s) (hgen : gen ≤ N) (hN : N < gen + n) (hn : n < 2 ^ 32)
    (hlog : ∀ e ∈ s.log, e.snap.genNum < gen)
    (hrun : mainLoop c n gen s = (.ok (), s')) (hreach : ∃ e ∈ s'.log, e.snap.genNum = N) :
    ∃ t s'', mainLoop (c.redrawn ((s.genSeed + (N - gen + 1)) % 2 ^ 32) t) n gen s = (.ok (), s'') ∧
      (∃ e ∈ s''.log, e.Holds N g) ∧ N ≤ s'.genNum ∧ N ≤ s''.genNum ∧
      ∃ pre a b, s'.log = pre ++ a ∧ s''.log = pre ++ b ∧ (∀ e ∈ pre, e.snap.genNum < N) ∧
        (∀ e ∈ a, N ≤ e.snap.genNum) ∧ ∀ e ∈ b, N ≤ e.snap.genNum := by
  induction n generalizing gen s with
  | zero => omega
  | succ n ih =>
    rcases Nat.lt_or_ge gen N with hlt | hge
    · -- an earlier generation is the same
      rw [mainLoop_oneGen] at hrun
      obtain ⟨stop, s₁, h1, hrun⟩ := bind_ok.1 hrun
      have hliv : Living K P c sub m s₁ := by
        obtain ⟨v, s₁', e, h'⟩ := oneGen_total hc gen h
        rw [h1] at e; cases e; exact h'
      have hs1 := oneGen_since (N := fun k => k ≤ gen) (base := []) le_rfl ⟨s.log, rfl, fun e he => (hlog e he).le⟩ h1
      have hseed : ∀ t, (c.redrawn ((s.genSeed + (N - gen + 1)) % 2 ^ 32) t).stream (nextSeed s.genSeed) = c.stream (nextSeed s.genSeed) := by
        intro t
        refine if_neg ?_
        unfold nextSeed
        omega
      have hpub := (sinceInv (G := G) (κ := κ) (fun k => k ≤ gen) [] (nextSeed s.genSeed)).publish
      cases stop with
      | true =>
        rw [if_pos rfl] at hrun
        cases hrun
        exfalso
        obtain ⟨e, he, hen⟩ := hreach
        obtain ⟨evs, hl, hev⟩ := (hpub { s₁ with finalGen := some gen } "algorithm" "after_generation" hs1).2.2
        have := hev e (by rw [List.nil_append] at hl; rw [← hl]; exact he)
        omega
      | false =>
        rw [if_neg (by simp)] at hrun
        obtain ⟨_, s₂, h2, hrun⟩ := bind_ok.1 hrun
        cases h2
        have hs2 := hpub s₁ "algorithm" "after_generation" hs1
        have hl2 : Living K P c sub m (s₁.push "algorithm" "after_generation") := hliv.push _ _
        obtain ⟨t, s'', hr, hH, hpre⟩ := ih (gen + 1) hl2 (by omega) (by omega) (by omega) (by
          obtain ⟨evs, hl, hev⟩ := hs2.2.2
          intro e he
          have := hev e (by rw [List.nil_append] at hl; rw [← hl]; exact he)
          omega) hrun
        refine ⟨t, s'', ?_, hH, hpre⟩
        have hsd : (s₁.push "algorithm" "after_generation").genSeed = nextSeed s.genSeed := hs2.2.1
        have heq : ((s₁.push "algorithm" "after_generation").genSeed + (N - (gen + 1) + 1)) % 2 ^ 32 = (s.genSeed + (N - gen + 1)) % 2 ^ 32 := by
          rw [hsd]
          unfold nextSeed
          omega
        rw [heq] at hr
        rw [mainLoop_oneGen]
        refine (bind_of_ok ((oneGen_stream (hseed t)).trans h1)).trans ?_
        rw [if_neg (by simp)]
        exact hr
    · -- the generation itself
      obtain rfl : gen = N := by omega
      have hse : (s.genSeed + (gen - gen + 1)) % 2 ^ 32 = nextSeed s.genSeed := by
        unfold nextSeed; congr 1; omega
      rw [hse]
      obtain ⟨t, ht⟩ := oneGen_makes hc hfree hops ha hmake gen h
      have hmk := ht (c.redrawn (nextSeed s.genSeed) t).stream (if_pos rfl)
      have hc' : (c.redrawn (nextSeed s.genSeed) t).Sound P sub m K := hc.withStream _
      have hl' : Living K P (c.redrawn (nextSeed s.genSeed) t) sub m s := ⟨h.fits, h.executor, h.best, h.pop⟩
      obtain ⟨_, s'', hr, -⟩ := mainLoop_total hc' (n + 1) gen hl'
      refine ⟨t, s'', hr, ?_, mainLoop_genNum (n + 1) gen le_rfl (.inr (by omega)) hrun,
        mainLoop_genNum (n + 1) gen le_rfl (.inr (by omega)) hr, s.log, ?_⟩
      · rw [mainLoop_oneGen] at hr
        obtain ⟨stop, s₁, h1, hr⟩ := bind_ok.1 hr
        obtain ⟨e, he, hh⟩ := hmk _ _ h1
        refine ⟨e, ?_, hh⟩
        cases stop with
        | true =>
          rw [if_pos rfl] at hr
          cases hr
          exact List.mem_append_left _ he
        | false =>
          rw [if_neg (by simp)] at hr
          obtain ⟨_, s₂, h2, hr⟩ := bind_ok.1 hr
          cases h2
          obtain ⟨evs, hl, -⟩ := mainLoop_since (N := fun _ => True) (base := s₁.log ++ [⟨"algorithm", "after_generation", s₁.snapshot⟩])
            n (gen + 1) (fun _ _ => trivial) ⟨[], by simp, by simp⟩ hr
          rw [hl]
          exact List.mem_append_left _ (List.mem_append_left _ he)
      · have h0 : LogSince (fun k => gen ≤ k) s.log s := ⟨[], by simp, by simp⟩
        obtain ⟨a, ha1, ha2⟩ := mainLoop_since (n + 1) gen (fun _ h => h) h0 hrun
        obtain ⟨b, hb1, hb2⟩ := mainLoop_since (n + 1) gen (fun _ h => h) h0 hr
        exact ⟨a, b, ha1, hb1, hlog, ha2, hb2⟩

end Verif.Evo

namespace Verif.Evo
open PyM
variable {G κ : Type} {P : G → Prop} {K : κ → Prop} {c : Cfg G κ} {sub : SubCfg G} {m : Mode}

theorem initRun_stream {st : Nat → Tape} {s : Run G κ} (h0 : st s.randomSeed = c.stream s.randomSeed) :
    initRun { c with stream := st } s = initRun c s := by
  unfold initRun
  refine bind_congr fun x s₁ h1 => ?_
  simp only [PyM.get, Prod.mk.injEq, Except.ok.injEq] at h1
  obtain ⟨rfl, rfl⟩ := h1
  have e : setSeed { c with stream := st } s.randomSeed = (setSeed c s.randomSeed : RM G κ Unit) := by
    unfold setSeed
    simp only [h0]
  rw [e]
  rfl

/-- Two completed runs were the same as far as anybody could see before generation `N` started, after which they may
differ. -/
def SameUntil (N : Nat) (l l' : List (Event G)) : Prop :=
  ∃ pre a b, l = pre ++ a ∧ l' = pre ++ b ∧ (∀ e ∈ pre, e.snap.genNum < N) ∧ (∀ e ∈ a, N ≤ e.snap.genNum) ∧
    ∀ e ∈ b, N ≤ e.snap.genNum

theorem evolve_makes (hc : c.Sound P sub m K) (hfree : sub.Free) {os : List (Op G)}
    {o : Op G} (hops : sub.ops = os ++ [o]) (ha : o.arity = 1) {g : G} (hmake : o.CanMake P g) {N : Nat} {s s' : Run G κ}
    (ho : s.Open P c sub m K) (hlog : s.log = []) (hg : s.genNum = 0) (hmax : c.maxGen < 2 ^ 32)
    (hseed : (s.genSeed + N) % 2 ^ 32 ≠ s.randomSeed) (hN : 1 ≤ N)
    (hrun : evolve c s = (.ok (), s')) (hreach : ∃ e ∈ s'.log, e.IsEval ∧ e.snap.genNum = N) :
    ∃ t s'', evolve (c.redrawn ((s.genSeed + N) % 2 ^ 32) t) s = (.ok (), s'') ∧
      (∃ e ∈ s''.log, e.Holds N g) ∧ SameUntil N s'.log s''.log := by
  have hle : N ≤ c.maxGen := by
    obtain ⟨e, he, -, rfl⟩ := hreach
    exact evolve_nums hlog hg hrun e he
  unfold evolve at hrun
  obtain ⟨_, s₁, h1, hrun⟩ := bind_ok.1 hrun
  obtain ⟨_, s₂, h2, hrun⟩ := bind_ok.1 hrun
  obtain ⟨_, s₃, h3, hrun⟩ := bind_ok.1 hrun
  cases h3
  cases hrun
  have hliv : Living K P c sub m s₁ := by
    obtain ⟨v, s₁', e, h'⟩ := initRun_total hc ho
    rw [h1] at e; cases e; exact h'
  have hs1 := Stays.of_ok (s := s) (stays_init (c := c) (sinceInv (G := G) (κ := κ) (fun k => k = 0) [] s.genSeed))
    ⟨hg, rfl, [], by simp [hlog], by simp⟩ h1
  obtain ⟨hg1, hseed1, evs, hl1, hev1⟩ := hs1
  unfold afterInit at h2
  obtain ⟨x, s₁', h4, h2⟩ := bind_ok.1 h2
  cases h4
  obtain ⟨stop, s₄, h4, h2⟩ := bind_ok.1 h2
  have hliv4 : Living K P c sub m s₄ := by
    obtain ⟨v, s₁', e, h'⟩ := shouldTerminate_total hc hliv s₁.genNum
    rw [h4] at e; cases e; exact h'
  have hs4 := Stays.of_ok (stays_shouldTerminate (c := c)
    (sinceInv (G := G) (κ := κ) (fun k => k = 0) [] s.genSeed).only s₁.genNum)
    ⟨hg1, hseed1, evs, hl1, hev1⟩ h4
  obtain ⟨hg4, hseed4, evs4, hl4, hev4⟩ := hs4
  rw [List.nil_append] at hl4
  subst hl4
  have hredrawn : ∀ t, initRun (c.redrawn ((s.genSeed + N) % 2 ^ 32) t) s = initRun c s := fun t =>
    initRun_stream (if_neg fun h => hseed h.symm)
  cases stop with
  | true =>
    exfalso
    rw [if_pos rfl] at h2
    cases h2
    obtain ⟨e, he, -, hen⟩ := hreach
    simp only [List.mem_append, List.mem_singleton] at he
    rcases he with (he | rfl) | rfl
    · have := hev4 e he
      omega
    · have : s₄.genNum = N := hen
      omega
    · have : s₄.genNum = N := hen
      omega
  | false =>
    rw [if_neg (by simp)] at h2
    have hreach' : ∃ e ∈ s₂.log, e.snap.genNum = N := by
      obtain ⟨e, he, hev, hen⟩ := hreach
      simp only [List.mem_append, List.mem_singleton] at he
      rcases he with he | rfl
      · exact ⟨e, he, hen⟩
      · exact absurd hev.1 (by simp)
    obtain ⟨t, s₅, hr, hH, hn1, hn2, pre, a, b, ha1, hb1, hpre, ha2, hb2⟩ := mainLoop_makes hc hfree hops ha hmake N c.maxGen 1 hliv4
      hN (by omega) hmax (fun e he => by rw [hev4 e he]; omega) h2 hreach'
    have hsd : (s₄.genSeed + (N - 1 + 1)) % 2 ^ 32 = (s.genSeed + N) % 2 ^ 32 := by
      rw [hseed4, Nat.sub_add_cancel hN]
    rw [hsd] at hr
    refine ⟨t, { s₅.push "algorithm" "evolution_finished" with shutdown := true }, ?_, ?_, pre, a ++ [⟨"algorithm", "evolution_finished", s₂.snapshot⟩],
      b ++ [⟨"algorithm", "evolution_finished", s₅.snapshot⟩], ?_, ?_, hpre, ?_, ?_⟩
    · unfold evolve
      refine (bind_of_ok ((hredrawn t).trans h1)).trans ?_
      have hafter : afterInit (c.redrawn ((s.genSeed + N) % 2 ^ 32) t) s₁ = (.ok (), s₅) := by
        unfold afterInit
        refine (bind_of_ok (m := PyM.get) (s := s₁) rfl).trans ?_
        refine (bind_of_ok (show shouldTerminate (c.redrawn _ t) s₁.genNum s₁ = _ from h4)).trans ?_
        rw [if_neg (by simp)]
        exact hr
      refine (bind_of_ok hafter).trans ?_
      rfl
    · obtain ⟨e, he, hh⟩ := hH
      exact ⟨e, List.mem_append_left _ he, hh⟩
    · show s₂.log ++ _ = _
      rw [ha1, List.append_assoc]
    · show s₅.log ++ _ = _
      rw [hb1, List.append_assoc]
    · intro e he
      rcases List.mem_append.1 he with he | he
      · exact ha2 e he
      · rw [List.mem_singleton.1 he]; exact hn1
    · intro e he
      rcases List.mem_append.1 he with he | he
      · exact hb2 e he
      · rw [List.mem_singleton.1 he]; exact hn2

end Verif.Evo
