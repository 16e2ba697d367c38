import Verif.Model.NSGA2Plot
import Verif.Props.MooArchive

/-!
# C172 — what the plot of NSGA-II shows
-/

namespace Verif.Moo
open PyM
variable {G : Type} {n m : Nat} {ds : List Bool} {c : MCfg G} {s s' : MRun G} {f : G → List ℚ}

theorem objectiveAt_ok {h : Heap} {k : Nat} {inds : List Nat} (hv : ∀ r ∈ inds, ∃ v x, (h r).objs = some v ∧ v[k]? = some x) :
    ∃ xs, objectiveAt h k inds = .ok xs ∧ xs.length = inds.length ∧
      ∀ (j r : Nat), inds[j]? = some r → ∃ v, (h r).objs = some v ∧ xs[j]? = v[k]? := by
  induction inds with
  | nil => exact ⟨[], rfl, rfl, by simp⟩
  | cons r rs ih =>
    obtain ⟨xs, h1, h2, h3⟩ := ih fun a ha => hv a (List.mem_cons_of_mem _ ha)
    obtain ⟨v, x, ho, hx⟩ := hv r List.mem_cons_self
    refine ⟨x :: xs, by simp only [objectiveAt, ho, hx, h1], by simp [h2], ?_⟩
    rintro (_ | j) a ha
    · simp only [List.getElem?_cons_zero, Option.some.injEq] at ha
      subst ha
      exact ⟨v, ho, by rw [hx]; rfl⟩
    · simp only [List.getElem?_cons_succ] at ha ⊢
      exact h3 j a ha

/-- The picture has one point for each individual, at its two objectives. -/
structure ShowsAll (h : Heap) (inds : List Nat) (pic : List ℚ × List ℚ) : Prop where
  abscissae : pic.1.length = inds.length
  ordinates : pic.2.length = inds.length
  points : ∀ (k r : Nat), inds[k]? = some r → ∃ a b, (h r).objs = some [a, b] ∧ pic.1[k]? = some a ∧ pic.2[k]? = some b

theorem plot_two {e : MEvent} (hne : e.inds ≠ []) (hv : ∀ r ∈ e.inds, ∃ v, (e.fits r).objs = some v ∧ v.length = 2) :
    ∃ pic, e.plot = .ok [pic] ∧ ShowsAll e.fits e.inds pic := by
  have hk : ∀ k < 2, ∀ r ∈ e.inds, ∃ v x, (e.fits r).objs = some v ∧ v[k]? = some x := by
    intro k hk r hr
    obtain ⟨v, h1, h2⟩ := hv r hr
    exact ⟨v, v[k]'(by omega), h1, List.getElem?_eq_getElem _⟩
  obtain ⟨xs, hx1, hx2, hx3⟩ := objectiveAt_ok (hk 0 (by omega))
  obtain ⟨ys, hy1, hy2, hy3⟩ := objectiveAt_ok (hk 1 (by omega))
  refine ⟨(xs, ys), ?_, hx2, hy2, fun k r hr => ?_⟩
  · unfold MEvent.plot printPlots
    cases hi : e.inds with
    | nil => exact absurd hi hne
    | cons r rs =>
      obtain ⟨v, h1, h2⟩ := hv r (by rw [hi]; exact List.mem_cons_self)
      rw [hi] at hx1 hy1
      simp only [h1, if_pos h2, printPlots2d, hx1, hy1]
  · obtain ⟨v, h1, h2⟩ := hv r (List.mem_of_getElem? hr)
    obtain ⟨v1, h3, h4⟩ := hx3 k r hr
    obtain ⟨v2, h5, h6⟩ := hy3 k r hr
    obtain rfl : v = v1 := Option.some.inj (h1.symm.trans h3)
    obtain rfl : v = v2 := Option.some.inj (h1.symm.trans h5)
    match v, h2 with
    | [a, b], _ => exact ⟨a, b, h1, h4, h6⟩

/-- **C172** as stated, without regard to the breeder. -/
def C172_statement : Prop :=
  ∀ (G : Type) (c : MCfg G) (n m : Nat) (ds : List Bool) (f : G → List ℚ) (s s' : MRun G), c.Good n m ds → c.Steady f →
    s.Fresh m ds → 0 < n → (∀ g, (f g).length = 2) → mevolve c s = (.ok (), s') →
    ∀ e ∈ s'.log, e.publisher = "algorithm" → ∃ pic, e.plot = .ok [pic] ∧ ShowsAll e.fits e.inds pic

/-- C172 with `NSGA2Breeder`: registered for any event of the algorithm, the plot of a run with two objectives never raises, and
draws one picture: one point for each individual of the population, all of which are evaluated. -/
theorem C172_shows_partial (hc : c.Good n m ds) (hst : c.Steady f) (hb : c.nsga2Breeder = true) (hf : s.Fresh m ds) (hn : 0 < n)
    (h2 : ∀ g, (f g).length = 2) (hrun : mevolve c s = (.ok (), s')) {e : MEvent} (he : e ∈ s'.log) (hp : e.publisher = "algorithm") :
    ∃ pic, e.plot = .ok [pic] ∧ pic.1.length = n ∧ ShowsAll e.fits e.inds pic := by
  have hl := C53_size hc hb hf hrun e he hp
  obtain ⟨pic, h3, h4⟩ := plot_two (e := e) (by rintro h; rw [h] at hl; exact hn.ne hl) fun r hr => by
    obtain ⟨g, hg⟩ := (mevolve_prog hc hst hb hf () s' hrun).shown e he hp r hr
    exact ⟨_, hg, h2 g⟩
  exact ⟨pic, h3, h4.abscissae.trans hl, h4⟩

/-- C172: with another number of objectives nothing is drawn, and nothing raised. -/
theorem C172_silent_partial (hc : c.Good n m ds) (hst : c.Steady f) (hb : c.nsga2Breeder = true) (hf : s.Fresh m ds) (hn : 0 < n)
    (h2 : ∀ g, (f g).length ≠ 2) (hrun : mevolve c s = (.ok (), s')) {e : MEvent} (he : e ∈ s'.log) (hp : e.publisher = "algorithm") :
    e.plot = .ok [] := by
  have hl := C53_size hc hb hf hrun e he hp
  unfold MEvent.plot printPlots
  cases hi : e.inds with
  | nil => rw [hi] at hl; exact absurd hl hn.ne
  | cons r rs =>
    obtain ⟨g, hg⟩ := (mevolve_prog hc hst hb hf () s' hrun).shown e he hp r (by rw [hi]; exact List.mem_cons_self)
    simp only [hg, if_neg (h2 g)]

/-- C172: the picture at the end of the run shows the objectives of the genomes of the final population. -/
theorem C172_final_partial (hc : c.Good n m ds) (hst : c.Steady f) (hb : c.nsga2Breeder = true) (hf : s.Fresh m ds) (hn : 0 < n)
    (h2 : ∀ g, (f g).length = 2) (hrun : mevolve c s = (.ok (), s')) : ∃ (pre : List MEvent) (e : MEvent) (is : List Nat) (pic : List ℚ × List ℚ), s'.log = pre ++ [e] ∧
      e.publisher = "algorithm" ∧ e.name = "evolution_finished" ∧ s'.inds = some is ∧ e.plot = .ok [pic] ∧ pic.1.length = n ∧
      ∀ (k r : Nat), is[k]? = some r → ∃ a b, f (s'.w.genome r) = [a, b] ∧ pic.1[k]? = some a ∧ pic.2[k]? = some b := by
  obtain ⟨l, pre, e, hpop, hv, hlog, he, -, hi, hfit⟩ := (mevolve_prog hc hst hb hf () s' hrun).pop
  obtain ⟨evs, stop, hcourse⟩ := C126_course hf.log hf.genNum hrun
  have hname : e.name = "evolution_finished" := by
    have h1 : (s'.log.map MEvent.tag).getLast? = some ("algorithm", "evolution_finished") := by rw [hcourse.tags]; simp
    rw [hlog] at h1
    simp [MEvent.tag] at h1
    exact h1.2
  obtain ⟨pic, h3, h4, h5⟩ := C172_shows_partial hc hst hb hf hn h2 hrun (e := e) (by rw [hlog]; simp) he
  refine ⟨pre, e, l, pic, hlog, he, hname, hpop.inds, h3, h4, fun k r hr => ?_⟩
  obtain ⟨a, b, h6, h7⟩ := h5.points k r (by rw [hi]; exact hr)
  rw [hfit, hv r (List.mem_of_getElem? hr)] at h6
  exact ⟨a, b, Option.some.inj h6, h7⟩

/-- C172: at the end of a generation the picture contains the whole of `best_of_gen`, and no point of it dominates a member. -/
theorem C172_front_partial (hc : c.Good n m ds) (hst : c.Steady f) (hb : c.nsga2Breeder = true) (hf : s.Fresh m ds) (hn : 0 < n)
    (h2 : ∀ g, (f g).length = 2) (hrun : mevolve c s = (.ok (), s')) {e : MEvent} (he : e ∈ s'.log) (hp : e.publisher = "algorithm")
    (hname : e.name = "after_generation") (hgen : 1 ≤ e.genNum) : ∃ (pic : List ℚ × List ℚ) (front : List Nat), e.plot = .ok [pic] ∧ e.bestOfGen = some front ∧
      ∀ r ∈ front, ∃ (k : Nat) (a b : ℚ), pic.1[k]? = some a ∧ pic.2[k]? = some b ∧ (e.fits r).objs = some [a, b] ∧
        ∀ (j : Nat) (a' b' : ℚ), pic.1[j]? = some a' → pic.2[j]? = some b' → ¬ Pareto ds [a', b'] [a, b] := by
  obtain ⟨pre, post, hsplit⟩ := List.append_of_mem he
  obtain ⟨pic, h3, h4, h5⟩ := C172_shows_partial hc hst hb hf hn h2 hrun he hp
  obtain ⟨pre', e1, front, hpre, hp1, hn1, -, hfr, vec, hvec, hiff⟩ := C55_pareto_front hc hf hrun hsplit hp hname hgen
  refine ⟨pic, front, h3, hfr, fun r hr => ?_⟩
  rcases (mevolve_prog hc hst hb hf () s' hrun).log pre e post hsplit hp with ⟨h, -⟩ | ⟨h | h, -⟩ |
    ⟨pre₂, e0, mid, e1', hpre₂, -, -, -, -, -, hcar⟩
  · rw [hname] at h; exact absurd h (by decide)
  · rw [hname] at h; exact absurd h (by decide)
  · omega
  obtain rfl : e1 = e1' := by
    rw [← List.cons_append, ← List.append_assoc, hpre] at hpre₂
    have := (List.append_inj' hpre₂ rfl).2
    simpa using this
  have hval : ∀ x v, e.Has x v → vec x = v := by
    intro x v hx
    have h6 := hcar.stays x v hx
    have := hvec x h6.1
    rw [h6.2] at this
    exact (Option.some.inj this).symm
  obtain ⟨hre, hnd⟩ := (hiff r).1 hr
  obtain ⟨k, hk⟩ := List.mem_iff_getElem?.1 hre
  obtain ⟨a, b, h6, h7, h8⟩ := h5.points k r hk
  refine ⟨k, a, b, h7, h8, h6, fun j a' b' ha' hb' hdom => ?_⟩
  have hj : j < e.inds.length := by
    rw [← h5.abscissae]
    exact (List.getElem?_eq_some_iff.1 ha').1
  have hjr := List.getElem?_eq_getElem hj
  obtain ⟨a'', b'', h9, h10, h11⟩ := h5.points j _ hjr
  obtain rfl : a' = a'' := Option.some.inj (ha'.symm.trans h10)
  obtain rfl : b' = b'' := Option.some.inj (hb'.symm.trans h11)
  have hy := hcar.stays _ _ ⟨List.mem_of_getElem? hjr, h9⟩
  refine hnd _ hy.1 ?_
  rw [hval _ _ ⟨List.mem_of_getElem? hjr, h9⟩, hval _ _ ⟨hre, h6⟩]
  exact hdom

/-! ## Examples -/

theorem exPlot_run : mevolve (exCfg true 1) exRun = (.ok (), (mevolve (exCfg true 1) exRun).2) := ok_pair (by decide +kernel)

example : ∀ e ∈ (mevolve (exCfg true 1) exRun).2.log, e.publisher = "algorithm" →
    ∃ pic, e.plot = .ok [pic] ∧ pic.1.length = 4 ∧ ShowsAll e.fits e.inds pic := fun _ he hp =>
  C172_shows_partial (exCfg_good true 1) (exCfg_steady true 1) rfl exRun_fresh (by decide) (fun _ => rfl) exPlot_run he hp

example := C172_final_partial (exCfg_good true 1) (exCfg_steady true 1) rfl exRun_fresh (by decide) (fun _ => rfl) exPlot_run

example {e : MEvent} (he : e ∈ (mevolve (exCfg true 1) exRun).2.log) := C172_front_partial (exCfg_good true 1) (exCfg_steady true 1) rfl
  exRun_fresh (by decide) (fun _ => rfl) exPlot_run he

/-- The events of the last theorem. -/
example : ((mevolve (exCfg true 1) exRun).2.log.any fun e => decide (e.publisher = "algorithm" ∧ e.name = "after_generation" ∧
    1 ≤ e.genNum ∧ e.bestOfGen.isSome)) = true := by decide +kernel

/-- **C172** is false of the code: with the default breeder the population halves in each generation, until there is nothing to
plot, and the plot raises. -/
theorem C172_refuted : ¬ C172_statement := by
  intro h
  have hrun : mevolve (exCfg false 3) exRun = (.ok (), (mevolve (exCfg false 3) exRun).2) := ok_pair (by decide +kernel)
  have h1 : ((mevolve (exCfg false 3) exRun).2.log.any fun e => decide (e.publisher = "algorithm" ∧ e.inds = [])) = true := by
    decide +kernel
  obtain ⟨e, he, h1⟩ := List.any_eq_true.1 h1
  rw [decide_eq_true_eq] at h1
  obtain ⟨pic, h2, -⟩ := h ℚ (exCfg false 3) 4 2 [false, true] _ exRun _ (exCfg_good false 3) (exCfg_steady false 3) exRun_fresh
    (by decide) (fun _ => rfl) hrun e he h1.1
  unfold MEvent.plot printPlots at h2
  rw [h1.2] at h2
  cases h2

/-- An individual with three objectives to be minimised. -/
def exNew3 (g : ℚ) : MM ℚ Nat := do
  let w ← PyM.get
  PyM.set { w with
    fits := fun x => if x = w.next then .new none (.each [false, false, false]) false false else w.fits x
    genome := fun x => if x = w.next then g else w.genome x
    next := w.next + 1 }
  PyM.pure w.next

/-- Three objectives. -/
def exCfg3 : MCfg ℚ :=
  { exCfg true 1 with sub := { (exCfg true 1).sub with create := mapL exNew3 [0, 3, 5, 7], evaluate := fun g => PyM.pure [g, -g, g * g] } }

theorem exCfg3_good : exCfg3.Good 4 3 [false, false, false] := by
  refine ⟨fun s hd => ?_, (exCfg_good true 1).ops, (exCfg_good true 1).sels, fun g t => wlp_pure.2 rfl, rfl, fun g k l => List.reverse_perm l⟩
  refine wlp.mono (wlp_mapL (I := fun (pre : List ℚ) (l : List Nat) s' => l.length = pre.length ∧ l.Nodup ∧
    Exist s' l ∧ AllDir 3 [false, false, false] s') ⟨rfl, List.nodup_nil, by intro r hr; simp at hr, hd⟩ ?_)
    (fun l s' h => ⟨h.1, h.2.1, h.2.2.1, h.2.2.2⟩)
  rintro pre x post l s₁ - ⟨h1, h2, h3, h4⟩
  unfold exNew3
  rw [wlp_bind, wlp_get, wlp_bind, wlp_set]
  refine wlp_pure.2 ⟨by simp [h1], ?_, ?_, ?_⟩
  · rw [List.nodup_append]
    refine ⟨h2, by simp, fun a ha b hb hab => ?_⟩
    simp only [List.mem_singleton] at hb
    have := h3 a ha
    omega
  · intro r hr
    simp only [List.mem_append, List.mem_singleton] at hr
    rcases hr with hr | rfl
    · exact Nat.lt_succ_of_lt (h3 r hr)
    · exact Nat.lt_succ_self _
  · intro r hr
    dsimp only at hr ⊢
    split
    · rfl
    · exact h4 r (by omega)

theorem exCfg3_steady : exCfg3.Steady fun g => [g, -g, g * g] :=
  ⟨(exCfg_steady true 1).ops, (exCfg_steady true 1).sels, fun _ _ => wlp_pure.2 rfl⟩

theorem exCfg3_run : mevolve exCfg3 exRun = (.ok (), (mevolve exCfg3 exRun).2) := ok_pair (by decide +kernel)

example : ∀ e ∈ (mevolve exCfg3 exRun).2.log, e.publisher = "algorithm" → e.plot = .ok [] := fun _ he hp =>
  C172_silent_partial exCfg3_good exCfg3_steady rfl ⟨rfl, fun r hr => absurd hr (Nat.not_lt_zero r), rfl, rfl⟩ (by decide)
    (fun _ => by simp) exCfg3_run he hp

end Verif.Moo
