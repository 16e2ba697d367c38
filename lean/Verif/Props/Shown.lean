import Verif.Props.Progress

/-! # C115: what the population shows at the events of the algorithm -/

namespace Verif.Evo
open PyM
variable {G κ : Type} {c : Cfg G κ} {sub : SubCfg G} {m : Mode} {s s' : Run G κ} {f : G → Except Err ℚ}

/-- If the algorithm publishes the event, the population is there, and every individual of it is evaluated and has the
fitness of its own genome. -/
def AsEvaluated (f : G → Except Err ℚ) (m : Mode) (e : Event G) : Prop :=
  e.publisher = "algorithm" → ∃ is, e.snap.inds = [some is] ∧ PopValued f m e.snap.heap is

/-- The invariant: all events so far are as they should be, and so is the population. -/
structure Current (f : G → Except Err ℚ) (m : Mode) (s : Run G κ) : Prop where
  log : LogE (AsEvaluated f m) s
  pop : ∃ is, s.inds = [some is] ∧ PopValued f m s.w.heap is

theorem Current.push {p n : String} (h : Current f m s) : Current f m (s.push p n) :=
  ⟨h.log.push fun _ => h.pop, h.pop⟩

theorem PopValued.congr {h₁ h₂ : List (Ind G)} {is : List Nat} (h : PopValued f m h₁ is)
    (hg : ∀ r, essence h₂ r = essence h₁ r) : PopValued f m h₂ is := by
  intro r hr
  obtain ⟨i, q, e1, e2, e3, e4, e5⟩ := h r hr
  have := hg r
  unfold essence at this
  rw [e1] at this
  cases hj : h₂[r]? with
  | none => rw [hj] at this; simp at this
  | some j =>
    rw [hj] at this
    simp only [Option.map_some, Option.some.injEq, Prod.mk.injEq] at this
    refine ⟨j, q, rfl, by rw [this.2.1]; exact e2, by rw [this.2.2]; exact e3, by rw [this.2.2]; exact e4, ?_⟩
    unfold Ind.mode at e5 ⊢
    rw [this.2.2]
    exact e5

theorem breed_shown (h : LogE (AsEvaluated f m) s) : tri (breed c) (fun _ => LogE (AsEvaluated f m)) (LogE (AsEvaluated f m)) s := by
  unfold breed act
  refine tri_bind (tri_publish ?_)
  have h1 : LogE (AsEvaluated f m) (s.push "breeder" "before_operator") := h.push (by simp [AsEvaluated])
  refine tri_bind ((tri_silent ?_ h1).mono fun _ s₂ h2 => tri_bind (tri_publish (tri_pure ?_)))
  · unfold breedBody
    exact silent_bind silent_get fun _ => silent_bind (silent_world _) fun _ _ => rfl
  · exact h2.push (by simp [AsEvaluated])

theorem evaluate_shown (hc : c.Ordinary sub m) (hd : sub.Computes f) {is : List Nat} (hi : s.inds = [some is])
    (hm : ∀ r ∈ is, modeAt s.w r = some m) (h : LogE (AsEvaluated f m) s) :
    tri (evaluatePopulation c) (fun _ => Current f m) (LogE (AsEvaluated f m)) s := by
  unfold evaluatePopulation act
  refine tri_bind (tri_publish ?_)
  have h1 : LogE (AsEvaluated f m) (s.push "population_evaluator" "before_operator") := h.push (by simp [AsEvaluated])
  have hi1 : (s.push "population_evaluator" "before_operator").inds = [some is] := hi
  have hm1 : ∀ r ∈ is, modeAt (s.push "population_evaluator" "before_operator").w r = some m := hm
  generalize s.push "population_evaluator" "before_operator" = s₁ at h1 hi1 hm1
  refine tri_bind ?_
  intro r s₂ e
  have h2 := tri_and (evaluateBody_wlp hc hi1 hm1 (E := fun _ => True) (fun _ => trivial))
    (tri_silent evaluateBody_silent h1) r s₂ e
  cases r with
  | error _ => exact h2.2
  | ok b =>
  have hval := (valued_prop hc hd).body s₁ is hi1 hm1 b s₂ e ⟨rfl, rfl⟩
  obtain ⟨⟨w, rfl, -⟩, hl⟩ := h2
  have hpv : PopValued f m w.heap is := fun r hr => hval r ⟨is, by show some is ∈ s₁.inds; rw [hi1]; simp, hr⟩
  exact tri_bind (tri_publish (tri_pure ⟨hl.push (by simp [AsEvaluated]), is, hi1, hpv⟩))

theorem recordBest_shown {b : Nat} (h : Current f m s) : tri (recordBest c b) (fun _ => Current f m) (LogE (AsEvaluated f m)) s := by
  unfold recordBest
  refine tri_bind (tri_get ?_)
  refine tri_bind (tri_world (E := LogE (AsEvaluated f m)) ?_ fun w => h.log)
  rw [wlp_reading]
  intro v _
  exact tri_ite (fun _ => tri_modify ⟨h.log, h.pop⟩) (fun _ => tri_pure h)

theorem recordWorst_shown (h : Current f m s) : tri (recordWorst c) (fun _ => Current f m) (LogE (AsEvaluated f m)) s := by
  unfold recordWorst
  refine tri_bind (tri_get ?_)
  split
  · refine tri_bind (tri_world (E := LogE (AsEvaluated f m)) ?_ fun w => h.log)
    rw [wlp_reading]
    intro v _
    exact tri_modify ⟨h.log, h.pop⟩
  · exact tri_raise h.log

theorem generation_shown (hc : c.Ordinary sub m) (hd : sub.Computes f) (ha : Alive c.size m s) (h : LogE (AsEvaluated f m) s) :
    tri (generationIteration c) (fun _ => Current f m) (LogE (AsEvaluated f m)) s := by
  unfold generationIteration
  refine tri_bind ?_
  intro r s₁ e
  have h1 := tri_and (breed_alive hc ha) (breed_shown (f := f) (m := m) h) r s₁ e
  cases r with
  | error _ => exact h1.2
  | ok _ =>
    obtain ⟨hb, h1⟩ := h1
    obtain ⟨is, hi, hn, hm⟩ := hb.alive.pop
    refine tri_bind ((evaluate_shown hc hd hi hm h1).mono fun b s₂ h2 => tri_bind (tri_modify ?_))
    have h3 : Current f m { s₂ with bestOfGen := some b } := ⟨h2.log, h2.pop⟩
    exact tri_bind ((recordBest_shown h3).mono fun _ s₃ h4 => recordWorst_shown h4)

theorem updateGen_shown (h : Current f m s) (gen : Nat) : tri (updateGen gen) (fun _ => Current f m) (LogE (AsEvaluated f m)) s := by
  obtain ⟨is, hi, hv⟩ := h.pop
  unfold updateGen
  refine tri_bind (tri_get ?_)
  rw [hi]
  unfold forL
  refine tri_bind (tri_world (E := LogE (AsEvaluated f m)) ?_ fun w => h.log)
  refine (wlp_forL (I := fun _ (w : World G) => ∀ r, essence w.heap r = essence s.w.heap r) (fun _ => rfl) ?_).mono
    fun _ w hw => ?_
  · rintro pre a post w _ hw
    rw [wlp_update]
    intro r
    rw [← hw r]
    exact essence_modify fun i => ⟨rfl, rfl, rfl⟩
  · unfold forL
    exact tri_pure ⟨h.log, is, hi, hv.congr hw⟩

theorem shouldTerminate_shown (h : Current f m s) (gen : Nat) :
    tri (shouldTerminate c gen) (fun _ => Current f m) (LogE (AsEvaluated f m)) s := by
  intro r s' e
  obtain ⟨ks, rfl⟩ := shouldTerminate_same gen r s' e
  cases r with
  | ok _ => exact ⟨h.log, h.pop⟩
  | error _ => exact h.log

theorem mainLoop_shown (hc : c.Ordinary sub m) (hd : sub.Computes f) (n gen : Nat) {s : Run G κ} (ha : Alive c.size m s)
    (h : Current f m s) : tri (mainLoop c n gen) (fun _ => Current f m) (LogE (AsEvaluated f m)) s := by
  induction n generalizing gen s with
  | zero => exact tri_pure h
  | succ n ih =>
    unfold mainLoop
    refine tri_bind (tri_modify ?_)
    have ha0 : Alive c.size m { s with genNum := gen } := ⟨ha.log, ha.best, ha.pop⟩
    have h0 : Current f m { s with genNum := gen } := ⟨h.log, h.pop⟩
    refine tri_bind ?_
    intro r s₁ e
    have g1 := tri_and (updateGen_alive ha0 gen) (updateGen_shown h0 gen) r s₁ e
    cases r with
    | error _ => exact g1.2
    | ok _ =>
    obtain ⟨ha1, h1⟩ := g1
    refine tri_bind (tri_get ?_)
    refine tri_bind (tri_modify ?_)
    refine tri_bind (tri_modify ?_)
    refine tri_bind ?_
    have ha1' : Alive c.size m { s₁ with w := { s₁.w with tape := c.stream (nextSeed s₁.genSeed) }, genSeed := nextSeed s₁.genSeed } :=
      ⟨ha1.log, ha1.best, ha1.pop⟩
    have h1' : LogE (AsEvaluated f m) { s₁ with w := { s₁.w with tape := c.stream (nextSeed s₁.genSeed) }, genSeed := nextSeed s₁.genSeed } := h1.log
    intro r s₂ e
    have g2 := tri_and (generation_alive hc ha1') (generation_shown hc hd ha1' h1') r s₂ e
    cases r with
    | error _ => exact g2.2
    | ok _ =>
    obtain ⟨ha2, h2⟩ := g2
    refine tri_bind ?_
    intro r s₃ e
    have g3 := tri_and (shouldTerminate_alive ha2 gen) (shouldTerminate_shown h2 gen) r s₃ e
    cases r with
    | error _ => exact g3.2
    | ok stop =>
    obtain ⟨ha3, h3⟩ := g3
    refine tri_ite (fun _ => ?_) (fun _ => ?_)
    · refine tri_bind (tri_modify (tri_publish ?_))
      exact Current.push (s := { s₃ with finalGen := some gen }) ⟨h3.log, h3.pop⟩
    · exact tri_bind (tri_publish (ih _ (ha3.push (by simp)) h3.push))

theorem initRun_shown (hc : c.Ordinary sub m) (hd : sub.Computes f) (hr : s.Ready m) (h : LogE (AsEvaluated f m) s) :
    tri (initRun c) (fun _ => Current f m) (LogE (AsEvaluated f m)) s := by
  unfold initRun
  refine tri_bind (tri_get ?_)
  refine tri_bind (tri_modify ?_)
  refine tri_bind ?_
  unfold createPopulation
  refine tri_bind (tri_get ?_)
  refine tri_bind (tri_world (E := LogE (AsEvaluated f m)) ?_ fun w => h)
  obtain ⟨o, ho, hgood⟩ : ∃ o, s.inds = [o] ∧ ∀ is, o = some is → is.Nodup ∧ ∀ r ∈ is, modeAt s.w r = some m := by
    rcases hr with h | ⟨is, h, h1, h2⟩
    · exact ⟨none, h, by simp⟩
    · exact ⟨some is, h, by rintro is' h'; cases h'; exact ⟨h1, h2⟩⟩
  rw [hc.subs]
  dsimp only
  rw [ho]
  show wlp (mapL _ [(sub, o)]) _ _
  unfold mapL
  rw [wlp_bind]
  refine (createSub_ready hc.dir hc.creators o (w := { s.w with tape := c.stream s.randomSeed }) hgood).mono ?_
  rintro res w ⟨is, rfl, hn, hm⟩
  unfold mapL
  rw [wlp_bind, wlp_pure, wlp_pure]
  refine tri_modify ?_
  have h1 : LogE (AsEvaluated f m) { s with w := w, inds := [some is] } := h
  refine tri_bind ((evaluate_shown hc hd (is := is) rfl hm h1).mono fun b s₂ h2 => ?_)
  refine tri_bind (tri_modify (tri_publish ?_))
  exact Current.push (s := { s₂ with bestOfRun := some b }) ⟨h2.log, h2.pop⟩

theorem evolve_shown (hc : c.Ordinary sub m) (hd : sub.Computes f) (hr : s.Ready m) (hlog : s.log = []) :
    tri (evolve c) (fun _ => Current f m) (LogE (AsEvaluated f m)) s := by
  have h0 : LogE (AsEvaluated f m) s := by intro e he; rw [hlog] at he; simp at he
  unfold evolve
  refine tri_bind ?_
  intro r s₁ e
  have g1 := tri_and (initRun_alive hc hr hlog) (initRun_shown hc hd hr h0) r s₁ e
  cases r with
  | error _ => exact g1.2
  | ok _ =>
  obtain ⟨ha1, h1⟩ := g1
  refine tri_bind (tri.mono (Q := fun _ s₂ => Current f m s₂) ?_ fun _ s₂ h2 => ?_)
  · unfold afterInit
    refine tri_bind (tri_get (tri_bind ?_))
    intro r s₃ e
    have g3 := tri_and (shouldTerminate_alive ha1 s₁.genNum) (shouldTerminate_shown h1 s₁.genNum) r s₃ e
    cases r with
    | error _ => exact g3.2
    | ok v =>
    obtain ⟨ha3, h3⟩ := g3
    refine tri_ite (fun _ => tri_bind (tri_modify (tri_publish ?_))) (fun _ => mainLoop_shown hc hd _ _ ha3 h3)
    exact Current.push (s := { s₃ with finalGen := some 0 }) ⟨h3.log, h3.pop⟩
  · refine tri_bind (tri_publish (tri_modify ?_))
    have := h2.push (p := "algorithm") (n := "evolution_finished")
    exact ⟨this.log, this.pop⟩

/-- C115: whenever the algorithm publishes an event — `init`, `after_generation` or `evolution_finished`, also in runs that
raise afterwards — its population consists of individuals that are all marked as evaluated, and the fitness value of each is
the one the evaluator computes for the genome it has at that moment. -/
theorem C115_events (hc : c.Ordinary sub m) (hd : sub.Computes f) (hr : s.Ready m) (hlog : s.log = []) (r : Except Err Unit)
    (h : evolve c s = (r, s')) : ∀ e ∈ s'.log, e.publisher = "algorithm" →
      ∃ is, e.snap.inds = [some is] ∧ ∀ x ∈ is, ∃ i q, e.snap.heap[x]? = some i ∧ f i.genome = .ok q ∧
        i.fit.value = .num q ∧ i.fit.evaluated = true := by
  intro e he hp
  have key : LogE (AsEvaluated f m) s' := by
    have := evolve_shown hc hd hr hlog r s' h
    cases r with
    | ok _ => exact Current.log this
    | error _ => exact this
  obtain ⟨is, hi, hv⟩ := key e he hp
  refine ⟨is, hi, fun x hx => ?_⟩
  obtain ⟨i, q, h1, h2, h3, h4, -⟩ := hv x hx
  exact ⟨i, q, h1, h2, h3, h4⟩

/-- C115: the same is true of the population that is there after a run that has ended normally. -/
theorem C115_end (hc : c.Ordinary sub m) (hd : sub.Computes f) (hr : s.Ready m) (hlog : s.log = [])
    (h : evolve c s = (.ok (), s')) : ∃ is, s'.inds = [some is] ∧ ∀ x ∈ is, ∃ i q, s'.w.heap[x]? = some i ∧
      f i.genome = .ok q ∧ i.fit.value = .num q ∧ i.fit.evaluated = true := by
  obtain ⟨is, hi, hv⟩ := (evolve_shown hc hd hr hlog _ s' h).pop
  refine ⟨is, hi, fun x hx => ?_⟩
  obtain ⟨i, q, h1, h2, h3, h4, -⟩ := hv x hx
  exact ⟨i, q, h1, h2, h3, h4⟩

example := C115_events (c := progCfg halve) (sub := progSub halve) (progCfg_ordinary halve_good) (f := fun g => .ok (g : ℚ)) (fun _ _ => rfl)
  progRun_ready rfl _ (ran prog_halve_ends)

example := C115_end (c := progCfg halve) (sub := progSub halve) (progCfg_ordinary halve_good) (f := fun g => .ok (g : ℚ)) (fun _ _ => rfl)
  progRun_ready rfl (ran prog_halve_ends)

end Verif.Evo
