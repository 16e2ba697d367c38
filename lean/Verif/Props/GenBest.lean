import Verif.Props.Run
import Verif.Lemmas.Legal

/-! # C91: `best_of_gen` and `worst_of_gen` -/

namespace Verif.Evo
open PyM
variable {G κ : Type} {c : Cfg G κ} {s s' : Run G κ}

/-- `b` is the first individual of `is` that no other beats, `w` the first that beats no other; all have a
fitness. -/
structure Extremes (size : G → Nat) (d : Bool) (heap : List (Ind G)) (is : List Nat) (b w : Nat) : Prop where
  evaluated : ∀ r ∈ is, ∃ x, HasScore size d (ofHeap heap) r x
  best : FirstBest (Beats size d (ofHeap heap)) is b
  worst : FirstBest (fun r p => Beats size d (ofHeap heap) p r) is w

/-- `best_of_gen` and `worst_of_gen` are those of the current population. -/
def Run.Ranked (size : G → Nat) (d : Bool) (s : Run G κ) : Prop :=
  ∃ is b w, s.inds = [some is] ∧ s.bestOfGen = some b ∧ s.worstOfGen = some w ∧
    Extremes size d s.w.heap is b w

/-- The population seen is not empty, all of its individuals have a fitness and are compared in the way `m`. -/
structure Settled (size : G → Nat) (m : Mode) (heap : List (Ind G)) (is : List Nat) : Prop where
  inhabited : is ≠ []
  mode : ∀ r ∈ is, modeAt (ofHeap heap) r = some m
  evaluated : ∀ r ∈ is, ∃ x, HasScore size m.hib (ofHeap heap) r x

/-- What is seen at the end of a generation: the population is settled, and from generation 1 on `best_of_gen`
is its first individual that no other beats. -/
def Shown (size : G → Nat) (m : Mode) (e : Snapshot G) : Prop :=
  ∃ is, e.inds = [some is] ∧ Settled size m e.heap is ∧
    (0 < e.genNum → ∃ b, e.bestOfGen = some b ∧ FirstBest (Beats size m.hib (ofHeap e.heap)) is b)

/-- That is what is seen at every `after_generation` event. -/
def RankedLog (size : G → Nat) (m : Mode) (log : List (Event G)) : Prop :=
  ∀ e ∈ log, e.publisher = "algorithm" → e.name = "after_generation" → Shown size m e.snap

theorem rankedLog_snoc {size : G → Nat} {m : Mode} {log : List (Event G)} {e : Event G}
    (h : RankedLog size m log) (he : e.publisher = "algorithm" → e.name = "after_generation" → Shown size m e.snap) :
    RankedLog size m (log ++ [e]) := by
  intro x hx
  rcases List.mem_append.1 hx with hx | hx
  · exact h x hx
  · rw [List.mem_singleton] at hx
    exact hx ▸ he

theorem rankedLog_push {size : G → Nat} {m : Mode} {p n : String} (h : RankedLog size m s.log)
    (hn : ¬ (p = "algorithm" ∧ n = "after_generation")) : RankedLog size m (s.push p n).log :=
  rankedLog_snoc h fun h1 h2 => absurd ⟨h1, h2⟩ hn

theorem hasScore_heap {size : G → Nat} {d : Bool} {w : World G} {r : Nat} {x : ℚ} :
    HasScore size d (ofHeap w.heap) r x ↔ HasScore size d w r x := hasScore_ofHeap

theorem firstBest_ofHeap {size : G → Nat} {d : Bool} {w : World G} {is : List Nat} {b : Nat}
    (h : FirstBest (Beats size d w) is b) : FirstBest (Beats size d (ofHeap w.heap)) is b := by
  obtain ⟨pre, post, hl, h1, h2⟩ := h
  exact ⟨pre, post, hl, fun p hp => beats_ofHeap.2 (h1 p hp), fun p hp hc => h2 p hp (beats_ofHeap.1 hc)⟩

theorem firstWorst_ofHeap {size : G → Nat} {d : Bool} {w : World G} {is : List Nat} {b : Nat}
    (h : FirstBest (fun r p => Beats size d w p r) is b) :
    FirstBest (fun r p => Beats size d (ofHeap w.heap) p r) is b := by
  obtain ⟨pre, post, hl, h1, h2⟩ := h
  exact ⟨pre, post, hl, fun p hp => beats_ofHeap.2 (h1 p hp), fun p hp hc => h2 p hp (beats_ofHeap.1 hc)⟩

/-- The breeder leaves the log in order. -/
theorem breed_ranked {size : G → Nat} {m : Mode} (h : RankedLog size m s.log) :
    tri (breed c) (fun _ s' => RankedLog size m s'.log) (fun s' => RankedLog size m s'.log) s := by
  unfold breed act breedBody
  refine tri_bind (tri_publish ?_)
  have h1 := rankedLog_push (p := "breeder") (n := "before_operator") h (by simp)
  generalize s.push "breeder" "before_operator" = s₁ at h1
  refine tri_bind (tri_bind (tri_get ?_))
  refine tri_bind (tri_world ((wlp_true _ _).mono fun _ w _ => ?_) fun w => h1)
  refine tri_modify (tri_bind (tri_publish (tri_pure ?_)))
  exact rankedLog_push (s := { s₁ with w := w, inds := _ }) h1 (by simp)

/-- A generation ends with the population ranked. -/
theorem generation_ranked {sub : SubCfg G} {m : Mode} (hc : c.Ordinary sub m)
    (ha : Alive c.size m s) (h : RankedLog c.size m s.log) :
    tri (generationIteration c) (fun _ s' => s'.Ranked c.size m.hib ∧ RankedLog c.size m s'.log)
      (fun s' => RankedLog c.size m s'.log) s := by
  unfold generationIteration
  refine tri_bind ?_
  have hb : tri (breed c) (fun _ s' => Bred c.size m s' ∧ RankedLog c.size m s'.log)
      (fun s' => RankedLog c.size m s'.log) s := by
    intro r s₁ e
    have g1 := breed_alive hc ha r s₁ e
    have g2 := breed_ranked (c := c) h r s₁ e
    cases r with
    | ok _ => exact ⟨g1, g2⟩
    | error _ => exact g2
  refine hb.mono fun _ s₁ ⟨h1, hl1⟩ => ?_
  refine tri_bind ?_
  unfold evaluatePopulation act
  refine tri_bind (tri_publish ?_)
  have hl2 := rankedLog_push (p := "population_evaluator") (n := "before_operator") hl1 (by simp)
  have h2 := h1.push (p := "population_evaluator") (n := "before_operator") (by simp)
  generalize s₁.push "population_evaluator" "before_operator" = s₂ at h2 hl2
  obtain ⟨is, hi, hn, hm⟩ := h2.alive.pop
  refine tri_bind ((evaluateBody_wlp hc hi hm (fun w => hl2)).mono ?_)
  rintro b _ ⟨w, rfl, -, -, -, hev, hfb⟩
  refine tri_bind (tri_publish (tri_pure ?_))
  have hl3 : RankedLog c.size m (({ s₂ with w := w } : Run G κ).push "population_evaluator" "after_operator").log :=
    rankedLog_push (s := { s₂ with w := w }) hl2 (by simp)
  have hw3 : (({ s₂ with w := w } : Run G κ).push "population_evaluator" "after_operator").w = w := rfl
  have hi3 : (({ s₂ with w := w } : Run G κ).push "population_evaluator" "after_operator").inds = [some is] := hi
  generalize ({ s₂ with w := w } : Run G κ).push "population_evaluator" "after_operator" = s₃ at hl3 hw3 hi3
  refine tri_bind (tri_modify ?_)
  refine tri_bind ?_
  have hrec : tri (recordBest c b) (fun _ s' => s'.w = w ∧ s'.inds = [some is] ∧ s'.bestOfGen = some b ∧
      RankedLog c.size m s'.log) (fun s' => RankedLog c.size m s'.log)
      ({ s₃ with bestOfGen := some b } : Run G κ) := by
    unfold recordBest
    refine tri_bind (tri_get ?_)
    refine tri_bind (tri_world (E := fun s' => RankedLog c.size m s'.log) ?_ fun w => hl3)
    rw [wlp_reading]
    intro v _
    refine tri_ite (fun _ => tri_modify ?_) (fun _ => tri_pure ?_)
    · exact ⟨hw3, hi3, rfl, hl3⟩
    · exact ⟨hw3, hi3, rfl, hl3⟩
  refine hrec.mono ?_
  rintro _ s₄ ⟨hw4, hi4, hb4, hl4⟩
  unfold recordWorst
  refine tri_bind (tri_get ?_)
  rw [hc.subs, hi4]
  dsimp only
  refine tri_bind (tri_world (E := fun s' => RankedLog c.size m s'.log) ?_ fun w => hl4)
  rw [wlp_reading]
  intro x hx
  refine tri_modify ⟨⟨is, b, x, hi4, hb4, rfl, ?_⟩, hl4⟩
  rw [← hw4] at hev hfb
  have hne : is ≠ [] := by
    rintro rfl
    exact absurd hfb.mem (by simp)
  have hd : sub.hib = m.hib := hc.dir.symm
  rw [hd] at hx
  obtain ⟨x', hx', hfw, -⟩ := C46_worst hev hne
  rw [hx'] at hx
  simp only [Except.ok.injEq] at hx
  subst hx
  exact ⟨fun r hr => (hev r hr).imp fun y hy => hasScore_heap.2 hy, firstBest_ofHeap hfb, firstWorst_ofHeap hfw⟩

theorem mainLoop_ranked {sub : SubCfg G} {m : Mode} (hc : c.Ordinary sub m) (n gen : Nat)
    (ha : Alive c.size m s) (h : RankedLog c.size m s.log) :
    tri (mainLoop c n gen) (fun _ s' => (n = 0 ∧ s' = s ∨ s'.Ranked c.size m.hib) ∧ RankedLog c.size m s'.log)
      (fun s' => RankedLog c.size m s'.log) s := by
  induction n generalizing gen s with
  | zero => exact tri_pure ⟨.inl ⟨rfl, rfl⟩, h⟩
  | succ n ih =>
    unfold mainLoop
    refine tri_bind (tri_modify ?_)
    have h0 : Alive c.size m { s with genNum := gen } := ⟨ha.log, ha.best, ha.pop⟩
    refine tri_bind ?_
    have hu : tri (updateGen gen) (fun _ s' => Alive c.size m s' ∧ RankedLog c.size m s'.log)
        (fun s' => RankedLog c.size m s'.log) ({ s with genNum := gen } : Run G κ) := by
      intro r s₁ e
      have g1 := updateGen_alive h0 gen r s₁ e
      have g2 : s₁.log = s.log := by
        have : Keeps (fun s : Run G κ => s.log) (updateGen (G := G) (κ := κ) gen) := by
          unfold updateGen
          refine Keeps.bind (fun _ => rfl) fun s => Keeps.forL (fun o => ?_) _
          cases o with
          | none => exact Keeps.raise _
          | some is =>
            intro s
            simp only [world, zoom]
        have := this { s with genNum := gen }
        rw [e] at this
        exact this
      cases r with
      | ok _ => exact ⟨g1, g2 ▸ h⟩
      | error _ => exact (show RankedLog c.size m s₁.log from g2 ▸ h)
    refine hu.mono fun _ s₁ ⟨h1, hl1⟩ => ?_
    refine tri_bind (tri_get ?_)
    refine tri_bind (tri_modify ?_)
    refine tri_bind (tri_modify ?_)
    refine tri_bind ?_
    have hg := tri_and (generation_ranked (s := { s₁ with w := { s₁.w with tape := c.stream (nextSeed s₁.genSeed) }, genSeed := nextSeed s₁.genSeed })
      hc ⟨h1.log, h1.best, h1.pop⟩ hl1) (tri.mono (E := fun _ => True) (R := fun _ s' => Alive c.size m s') (by
        intro r s₂ e
        have := generation_alive hc (s := { s₁ with w := { s₁.w with tape := c.stream (nextSeed s₁.genSeed) }, genSeed := nextSeed s₁.genSeed })
          ⟨h1.log, h1.best, h1.pop⟩ r s₂ e
        cases r with
        | ok _ => exact this
        | error _ => trivial) fun _ _ h => h)
    intro r s₂ e
    have g := hg r s₂ e
    cases r with
    | error _ => exact g.1
    | ok _ =>
    obtain ⟨⟨hr2, hl2⟩, ha2⟩ := g
    refine tri_bind ?_
    intro r s₃ e
    obtain ⟨ks, rfl⟩ : ∃ ks, s₃ = { s₂ with checkers := ks } := by
      unfold shouldTerminate at e
      split at e
      · simp only [Prod.mk.injEq] at e
        exact ⟨s₂.checkers, e.2.symm⟩
      · split at e
        · simp only [Prod.mk.injEq] at e
          exact ⟨_, e.2.symm⟩
        · simp only [Prod.mk.injEq] at e
          exact ⟨s₂.checkers, e.2.symm⟩
      · split at e <;> simp only [Prod.mk.injEq] at e <;> exact ⟨_, e.2.symm⟩
    cases r with
    | error _ => exact hl2
    | ok stop =>
    obtain ⟨is, b, x, e1, e2, e3, e4⟩ := hr2
    have hshown : Shown c.size m s₂.snapshot := by
      refine ⟨is, e1, ⟨?_, ?_, e4.evaluated⟩, fun _ => ⟨b, e2, e4.best⟩⟩
      · rintro rfl
        exact absurd e4.best.mem (by simp)
      · obtain ⟨is', h1, -, h3⟩ := ha2.pop
        rw [e1] at h1
        cases h1
        exact h3
    refine tri_ite (fun _ => ?_) (fun _ => ?_)
    · refine tri_bind (tri_modify (tri_publish ⟨.inr ⟨is, b, x, e1, e2, e3, e4⟩, ?_⟩))
      exact rankedLog_snoc (e := ⟨_, _, ({ s₂ with checkers := ks, finalGen := some gen } : Run G κ).snapshot⟩) hl2
        fun _ _ => hshown
    · refine tri_bind (tri_publish ?_)
      have hl4 : RankedLog c.size m (({ s₂ with checkers := ks } : Run G κ).push "algorithm" "after_generation").log :=
        rankedLog_snoc (e := ⟨_, _, ({ s₂ with checkers := ks } : Run G κ).snapshot⟩) hl2
          fun _ _ => hshown
      have ha4 : Alive c.size m (({ s₂ with checkers := ks } : Run G κ).push "algorithm" "after_generation") :=
        Alive.push (s := { s₂ with checkers := ks }) ⟨ha2.log, ha2.best, ha2.pop⟩ (by simp)
      refine (ih (gen + 1) ha4 hl4).mono ?_
      rintro _ s₅ ⟨(⟨-, rfl⟩ | h5), h6⟩
      · exact ⟨.inr ⟨is, b, x, e1, e2, e3, e4⟩, h6⟩
      · exact ⟨.inr h5, h6⟩

/-- The log of the initialisation contains no `after_generation` event; it leaves a settled population. -/
theorem initRun_ranked {sub : SubCfg G} {m : Mode} (hc : c.Ordinary sub m) (hr : s.Ready m) (hlog : s.log = []) :
    tri (initRun c) (fun _ s' => RankedLog c.size m s'.log ∧ s'.genNum = s.genNum ∧ s'.bestOfGen = s.bestOfGen ∧
      s'.worstOfGen = s.worstOfGen ∧ ∃ is, s'.inds = [some is] ∧ Settled c.size m s'.w.heap is)
      (fun s' => RankedLog c.size m s'.log) s := by
  have h0 : RankedLog c.size m s.log := by rw [hlog]; intro e he; simp at he
  unfold initRun
  refine tri_bind (tri_get (tri_bind (tri_modify ?_)))
  refine tri_bind ?_
  unfold createPopulation
  refine tri_bind (tri_get ?_)
  refine tri_bind (tri_world (E := fun s' => RankedLog c.size m s'.log) ?_ fun w => h0)
  obtain ⟨o, ho, hgood⟩ : ∃ o, s.inds = [o] ∧ ∀ is, o = some is → is.Nodup ∧ ∀ r ∈ is, modeAt s.w r = some m := by
    rcases hr with h | ⟨is, h, h1, h2⟩
    · exact ⟨none, h, by simp⟩
    · exact ⟨some is, h, by rintro is' h'; cases h'; exact ⟨h1, h2⟩⟩
  rw [hc.subs]
  dsimp only
  rw [ho]
  show wlp (mapL _ [(sub, o)]) _ _
  unfold mapL
  rw [wlp_bind]
  refine (createSub_ready hc.dir hc.creators o (w := { s.w with tape := c.stream s.randomSeed }) hgood).mono ?_
  rintro res w ⟨is, rfl, hn, hm⟩
  unfold mapL
  rw [wlp_bind, wlp_pure, wlp_pure]
  refine tri_modify ?_
  refine tri_bind ?_
  unfold evaluatePopulation act
  refine tri_bind (tri_publish ?_)
  have h1 : RankedLog c.size m (({ s with w := w, inds := [some is] } : Run G κ).push "population_evaluator" "before_operator").log :=
    rankedLog_push (s := { s with w := w, inds := [some is] }) h0 (by simp)
  refine tri_bind ((evaluateBody_wlp hc (is := is) rfl hm (fun w => h1)).mono ?_)
  rintro b _ ⟨w', rfl, e, -, -, hev, hfb⟩
  refine tri_bind (tri_publish (tri_pure ?_))
  refine tri_bind (tri_modify (tri_publish ⟨?_, rfl, rfl, rfl, is, rfl, ?_, ?_, ?_⟩))
  · exact rankedLog_snoc (e := ⟨_, _, _⟩) (rankedLog_push (s := { (({ s with w := w, inds := [some is] } : Run G κ).push
      "population_evaluator" "before_operator") with w := w' }) h1 (by simp)) (by simp)
  · rintro rfl
    exact absurd hfb.mem (by simp)
  · intro r hr
    show modeAt w' r = some m
    rw [modeAt_ext e (modeAt_lt (hm r hr))]
    exact hm r hr
  · exact fun r hr => (hev r hr).imp fun x hx => hasScore_ofHeap.2 hx

/-- Both in one statement. -/
theorem evolve_ranked {sub : SubCfg G} {m : Mode} (hc : c.Ordinary sub m) (hr : s.Ready m) (hlog : s.log = [])
    (hg : s.genNum = 0) :
    tri (evolve c) (fun _ s' => (s'.genNum = 0 ∧ s'.bestOfGen = s.bestOfGen ∧ s'.worstOfGen = s.worstOfGen ∨
      s'.Ranked c.size m.hib) ∧ RankedLog c.size m s'.log) (fun s' => RankedLog c.size m s'.log) s := by
  unfold evolve
  refine tri_bind ?_
  intro r s₁ e
  have g1 := initRun_alive hc hr hlog r s₁ e
  have g2 := initRun_ranked hc hr hlog r s₁ e
  cases r with
  | error _ => exact g2
  | ok _ =>
  obtain ⟨hl1, hg1, hb1, hw1, is₁, hi1, hs1⟩ := g2
  refine tri_bind ?_
  unfold afterInit
  refine tri.mono (Q := fun _ s' => (s'.genNum = 0 ∧ s'.bestOfGen = s.bestOfGen ∧ s'.worstOfGen = s.worstOfGen ∨
    s'.Ranked c.size m.hib) ∧ RankedLog c.size m s'.log) ?_ ?_
  · refine tri_bind (tri_get (tri_bind ?_))
    intro r s₂ e
    obtain ⟨ks, rfl⟩ : ∃ ks, s₂ = { s₁ with checkers := ks } := by
      unfold shouldTerminate at e
      split at e
      · simp only [Prod.mk.injEq] at e
        exact ⟨s₁.checkers, e.2.symm⟩
      · split at e
        · simp only [Prod.mk.injEq] at e
          exact ⟨_, e.2.symm⟩
        · simp only [Prod.mk.injEq] at e
          exact ⟨s₁.checkers, e.2.symm⟩
      · split at e <;> simp only [Prod.mk.injEq] at e <;> exact ⟨_, e.2.symm⟩
    cases r with
    | error _ => exact hl1
    | ok stop =>
    refine tri_ite (fun _ => ?_) (fun _ => ?_)
    · refine tri_bind (tri_modify (tri_publish ⟨.inl ⟨hg1.trans hg, hb1, hw1⟩, ?_⟩))
      refine rankedLog_snoc (e := ⟨_, _, ({ s₁ with checkers := ks, finalGen := some 0 } : Run G κ).snapshot⟩) hl1
        fun _ _ => ⟨is₁, hi1, hs1, fun h => ?_⟩
      have : s₁.genNum = 0 := hg1.trans hg
      have h' : 0 < s₁.genNum := h
      omega
    · refine (mainLoop_ranked hc c.maxGen 1 (s := { s₁ with checkers := ks }) ⟨g1.log, g1.best, g1.pop⟩ hl1).mono ?_
      rintro _ s₃ ⟨(⟨-, rfl⟩ | h3), h4⟩
      · exact ⟨.inl ⟨hg1.trans hg, hb1, hw1⟩, h4⟩
      · exact ⟨.inr h3, h4⟩
  · rintro _ s₃ ⟨h3, h4⟩
    refine tri_bind (tri_publish (tri_modify ⟨?_, ?_⟩))
    · rcases h3 with h3 | ⟨is, b, w, e1, e2, e3, e4⟩
      · exact .inl h3
      · exact .inr ⟨is, b, w, e1, e2, e3, e4⟩
    · exact rankedLog_push (s := s₃) h4 (by simp)

/-- C91: whenever an `after_generation` event is published — also in runs that raise afterwards — the population
has individuals, all of which have a fitness, and in generation 1 or later `best_of_gen` is the first individual
of the current population that no other beats. -/
theorem C91_events {sub : SubCfg G} {m : Mode} (hc : c.Ordinary sub m) (hr : s.Ready m) (hlog : s.log = [])
    (hg : s.genNum = 0) {r : Except Err Unit} (h : evolve c s = (r, s')) : RankedLog c.size m s'.log := by
  have := evolve_ranked hc hr hlog hg r s' h
  cases r with
  | ok _ => exact this.2
  | error _ => exact this

/-- C91: at the end of a run with at least one generation, `best_of_gen` and `worst_of_gen` are the first best
and the first worst individual of the final population; a run that stops before the first generation leaves
both attributes alone. -/
theorem C91_end {sub : SubCfg G} {m : Mode} (hc : c.Ordinary sub m) (hr : s.Ready m) (hlog : s.log = [])
    (hg : s.genNum = 0) (h : evolve c s = (.ok (), s')) :
    (0 < s'.genNum → s'.Ranked c.size m.hib) ∧
    (s'.Ranked c.size m.hib ∨ s'.bestOfGen = s.bestOfGen ∧ s'.worstOfGen = s.worstOfGen) := by
  have := evolve_ranked hc hr hlog hg _ s' h
  rcases this.1 with ⟨h1, h2, h3⟩ | h1
  · exact ⟨fun h => by omega, .inr ⟨h2, h3⟩⟩
  · exact ⟨fun _ => h1, .inl h1⟩

example := C91_end exCfg_ordinary (.inl rfl) (s := exRun) rfl rfl (s' := (evolve exCfg exRun).2) (ran exRun_ends.1)

/-- In the example, best and worst of the last generation are different individuals. -/
example : (evolve exCfg exRun).2.bestOfGen ≠ (evolve exCfg exRun).2.worstOfGen ∧ 0 < (evolve exCfg exRun).2.genNum := by
  decide +kernel

end Verif.Evo
