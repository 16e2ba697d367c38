import Verif.Props.Generations

/-! # The size of the population during a run, and which individuals are evaluated

The invariant behind C129: every event shows the same number of distinct individuals, and no individual is shown at the end
of two evaluations. -/

namespace Verif.Evo
open PyM
variable {G κ : Type} {c : Cfg G κ} {sub : SubCfg G} {m : Mode} {s s' : Run G κ} {N : Nat}

/-- Every event shows a population of `N` distinct individuals; the populations at the ends of evaluations have no individual
in common. -/
structure Paced (N : Nat) (log : List (Event G)) : Prop where
  size : ∀ e ∈ log, ∃ is, e.snap.inds = [some is] ∧ is.length = N ∧ is.Nodup
  once : log.Pairwise fun e e' => e.IsEval → e'.IsEval → ∀ r, e.Shows r → ¬ e'.Shows r

/-- The invariant. -/
structure Steady (N : Nat) (s : Run G κ) : Prop where
  log : Paced N s.log
  pop : ∃ is, s.inds = [some is] ∧ is.length = N ∧ is.Nodup

/-- The part of it that survives exceptions. -/
abbrev PacedLog (N : Nat) (s : Run G κ) : Prop := Paced N s.log

theorem Steady.add {p n : String} (h : Steady N s)
    (hb : p = "population_evaluator" → n = "after_operator" → ∀ e ∈ s.log, e.IsEval → ∀ r, e.Shows r → ∀ is, some is ∈ s.inds → r ∉ is) :
    Steady N (s.push p n) where
  log := by
    refine ⟨fun e he => ?_, ?_⟩
    · simp only [Run.push, List.mem_append, List.mem_singleton] at he
      rcases he with he | rfl
      · exact h.log.size e he
      · exact h.pop
    · show (s.log ++ [_]).Pairwise _
      rw [List.pairwise_append]
      refine ⟨h.log.once, List.pairwise_singleton _ _, fun e he e' he' => ?_⟩
      rw [List.mem_singleton] at he'
      subst he'
      rintro he1 ⟨rfl, rfl⟩ r hr ⟨is, hi, hr'⟩
      exact hb rfl rfl e he he1 r hr is hi hr'
  pop := h.pop

theorem Steady.push {p n : String} (h : Steady N s) (hb : ¬ (p = "population_evaluator" ∧ n = "after_operator")) :
    Steady N (s.push p n) := h.add fun h1 h2 => absurd ⟨h1, h2⟩ hb

theorem Steady.same {t : Run G κ} (h : Steady N s) (hl : t.log = s.log) (hi : t.inds = s.inds) : Steady N t where
  log := by rw [hl]; exact h.log
  pop := by rw [hi]; exact h.pop

theorem breed_steady (hc : c.Ordinary sub m) (ha : Alive c.size m s) (h : Steady N s) :
    tri (breed c) (fun _ => Steady N) (PacedLog N) s := by
  unfold breed act
  refine tri_bind (tri_publish ?_)
  have h1 := h.push (p := "breeder") (n := "before_operator") (by simp)
  have ha1 := ha.push (p := "breeder") (n := "before_operator") (by simp)
  generalize s.push "breeder" "before_operator" = s₁ at h1 ha1
  refine tri_bind ?_
  unfold breedBody
  refine tri_bind (tri_get ?_)
  obtain ⟨is, hi, hn, hm⟩ := ha1.pop
  refine tri_bind (tri_world (E := PacedLog N) ?_ fun w => h1.log)
  rw [hc.subs, hi]
  show wlp (breedAll c.size [(sub, some is)]) _ _
  unfold breedAll
  rw [wlp_bind]
  refine (breedSub_wlp hc.sels hc.ops hm).mono fun res w hb => ?_
  unfold breedAll
  rw [wlp_bind, wlp_pure, wlp_pure]
  refine tri_modify (tri_bind (tri_publish (tri_pure ?_)))
  have hN : is.length = N := by
    obtain ⟨js, hj, hl, -⟩ := h1.pop
    rw [hi] at hj
    simp only [List.cons.injEq, Option.some.injEq, and_true] at hj
    rw [hj, hl]
  exact Steady.push (s := { s₁ with w := w, inds := [some res] }) ⟨h1.log, res, rfl, hb.length.trans hN, hb.nodup⟩ (by simp)

theorem evaluate_steady (hc : c.Ordinary sub m) {is : List Nat} (hi : s.inds = [some is])
    (hm : ∀ r ∈ is, modeAt s.w r = some m) (hu : ∀ e ∈ s.log, e.IsEval → ∀ r ∈ is, ¬ e.Shows r) (h : Steady N s) :
    tri (evaluatePopulation c) (fun _ => Steady N) (PacedLog N) s := by
  unfold evaluatePopulation act
  refine tri_bind (tri_publish ?_)
  have h1 := h.push (p := "population_evaluator") (n := "before_operator") (by simp)
  have hi1 : (s.push "population_evaluator" "before_operator").inds = [some is] := hi
  have hm1 : ∀ r ∈ is, modeAt (s.push "population_evaluator" "before_operator").w r = some m := hm
  have hu1 : ∀ e ∈ (s.push "population_evaluator" "before_operator").log, e.IsEval → ∀ r ∈ is, ¬ e.Shows r := by
    intro e he hev r hr
    simp only [Run.push, List.mem_append, List.mem_singleton] at he
    rcases he with he | rfl
    · exact hu e he hev r hr
    · exact absurd hev.2 (by simp)
  generalize s.push "population_evaluator" "before_operator" = s₁ at h1 hi1 hm1 hu1
  refine tri_bind ((evaluateBody_wlp hc hi1 hm1 (E := PacedLog N) (fun w => h1.log)).mono ?_)
  rintro b _ ⟨w, rfl, -, -, hlen, -⟩
  have h2 : Steady N { s₁ with w := w } := h1.same rfl rfl
  refine tri_bind (tri_publish (tri_pure (h2.add fun _ _ e he hev r hr js hj hr' => ?_)))
  have hj' : some js ∈ s₁.inds := hj
  rw [hi1] at hj'
  simp only [List.mem_singleton, Option.some.injEq] at hj'
  exact hu1 e he hev r (hj' ▸ hr') hr

theorem recordBest_steady {b : Nat} (h : Steady N s) : tri (recordBest c b) (fun _ => Steady N) (PacedLog N) s := by
  unfold recordBest
  refine tri_bind (tri_get ?_)
  refine tri_bind (tri_world (E := PacedLog N) ?_ fun w => h.log)
  rw [wlp_reading]
  intro v _
  exact tri_ite (fun _ => tri_modify (h.same rfl rfl)) (fun _ => tri_pure h)

theorem recordWorst_steady (h : Steady N s) : tri (recordWorst c) (fun _ => Steady N) (PacedLog N) s := by
  unfold recordWorst
  refine tri_bind (tri_get ?_)
  split
  · refine tri_bind (tri_world (E := PacedLog N) ?_ fun w => h.log)
    rw [wlp_reading]
    intro v _
    exact tri_modify (h.same rfl rfl)
  · exact tri_raise h.log

theorem generation_steady (hc : c.Ordinary sub m) (ha : Alive c.size m s) (h : Steady N s) :
    tri (generationIteration c) (fun _ => Steady N) (PacedLog N) s := by
  unfold generationIteration
  refine tri_bind ?_
  intro r s₁ e
  have h1 := tri_and (breed_alive hc ha) (breed_steady hc ha h) r s₁ e
  cases r with
  | error _ => exact h1.2
  | ok _ =>
    obtain ⟨hb, h1⟩ := h1
    obtain ⟨is, hi, hn, hm⟩ := hb.alive.pop
    refine tri_bind ((evaluate_steady hc hi hm (hb.unseen is hi) h1).mono fun b s₂ h2 => tri_bind (tri_modify ?_))
    have h3 : Steady N { s₂ with bestOfGen := some b } := h2.same rfl rfl
    exact tri_bind ((recordBest_steady h3).mono fun _ s₃ h4 => recordWorst_steady h4)

theorem updateGen_steady (h : Steady N s) {is : List Nat} (hi : s.inds = [some is]) (gen : Nat) :
    tri (updateGen gen) (fun _ => Steady N) (PacedLog N) s := by
  unfold updateGen
  refine tri_bind (tri_get ?_)
  rw [hi]
  unfold forL
  refine tri_bind (tri_world (E := PacedLog N) ?_ fun w => h.log)
  refine (wlp_true _ _).mono fun _ w _ => ?_
  unfold forL
  exact tri_pure (h.same rfl rfl)

theorem shouldTerminate_steady (h : Steady N s) (gen : Nat) : tri (shouldTerminate c gen) (fun _ => Steady N) (PacedLog N) s := by
  intro r s' e
  obtain ⟨ks, rfl⟩ := shouldTerminate_same gen r s' e
  cases r with
  | ok _ => exact h.same rfl rfl
  | error _ => exact h.log

theorem mainLoop_steady (hc : c.Ordinary sub m) (n gen : Nat) {s : Run G κ} (ha : Alive c.size m s) (h : Steady N s) :
    tri (mainLoop c n gen) (fun _ => Steady N) (PacedLog N) s := by
  induction n generalizing gen s with
  | zero => exact tri_pure h
  | succ n ih =>
    unfold mainLoop
    refine tri_bind (tri_modify ?_)
    have ha0 : Alive c.size m { s with genNum := gen } := ⟨ha.log, ha.best, ha.pop⟩
    have h0 : Steady N { s with genNum := gen } := h.same rfl rfl
    obtain ⟨is, hi, -⟩ := ha0.pop
    refine tri_bind ?_
    intro r s₁ e
    have g1 := tri_and (updateGen_alive ha0 gen) (updateGen_steady h0 hi gen) r s₁ e
    cases r with
    | error _ => exact g1.2
    | ok _ =>
    obtain ⟨ha1, h1⟩ := g1
    refine tri_bind (tri_get ?_)
    refine tri_bind (tri_modify ?_)
    refine tri_bind (tri_modify ?_)
    refine tri_bind ?_
    have ha1' : Alive c.size m { s₁ with w := { s₁.w with tape := c.stream (nextSeed s₁.genSeed) }, genSeed := nextSeed s₁.genSeed } :=
      ⟨ha1.log, ha1.best, ha1.pop⟩
    have h1' : Steady N { s₁ with w := { s₁.w with tape := c.stream (nextSeed s₁.genSeed) }, genSeed := nextSeed s₁.genSeed } :=
      h1.same rfl rfl
    intro r s₂ e
    have g2 := tri_and (generation_alive hc ha1') (generation_steady hc ha1' h1') r s₂ e
    cases r with
    | error _ => exact g2.2
    | ok _ =>
    obtain ⟨ha2, h2⟩ := g2
    refine tri_bind ?_
    intro r s₃ e
    have g3 := tri_and (shouldTerminate_alive ha2 gen) (shouldTerminate_steady h2 gen) r s₃ e
    cases r with
    | error _ => exact g3.2
    | ok stop =>
    obtain ⟨ha3, h3⟩ := g3
    refine tri_ite (fun _ => ?_) (fun _ => ?_)
    · refine tri_bind (tri_modify (tri_publish ?_))
      exact Steady.push (s := { s₃ with finalGen := some gen }) (h3.same rfl rfl) (by simp)
    · exact tri_bind (tri_publish (ih _ (ha3.push (by simp)) (h3.push (by simp))))

theorem Paced.nil : Paced N ([] : List (Event G)) := ⟨by simp, List.Pairwise.nil⟩

theorem initRun_steady (hc : c.Ordinary sub m) (hr : s.Ready m) (hlog : s.log = []) :
    tri (initRun c) (fun _ s' => ∃ N, Steady N s') (fun s' => ∃ N, PacedLog N s') s := by
  unfold initRun
  refine tri_bind (tri_get ?_)
  refine tri_bind (tri_modify ?_)
  refine tri_bind ?_
  unfold createPopulation
  refine tri_bind (tri_get ?_)
  refine tri_bind (tri_world (E := fun s' => ∃ N, PacedLog N s') ?_ fun w => ⟨0, by show Paced 0 s.log; rw [hlog]; exact Paced.nil⟩)
  obtain ⟨o, ho, hgood⟩ : ∃ o, s.inds = [o] ∧ ∀ is, o = some is → is.Nodup ∧ ∀ r ∈ is, modeAt s.w r = some m := by
    rcases hr with h | ⟨is, h, h1, h2⟩
    · exact ⟨none, h, by simp⟩
    · exact ⟨some is, h, by rintro is' h'; cases h'; exact ⟨h1, h2⟩⟩
  rw [hc.subs]
  dsimp only
  rw [ho]
  show wlp (mapL _ [(sub, o)]) _ _
  unfold mapL
  rw [wlp_bind]
  refine (createSub_ready hc.dir hc.creators o (w := { s.w with tape := c.stream s.randomSeed }) hgood).mono ?_
  rintro res w ⟨is, rfl, hn, hm⟩
  unfold mapL
  rw [wlp_bind, wlp_pure, wlp_pure]
  refine tri_modify ?_
  have h1 : Steady is.length { s with w := w, inds := [some is] } :=
    ⟨by show Paced _ s.log; rw [hlog]; exact Paced.nil, is, rfl, rfl, hn⟩
  refine tri_bind ?_
  intro r s₂ e
  have h2 := evaluate_steady hc (is := is) rfl hm (by rw [hlog]; simp) h1 r s₂ e
  cases r with
  | error _ => exact ⟨_, h2⟩
  | ok b =>
    refine tri_bind (tri_modify (tri_publish ⟨is.length, ?_⟩))
    exact Steady.push (s := { s₂ with bestOfRun := some b }) (Steady.same h2 rfl rfl) (by simp)

theorem evolve_steady (hc : c.Ordinary sub m) (hr : s.Ready m) (hlog : s.log = []) :
    tri (evolve c) (fun _ s' => ∃ N, Steady N s') (fun s' => ∃ N, PacedLog N s') s := by
  unfold evolve
  refine tri_bind ?_
  intro r s₁ e
  have g1 := tri_and (initRun_alive hc hr hlog) (initRun_steady hc hr hlog) r s₁ e
  cases r with
  | error _ => exact g1.2
  | ok _ =>
  obtain ⟨ha1, N, h1⟩ := g1
  suffices tri (do
      afterInit c
      publish "algorithm" "evolution_finished"
      PyM.modify fun s => { s with shutdown := true }) (fun _ => Steady N) (PacedLog N) s₁ by
    intro r s₂ e
    have := this r s₂ e
    cases r with
    | ok _ => exact ⟨N, this⟩
    | error _ => exact ⟨N, this⟩
  refine tri_bind (tri.mono (Q := fun _ s₂ => Steady N s₂) ?_ fun _ s₂ h2 => ?_)
  · unfold afterInit
    refine tri_bind (tri_get (tri_bind ?_))
    intro r s₃ e
    have g3 := tri_and (shouldTerminate_alive ha1 s₁.genNum) (shouldTerminate_steady h1 s₁.genNum) r s₃ e
    cases r with
    | error _ => exact g3.2
    | ok v =>
    obtain ⟨ha3, h3⟩ := g3
    refine tri_ite (fun _ => tri_bind (tri_modify (tri_publish ?_))) (fun _ => mainLoop_steady hc _ _ ha3 h3)
    exact Steady.push (s := { s₃ with finalGen := some 0 }) (h3.same rfl rfl) (by simp)
  · refine tri_bind (tri_publish (tri_modify ?_))
    have := h2.push (p := "algorithm") (n := "evolution_finished") (by simp)
    exact this.same rfl rfl

end Verif.Evo
