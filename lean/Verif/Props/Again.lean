import Verif.Props.Run

/-! # C72 — evolving an algorithm again -/

namespace Verif.Evo
open PyM
variable {G κ : Type} {c : Cfg G κ} {s s' : Run G κ}

/-- There is one sub-population, with at least one individual. -/
def Peopled (c : Cfg G κ) (s : Run G κ) : Prop := ∃ sub is, c.subs = [sub] ∧ s.inds = [some is] ∧ is ≠ []

theorem Peopled.of_inds (h : Peopled c s) (hi : s'.inds = s.inds) : Peopled c s' := by
  obtain ⟨sub, is, h1, h2, h3⟩ := h
  exact ⟨sub, is, h1, by rw [hi, h2], h3⟩

theorem wlp_keeps {α : Type} {m : RM G κ α} (hk : Keeps (fun s : Run G κ => s.inds) m) (h : Peopled c s) :
    wlp m (fun _ s' => Peopled c s') s := fun a s' he => h.of_inds (by have := hk s; rw [he] at this; exact this)

theorem keeps_inds_world {α : Type} (m : WM G α) : Keeps (fun s : Run G κ => s.inds) (world m) := fun _ => rfl

theorem keeps_inds_publish (p n : String) : Keeps (fun s : Run G κ => s.inds) (publish p n) := fun _ => rfl

theorem keeps_inds_get : Keeps (fun s : Run G κ => s.inds) PyM.get := fun _ => rfl

theorem keeps_inds_shouldTerminate (gen : Nat) : Keeps (fun s : Run G κ => s.inds) (shouldTerminate c gen) := by
  intro s
  unfold shouldTerminate
  split
  · rfl
  · split <;> rfl
  · split <;> rfl

theorem keeps_inds_recordBest (b : Nat) : Keeps (fun s : Run G κ => s.inds) (recordBest c b) := by
  refine keeps_inds_get.bind fun s => (keeps_inds_world _).bind fun better => ?_
  split
  · exact fun _ => rfl
  · exact Keeps.pure _

theorem keeps_inds_recordWorst : Keeps (fun s : Run G κ => s.inds) (recordWorst c) := by
  refine keeps_inds_get.bind fun s => ?_
  split
  · exact (keeps_inds_world _).bind fun w => fun _ => rfl
  · exact Keeps.raise _

theorem evaluateMap_nil (size : G → Nat) (sub : SubCfg G) (order : List Nat) (w : World G) (Q : Nat → World G → Prop) :
    wlp (evaluateMap size sub order []) Q w := by
  unfold evaluateMap
  refine wlp_bind.2 ((wlp_true _ _).mono fun scores w' _ => wlp_bind.2 ((wlp_true _ _).mono fun _ w'' _ => ?_))
  simp

theorem evaluateSubmit_nil (size : G → Nat) (sub : SubCfg G) (order : List Nat) (w : World G) (Q : Nat → World G → Prop) :
    wlp (evaluateSubmit size sub order []) Q w := by
  unfold evaluateSubmit
  refine wlp_bind.2 ((wlp_true _ _).mono fun scores w' _ => wlp_bind.2 ((wlp_true _ _).mono fun _ w'' _ => ?_))
  simp

/-- An evaluation that returns has seen a population. -/
theorem evaluateBody_peopled (s : Run G κ) : wlp (evaluateBody c) (fun _ s' => Peopled c s') s := by
  unfold evaluateBody
  refine wlp_bind.2 (wlp_get.2 ?_)
  split
  · rename_i sub is hsub hinds
    refine wlp_ite.2 ⟨fun _ => by simp, fun _ => ?_⟩
    unfold world
    rw [wlp_zoom]
    by_cases his : is = []
    · subst his
      split
      · exact evaluateSubmit_nil _ _ _ _ _
      · exact evaluateMap_nil _ _ _ _ _
    · exact (wlp_true _ _).mono fun _ w _ => ⟨sub, is, hsub, hinds, his⟩
  · simp
  · simp

theorem evaluatePopulation_peopled (s : Run G κ) : wlp (evaluatePopulation c) (fun _ s' => Peopled c s') s := by
  unfold evaluatePopulation act
  refine wlp_bind.2 ((wlp_true _ _).mono fun _ s1 _ => wlp_bind.2 ((evaluateBody_peopled s1).mono fun b s2 h2 => ?_))
  exact wlp_bind.2 ((wlp_keeps (keeps_inds_publish _ _) h2).mono fun _ s3 h3 => by simpa using h3)

theorem generationIteration_peopled (s : Run G κ) : wlp (generationIteration c) (fun _ s' => Peopled c s') s := by
  unfold generationIteration
  refine wlp_bind.2 ((wlp_true _ _).mono fun _ s1 _ => wlp_bind.2 ((evaluatePopulation_peopled s1).mono fun b s2 h2 => ?_))
  refine wlp_bind.2 (wlp_modify.2 ?_)
  have h3 : Peopled c { s2 with bestOfGen := some b } := h2.of_inds rfl
  exact wlp_bind.2 ((wlp_keeps (keeps_inds_recordBest b) h3).mono fun _ s4 h4 => wlp_keeps keeps_inds_recordWorst h4)

theorem mainLoop_peopled (n gen : Nat) : ∀ {s : Run G κ}, Peopled c s → wlp (mainLoop c n gen) (fun _ s' => Peopled c s') s := by
  induction n generalizing gen with
  | zero => intro s h; simpa [mainLoop] using h
  | succ n ih =>
    intro s h
    unfold mainLoop
    refine wlp_bind.2 (wlp_modify.2 (wlp_bind.2 ((wlp_true _ _).mono fun _ s1 _ => ?_)))
    refine wlp_bind.2 (wlp_get.2 (wlp_bind.2 (wlp_modify.2 (wlp_bind.2 (wlp_modify.2 (wlp_bind.2 ?_))))))
    refine (generationIteration_peopled _).mono fun _ s2 h2 => ?_
    refine wlp_bind.2 ((wlp_keeps (keeps_inds_shouldTerminate gen) h2).mono fun stop s3 h3 => ?_)
    refine wlp_ite.2 ⟨fun _ => ?_, fun _ => ?_⟩
    · refine wlp_bind.2 (wlp_modify.2 ?_)
      exact wlp_keeps (keeps_inds_publish _ _) (h3.of_inds rfl)
    · exact wlp_bind.2 ((wlp_keeps (keeps_inds_publish _ _) h3).mono fun _ s4 h4 => ih _ h4)

/-- After `evolve`, the population has individuals and the executor is shut down. -/
theorem evolve_peopled (s : Run G κ) : wlp (evolve c) (fun _ s' => Peopled c s' ∧ s'.shutdown = true) s := by
  unfold evolve
  refine wlp_bind.2 (wlp.mono (Q := fun _ s' => Peopled c s') ?_ fun _ s1 h1 => wlp_bind.2 (wlp.mono (Q := fun _ s' => Peopled c s') ?_ fun _ s2 h2 => ?_))
  · unfold initRun
    refine wlp_bind.2 (wlp_get.2 (wlp_bind.2 ((wlp_true _ _).mono fun _ s1 _ => wlp_bind.2 ((wlp_true _ _).mono fun _ s2 _ => ?_))))
    refine wlp_bind.2 ((evaluatePopulation_peopled s2).mono fun b s3 h3 => wlp_bind.2 (wlp_modify.2 ?_))
    exact wlp_keeps (keeps_inds_publish _ _) (h3.of_inds rfl)
  · unfold afterInit
    refine wlp_bind.2 (wlp_get.2 (wlp_bind.2 ((wlp_keeps (keeps_inds_shouldTerminate _) h1).mono fun stop s2 h2 => ?_)))
    refine wlp_ite.2 ⟨fun _ => ?_, fun _ => mainLoop_peopled _ _ h2⟩
    refine wlp_bind.2 (wlp_modify.2 ?_)
    exact wlp_keeps (keeps_inds_publish _ _) (h2.of_inds rfl)
  · refine wlp_bind.2 ((wlp_keeps (keeps_inds_publish _ _) h2).mono fun _ s3 h3 => wlp_modify.2 ⟨h3.of_inds rfl, rfl⟩)

/-- Evolving with an executor that was shut down. -/
theorem evolve_shut (hp : Peopled c s) (hs : s.shutdown = true) : (evolve c s).1 = .error .runtimeError := by
  obtain ⟨sub, is, h1, h2, h3⟩ := hp
  have e : (initRun c s).1 = .error .runtimeError := by
    cases is with
    | nil => exact absurd rfl h3
    | cons a is =>
      simp [initRun, setSeed, createPopulation, evaluatePopulation, act, publish, evaluateBody, bind_run, PyM.get, PyM.modify,
        h1, h2, hs, world, zoom, mapL, createSub, PyM.raise, pure_run]
  unfold evolve
  rw [bind_run]
  cases hr : initRun c s with
  | mk r s1 =>
    rw [hr] at e
    cases e
    rfl

/-- C72: an algorithm whose `evolve` has returned can be evolved again (with whatever result, but not a
`RuntimeError` from its own executor): here, `evolve` does not raise `RuntimeError`. -/
def C72_statement : Prop :=
  ∀ (c : Cfg Nat Nat) (s s' : Run Nat Nat), evolve c s = (.ok (), s') → (evolve c s').1 ≠ .error .runtimeError

/-- C72 is false for every algorithm: whenever `evolve` has returned, the second `evolve` raises `RuntimeError`,
before any individual is evaluated: `finish` shuts the executor down for good. -/
theorem C72_never_again_partial (h : evolve c s = (.ok (), s')) : (evolve c s').1 = .error .runtimeError :=
  evolve_shut (evolve_peopled s _ _ h).1 (evolve_peopled s _ _ h).2

/-- What the second `evolve` leaves: the best individual and the final generation of the first. -/
theorem C72_result_kept_partial (h : evolve c s = (.ok (), s')) :
    (evolve c s').2.bestOfRun = s'.bestOfRun ∧ (evolve c s').2.finalGen = s'.finalGen ∧ (evolve c s').2.inds = s'.inds ∧
    (evolve c s').2.w.heap = s'.w.heap := by
  obtain ⟨⟨sub, is, h1, h2, h3⟩, hs⟩ := evolve_peopled s _ _ h
  cases is with
  | nil => exact absurd rfl h3
  | cons a is =>
    simp [evolve, initRun, setSeed, createPopulation, evaluatePopulation, act, publish, evaluateBody, bind_run, PyM.get, PyM.modify,
        h1, h2, hs, world, zoom, mapL, createSub, PyM.raise, pure_run]

theorem C72_refuted : ¬ C72_statement := fun h =>
  h exCfg exRun _ (ran exRun_ends.1) (C72_never_again_partial (ran exRun_ends.1))

/-- The example run, evolved again. -/
example : (evolve exCfg exRun).1 = .ok () ∧
    (evolve exCfg (evolve exCfg exRun).2).1 = .error .runtimeError ∧
    (evolve exCfg (evolve exCfg exRun).2).2.bestOfRun = (evolve exCfg exRun).2.bestOfRun :=
  ⟨exRun_ends.1, C72_never_again_partial (ran exRun_ends.1), (C72_result_kept_partial (ran exRun_ends.1)).1⟩

end Verif.Evo
