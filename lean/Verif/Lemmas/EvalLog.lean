import Verif.Lemmas.Legal
import Verif.Lemmas.Descent

/-! # What is visible at the end of every evaluation -/

namespace Verif.Evo
open PyM
variable {G κ : Type} {E : Event G → Prop} {c : Cfg G κ} {sub : SubCfg G} {m : Mode}

/-- Every recorded event satisfies `E`. -/
def LogE (E : Event G → Prop) (s : Run G κ) : Prop := ∀ e ∈ s.log, E e

theorem LogE.push {s : Run G κ} (h : LogE E s) {p n : String} (he : E ⟨p, n, s.snapshot⟩) : LogE E (s.push p n) := by
  intro e hm
  simp only [Run.push, List.mem_append, List.mem_singleton] at hm
  rcases hm with hm | rfl
  · exact h e hm
  · exact he

/-- A property that only the ends of evaluations need to be checked for. -/
structure EvalProp (c : Cfg G κ) (m : Mode) (E : Event G → Prop) : Prop where
  other : ∀ e, ¬ e.IsEval → E e
  body : ∀ (s : Run G κ) is, s.inds = [some is] → (∀ r ∈ is, modeAt s.w r = some m) → ∀ b s', evaluateBody c s = (.ok b, s') →
    E ⟨"population_evaluator", "after_operator", s'.snapshot⟩

/-- The step does not record anything. -/
def Silent {α : Type} (x : RM G κ α) : Prop := ∀ s, (x s).2.log = s.log

theorem tri_silent {α : Type} {x : RM G κ α} {s : Run G κ} (hx : Silent x) (h : LogE E s) :
    tri x (fun _ => LogE E) (LogE E) s := by
  intro r s' e
  have := hx s
  rw [e] at this
  have h' : LogE E s' := by intro ev hev; rw [show s'.log = s.log from this] at hev; exact h ev hev
  cases r <;> exact h'

theorem silent_bind {α β : Type} {x : RM G κ α} {f : α → RM G κ β} (hx : Silent x)
    (hf : ∀ a, Silent (f a)) : Silent (x >>= f) := by
  intro s
  rcases h : x s with ⟨_ | a, s₁⟩
  · rw [bind_of_error h]
    have := hx s
    rw [h] at this
    exact this
  · rw [bind_of_ok h, hf a]
    have := hx s
    rw [h] at this
    exact this

theorem silent_world {α : Type} (x : WM G α) : Silent (world (κ := κ) x) := by
  intro s
  simp only [world, zoom]

theorem silent_get : Silent (PyM.get : RM G κ (Run G κ)) := fun _ => rfl
theorem silent_raise {α : Type} (e : Err) : Silent (raise e : RM G κ α) := fun _ => rfl
theorem silent_pure {α : Type} (a : α) : Silent (Pure.pure a : RM G κ α) := fun _ => rfl

theorem silent_ite {α : Type} {p : Prop} [Decidable p] {x y : RM G κ α} (hx : Silent x) (hy : Silent y) :
    Silent (if p then x else y) := by split <;> assumption

theorem evaluateBody_silent : Silent (evaluateBody c) := by
  unfold evaluateBody
  refine silent_bind silent_get fun s₀ => ?_
  split
  · exact silent_ite (silent_raise _) (silent_world _)
  · exact silent_raise _
  · exact silent_raise _

theorem breed_evals (hE : EvalProp c m E) {s : Run G κ} (h : LogE E s) : tri (breed c) (fun _ => LogE E) (LogE E) s := by
  unfold breed act
  refine tri_bind (tri_publish ?_)
  have h1 : LogE E (s.push "breeder" "before_operator") := h.push (hE.other _ (by simp [Event.IsEval]))
  refine tri_bind ((tri_silent ?_ h1).mono fun _ s₂ h2 => tri_bind (tri_publish (tri_pure ?_)))
  · unfold breedBody
    exact silent_bind silent_get fun _ => silent_bind (silent_world _) fun _ _ => rfl
  · exact h2.push (hE.other _ (by simp [Event.IsEval]))

theorem evaluate_evals (hE : EvalProp c m E) {s : Run G κ} (h : LogE E s) {is : List Nat} (hi : s.inds = [some is])
    (hm : ∀ r ∈ is, modeAt s.w r = some m) : tri (evaluatePopulation c) (fun _ => LogE E) (LogE E) s := by
  unfold evaluatePopulation act
  refine tri_bind (tri_publish ?_)
  have h1 : LogE E (s.push "population_evaluator" "before_operator") := h.push (hE.other _ (by simp [Event.IsEval]))
  have hi1 : (s.push "population_evaluator" "before_operator").inds = [some is] := hi
  have hm1 : ∀ r ∈ is, modeAt (s.push "population_evaluator" "before_operator").w r = some m := hm
  generalize s.push "population_evaluator" "before_operator" = s₁ at h1 hi1 hm1
  refine tri_bind ?_
  intro r s₂ e
  have h2 := tri_silent evaluateBody_silent h1 r s₂ e
  cases r with
  | error _ => exact h2
  | ok b => exact tri_bind (tri_publish (tri_pure (LogE.push h2 (hE.body s₁ is hi1 hm1 b s₂ e))))

theorem recordBest_silent (b : Nat) : Silent (recordBest c b) := by
  unfold recordBest
  exact silent_bind silent_get fun _ => silent_bind (silent_world _) fun _ => silent_ite (fun _ => rfl) (silent_pure _)

theorem recordWorst_silent : Silent (recordWorst c) := by
  unfold recordWorst
  refine silent_bind silent_get fun _ => ?_
  split
  · exact silent_bind (silent_world _) fun _ _ => rfl
  · exact silent_raise _

theorem generation_evals (hc : c.Ordinary sub m) (hE : EvalProp c m E) {s : Run G κ} (ha : Alive c.size m s) (h : LogE E s) :
    tri (generationIteration c) (fun _ => LogE E) (LogE E) s := by
  unfold generationIteration
  refine tri_bind ?_
  intro r s₁ e
  have h1 := tri_and (breed_alive hc ha) (breed_evals hE h) r s₁ e
  cases r with
  | error _ => exact h1.2
  | ok _ =>
    obtain ⟨hb, h1⟩ := h1
    obtain ⟨is, hi, hn, hm⟩ := hb.alive.pop
    refine tri_bind ((evaluate_evals hE h1 hi hm).mono fun b s₂ h2 => tri_bind (tri_modify ?_))
    have h3 : LogE E { s₂ with bestOfGen := some b } := h2
    exact tri_bind ((tri_silent (recordBest_silent b) h3).mono fun _ s₃ h4 => tri_silent recordWorst_silent h4)

theorem shouldTerminate_silent (gen : Nat) : Silent (shouldTerminate c gen) := by
  intro s
  rcases e : shouldTerminate c gen s with ⟨r, s'⟩
  obtain ⟨ks, rfl⟩ := shouldTerminate_same gen _ _ e
  rfl

theorem updateGen_silent (gen : Nat) : Silent (updateGen (G := G) (κ := κ) gen) := by
  unfold updateGen
  refine silent_bind silent_get fun s₀ => ?_
  generalize s₀.inds = l
  induction l with
  | nil => exact silent_pure _
  | cons o l ih =>
    unfold forL
    refine silent_bind ?_ fun _ => ih
    cases o with
    | none => exact silent_raise _
    | some is => exact silent_world _

theorem mainLoop_evals (hc : c.Ordinary sub m) (hE : EvalProp c m E) (n gen : Nat) {s : Run G κ} (ha : Alive c.size m s)
    (h : LogE E s) : tri (mainLoop c n gen) (fun _ => LogE E) (LogE E) s := by
  induction n generalizing gen s with
  | zero => exact tri_pure h
  | succ n ih =>
    unfold mainLoop
    refine tri_bind (tri_modify ?_)
    have ha0 : Alive c.size m { s with genNum := gen } := ⟨ha.log, ha.best, ha.pop⟩
    have h0 : LogE E { s with genNum := gen } := h
    refine tri_bind ?_
    intro r s₁ e
    have g1 := tri_and (updateGen_alive ha0 gen) (tri_silent (updateGen_silent gen) h0) r s₁ e
    cases r with
    | error _ => exact g1.2
    | ok _ =>
    obtain ⟨ha1, h1⟩ := g1
    refine tri_bind (tri_get ?_)
    refine tri_bind (tri_modify ?_)
    refine tri_bind (tri_modify ?_)
    refine tri_bind ?_
    have ha1' : Alive c.size m { s₁ with w := { s₁.w with tape := c.stream (nextSeed s₁.genSeed) }, genSeed := nextSeed s₁.genSeed } :=
      ⟨ha1.log, ha1.best, ha1.pop⟩
    have h1' : LogE E { s₁ with w := { s₁.w with tape := c.stream (nextSeed s₁.genSeed) }, genSeed := nextSeed s₁.genSeed } := h1
    intro r s₂ e
    have g2 := tri_and (generation_alive hc ha1') (generation_evals hc hE ha1' h1') r s₂ e
    cases r with
    | error _ => exact g2.2
    | ok _ =>
    obtain ⟨ha2, h2⟩ := g2
    refine tri_bind ?_
    intro r s₃ e
    have g3 := tri_and (shouldTerminate_alive ha2 gen) (tri_silent (shouldTerminate_silent gen) h2) r s₃ e
    cases r with
    | error _ => exact g3.2
    | ok stop =>
    obtain ⟨ha3, h3⟩ := g3
    refine tri_ite (fun _ => ?_) (fun _ => ?_)
    · refine tri_bind (tri_modify (tri_publish ?_))
      exact LogE.push (s := { s₃ with finalGen := some gen }) h3 (hE.other _ (by simp [Event.IsEval]))
    · exact tri_bind (tri_publish (ih _ (ha3.push (by simp)) (h3.push (hE.other _ (by simp [Event.IsEval])))))

theorem initRun_evals (hc : c.Ordinary sub m) (hE : EvalProp c m E) {s : Run G κ} (hr : s.Ready m) (h : LogE E s) :
    tri (initRun c) (fun _ => LogE E) (LogE E) s := by
  unfold initRun
  refine tri_bind (tri_get ?_)
  refine tri_bind (tri_modify ?_)
  refine tri_bind ?_
  unfold createPopulation
  refine tri_bind (tri_get ?_)
  refine tri_bind (tri_world (E := LogE E) ?_ fun w => h)
  obtain ⟨o, ho, hgood⟩ : ∃ o, s.inds = [o] ∧ ∀ is, o = some is → is.Nodup ∧ ∀ r ∈ is, modeAt s.w r = some m := by
    rcases hr with h | ⟨is, h, h1, h2⟩
    · exact ⟨none, h, by simp⟩
    · exact ⟨some is, h, by rintro is' h'; cases h'; exact ⟨h1, h2⟩⟩
  rw [hc.subs]
  dsimp only
  rw [ho]
  show wlp (mapL _ [(sub, o)]) _ _
  unfold mapL
  rw [wlp_bind]
  refine (createSub_ready hc.dir hc.creators o (w := { s.w with tape := c.stream s.randomSeed }) hgood).mono ?_
  rintro res w ⟨is, rfl, hn, hm⟩
  unfold mapL
  rw [wlp_bind, wlp_pure, wlp_pure]
  refine tri_modify ?_
  have h1 : LogE E { s with w := w, inds := [some is] } := h
  refine tri_bind ((evaluate_evals hE (is := is) h1 rfl hm).mono fun b s₂ h2 => ?_)
  refine tri_bind (tri_modify (tri_publish ?_))
  exact LogE.push (s := { s₂ with bestOfRun := some b }) h2 (hE.other _ (by simp [Event.IsEval]))

/-- What evaluations establish can be seen at the end of every evaluation of a run. -/
theorem evolve_evals (hc : c.Ordinary sub m) (hE : EvalProp c m E) {s : Run G κ} (hr : s.Ready m) (hlog : s.log = [])
    (r : Except Err Unit) (s' : Run G κ) (hrun : evolve c s = (r, s')) : ∀ e ∈ s'.log, E e := by
  have key : tri (evolve c) (fun _ => LogE E) (LogE E) s := by
    have h0 : LogE E s := by intro e he; rw [hlog] at he; simp at he
    unfold evolve
    refine tri_bind ?_
    intro r s₁ e
    have g1 := tri_and (initRun_alive hc hr hlog) (initRun_evals hc hE hr h0) r s₁ e
    cases r with
    | error _ => exact g1.2
    | ok _ =>
    obtain ⟨ha1, h1⟩ := g1
    refine tri_bind (tri.mono (Q := fun _ s₂ => LogE E s₂) ?_ fun _ s₂ h2 => ?_)
    · unfold afterInit
      refine tri_bind (tri_get (tri_bind ?_))
      intro r s₃ e
      have g3 := tri_and (shouldTerminate_alive ha1 s₁.genNum) (tri_silent (shouldTerminate_silent s₁.genNum) h1) r s₃ e
      cases r with
      | error _ => exact g3.2
      | ok v =>
      obtain ⟨ha3, h3⟩ := g3
      refine tri_ite (fun _ => tri_bind (tri_modify (tri_publish ?_)))
        (fun _ => mainLoop_evals hc hE _ _ ha3 h3)
      exact LogE.push (s := { s₃ with finalGen := some 0 }) h3 (hE.other _ (by simp [Event.IsEval]))
    · refine tri_bind (tri_publish (tri_modify ?_))
      exact h2.push (hE.other _ (by simp [Event.IsEval]))
  have := key r s' hrun
  cases r with
  | ok _ => exact this
  | error _ => exact this

end Verif.Evo
