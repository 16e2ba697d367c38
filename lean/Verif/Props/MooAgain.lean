import Verif.Props.MooTotal

/-! # C84 — evolving a multi-objective algorithm again -/

namespace Verif.Moo
open PyM
variable {G : Type} {P : G → Prop} {n m : Nat} {ds : List Bool} {c : MCfg G} {s s' : MRun G}

/-- Evaluating a population whose first individual has been evaluated already. -/
theorem evaluateM_again {sub : MSub G} {order : List Nat} {r : Nat} {rest : List Nat} {w : MWorld G}
    (hp : order.Perm (List.range (r :: rest).length)) (hev : ∀ x ∈ r :: rest, Total (sub.evaluate (w.genome x)))
    (hr : (w.fits r).objs ≠ none) :
    ∃ t, evaluateM sub order (r :: rest) w = (.error .attributeError, { w with tape := t }) := by
  have hmap : wp (Evo.executorMap order (runEvalM sub) (r :: rest)) (fun _ _ => True) w := by
    refine Evo.executorMap_total hp (I := fun w' : MWorld G => w'.fits = w.fits ∧ w'.genome = w.genome ∧ w'.next = w.next)
      ⟨rfl, rfl, rfl⟩ ?_
    rintro x hx w₁ h1
    unfold runEvalM
    rw [wp_bind, wp_get, wp_mrand]
    obtain ⟨v, t, hrun⟩ := hev x hx w₁.tape
    rw [← h1.2.1] at hrun
    exact ⟨v, t, hrun, h1⟩
  have hwlp : wlp (Evo.executorMap order (runEvalM sub) (r :: rest)) (fun vs w' => vs.length = (r :: rest).length ∧
      (w'.fits = w.fits ∧ w'.genome = w.genome ∧ w'.next = w.next)) w := by
    refine Evo.executorMap_wlp order _ (I := fun w' : MWorld G => w'.fits = w.fits ∧ w'.genome = w.genome ∧ w'.next = w.next)
      ⟨rfl, rfl, rfl⟩ ?_
    rintro x w₁ h1
    unfold runEvalM
    rw [wlp_bind, wlp_get, wlp_mrand]
    exact fun v t _ => h1
  obtain ⟨vs, w₁, hrun, -, hl, h1, h2, h3⟩ := hmap.and hwlp
  obtain ⟨fits, genome, next, tape⟩ := w
  obtain ⟨fits₁, genome₁, next₁, tape₁⟩ := w₁
  dsimp only at h1 h2 h3 hr
  subst h1 h2 h3
  refine ⟨tape₁, ?_⟩
  obtain ⟨v, vs, rfl⟩ : ∃ v vs', vs = v :: vs' := by
    cases vs with
    | nil => simp at hl
    | cons v vs => exact ⟨v, vs, rfl⟩
  unfold evaluateM
  rw [bind_of_ok hrun]
  obtain ⟨u, hu⟩ := Option.ne_none_iff_exists'.1 hr
  refine bind_of_error ?_
  rw [List.zip_cons_cons]
  unfold forL
  refine bind_of_error ?_
  unfold assign
  rw [bind_of_ok (show PyM.get _ = (.ok _, _) from rfl)]
  refine bind_of_error ?_
  dsimp only
  unfold Fit.set
  rw [hu]
  rfl

/-- `evolve` on an algorithm whose population exists and has been evaluated: nothing but the random generator and the
log has changed when the exception is raised. -/
theorem mevolve_evaluated {r : Nat} {rest : List Nat} (hi : s.inds = some (r :: rest))
    (hp : ∀ g k, (c.sched g k).Perm (List.range k)) (hev : ∀ x ∈ r :: rest, Total (c.sub.evaluate (s.w.genome x)))
    (hr : (s.w.fits r).objs ≠ none) :
    ∃ t e, mevolve c s = (.error .attributeError, { s with w := { s.w with tape := t }, log := s.log ++ [e] }) := by
  obtain ⟨t, ht⟩ := evaluateM_again (sub := c.sub) (order := c.sched s.genNum (r :: rest).length)
    (w := { s.w with tape := c.stream s.randomSeed }) (hp _ _) hev hr
  refine ⟨t, s.event "population_evaluator" "before_operator", ?_⟩
  unfold mevolve
  refine bind_of_error ?_
  unfold minit
  rw [bind_of_ok (show PyM.get s = (.ok s, s) from rfl), bind_of_ok (show msetSeed c s.randomSeed s = (.ok (), _) from rfl)]
  have hcr : mcreate c { s with w := { s.w with tape := c.stream s.randomSeed } } =
      (.ok (), { s with w := { s.w with tape := c.stream s.randomSeed } }) := by
    unfold mcreate
    rw [bind_of_ok (show PyM.get _ = (.ok _, _) from rfl)]
    dsimp only
    rw [hi]
    rfl
  rw [bind_of_ok hcr]
  refine bind_of_error ?_
  unfold mevaluate mact
  rw [bind_of_ok (show mpublish _ _ _ = (.ok (), _) from rfl)]
  refine bind_of_error ?_
  unfold mevaluateBody individuals
  rw [bind_of_ok (a := r :: rest) (s' := _) (by
    rw [bind_of_ok (show PyM.get _ = (.ok _, _) from rfl)]
    dsimp only
    rw [hi]
    rfl)]
  rw [bind_of_ok (show PyM.get _ = (.ok _, _) from rfl)]
  unfold mworld zoom
  dsimp only
  rw [ht]
  rw [← hi]
  rfl

/-- C84: an `NSGA2Evolution` whose `evolve` has returned can be evolved again. -/
def C84_statement : Prop :=
  ∀ (c : MCfg ℚ) (s s' : MRun ℚ), mevolve c s = (.ok (), s') → (mevolve c s').1 ≠ .error .attributeError

/-- C84 is false of all sound configurations: the second `evolve` finds the evaluated population of the first, and
`set_fitness` raises an `AttributeError` for its first individual. -/
theorem C84_never_again_partial (hc : c.Sound P n m ds) (hf : s.Fresh m ds) (hp : AllHave P s.w)
    (h : mevolve c s = (.ok (), s')) : (mevolve c s').1 = .error .attributeError := by
  obtain ⟨_, s₁, h1, hl⟩ := mevolve_wp hc hf hp
  rw [h] at h1
  cases h1
  obtain ⟨l, hpop, hev⟩ := hl.pop
  cases l with
  | nil => have := hpop.length; have := hc.size; simp at *; omega
  | cons r rest =>
    obtain ⟨t, e, he⟩ := mevolve_evaluated hpop.inds hc.sched
      (fun x hx => hc.evaluate _ (hl.genomes x (hpop.exist x hx))) (by
        obtain ⟨v, hv⟩ := hev r (by simp)
        rw [hv.objs]; simp)
    rw [he]

/-- What the second `evolve` leaves: everything the first one had computed. -/
theorem C84_result_kept_partial (hc : c.Sound P n m ds) (hf : s.Fresh m ds) (hp : AllHave P s.w)
    (h : mevolve c s = (.ok (), s')) : (mevolve c s').2.inds = s'.inds ∧ (mevolve c s').2.bestOfRun = s'.bestOfRun ∧
      (mevolve c s').2.bestOfGen = s'.bestOfGen ∧ (mevolve c s').2.finalGen = s'.finalGen ∧
      (mevolve c s').2.w.fits = s'.w.fits ∧ (mevolve c s').2.w.genome = s'.w.genome := by
  obtain ⟨_, s₁, h1, hl⟩ := mevolve_wp hc hf hp
  rw [h] at h1
  cases h1
  obtain ⟨l, hpop, hev⟩ := hl.pop
  cases l with
  | nil => have := hpop.length; have := hc.size; simp at *; omega
  | cons r rest =>
    obtain ⟨t, e, he⟩ := mevolve_evaluated hpop.inds hc.sched
      (fun x hx => hc.evaluate _ (hl.genomes x (hpop.exist x hx))) (by
        obtain ⟨v, hv⟩ := hev r (by simp)
        rw [hv.objs]; simp)
    rw [he]
    exact ⟨rfl, rfl, rfl, rfl, rfl, rfl⟩

theorem exAgain_first : (mevolve (exCfg true 1) exRun).1 = .ok () := by decide +kernel

/-- C84 is false. -/
theorem C84_refuted : ¬ C84_statement := by
  intro h
  refine h (exCfg true 1) exRun _ (ok_pair exAgain_first) ?_
  decide +kernel

open GA in
/-- The vector configuration of C82 meets the hypotheses. -/
example : ∃ s', mevolve exVector exVectorRun = (.ok (), s') ∧ (mevolve exVector s').1 = .error .attributeError := by
  obtain ⟨s', h, -⟩ := C82_vectors exLib_proper exVector_assembled (s := exVectorRun)
    ⟨rfl, fun r hr => absurd hr (Nat.not_lt_zero r), rfl, rfl⟩ (fun r hr => absurd hr (Nat.not_lt_zero r))
  exact ⟨s', h, C84_never_again_partial (exVector_assembled.sound (fun _ h => h.creates exLib_proper) (fun _ h => h.good)
    (fun _ h _ => h.worksOn exLib_proper)) ⟨rfl, fun r hr => absurd hr (Nat.not_lt_zero r), rfl, rfl⟩
    (fun r hr => absurd hr (Nat.not_lt_zero r)) h⟩

end Verif.Moo
