import Verif.Props.Resume
import Verif.Lemmas.EvalLog

/-! # C107: the result of a run is the best of what was evaluated, in terms of the objective -/

namespace Verif.Evo
open PyM
variable {G κ : Type} {c : Cfg G κ} {sub : SubCfg G} {m : Mode} {s s' : Run G κ} {f : G → Except Err ℚ} {size : G → Nat}

/-- An evaluation that returns has set every fitness value to what the evaluator computes. -/
theorem evaluateMap_values (hd : sub.Computes f) {order inds : List Nat} (hp : order.Perm (List.range inds.length))
    {w w' : World G} {b : Nat} (hv : Valid w inds) (h : evaluateMap size sub order inds w = (.ok b, w')) :
    ∀ r ∈ inds, ∃ i q, w.heap[r]? = some i ∧ f i.genome = .ok q ∧
      w'.heap[r]? = some { i with fit := i.fit.setFitness (.num q) } := by
  have hall : ∀ r ∈ inds, ∀ i, w.heap[r]? = some i → ∃ q, f i.genome = .ok q := by
    intro r hr i hi
    cases hf : f i.genome with
    | ok q => exact ⟨q, rfl⟩
    | error e =>
      obtain ⟨e', he', -⟩ := C33_raises (size := size) hd hp hv ⟨r, hr, i.genome, e, by simp [genomeAt, hi], hf⟩
      rw [he'] at h
      simp at h
  let F : G → ℚ := fun g => match f g with | .ok q => q | .error _ => 0
  have hF : ∀ g q, f g = .ok q → F g = q := by intro g q hg; simp [F, hg]
  let val : Nat → ℚ := fun r => ((w.heap[r]?).map fun i => F i.genome).getD 0
  have hval : ∀ r i, w.heap[r]? = some i → val r = F i.genome := by
    intro r i hi; simp [val, hi]
  unfold evaluateMap at h
  rw [bind_of_ok (executorMap_const (val := val) hp fun r hr => by
    have hi := List.getElem?_eq_getElem (hv r hr)
    obtain ⟨q, hq⟩ := hall r hr _ hi
    exact runEval_eq hi fun t => by rw [hd, hval r _ hi, hF _ q hq, hq])] at h
  rw [zip_map_self] at h
  obtain ⟨w₁, e, h1, h2, h3, h4⟩ := setAll_heap (fun r => .num (val r)) inds w
  rw [bind_of_ok (by rw [forL_map]; exact e)] at h
  have hw : w' = w₁ := by
    cases inds with
    | nil => simp [PyM.raise] at h
    | cons b rest =>
      have := bestLoop_state (size := size) b rest w₁
      dsimp only at h
      rw [h] at this
      exact this
  subst hw
  intro r hr
  have hi := List.getElem?_eq_getElem (hv r hr)
  obtain ⟨q, hq⟩ := hall r hr _ hi
  refine ⟨_, q, hi, hq, ?_⟩
  rw [h4, hi]
  simp only [Option.map_some, if_pos hr]
  rw [hval r _ hi, hF _ q hq]

/-- At the end of an evaluation every individual holds the value of its genome and is compared in the way `m`. -/
def Valued (f : G → Except Err ℚ) (m : Mode) (e : Event G) : Prop :=
  e.IsEval → ∀ r, e.Shows r → ∃ i q, e.snap.heap[r]? = some i ∧ f i.genome = .ok q ∧ i.fit.value = .num q ∧
    i.fit.evaluated = true ∧ i.mode = m

theorem valued_prop (hc : c.Ordinary sub m) (hd : sub.Computes f) : EvalProp c m (Valued f m) where
  other e h h' := absurd h' h
  body s is hi hm b s' h := by
    rintro - r ⟨js, hj, hr⟩
    unfold evaluateBody at h
    obtain ⟨_, s₁, h1, h⟩ := bind_ok.1 h
    simp only [PyM.get, Prod.mk.injEq, Except.ok.injEq] at h1
    obtain ⟨rfl, rfl⟩ := h1
    rw [hc.subs, hi] at h
    dsimp only at h
    split at h
    · simp [PyM.raise] at h
    · rw [hc.map] at h
      simp only [Bool.false_eq_true, if_false] at h
      obtain ⟨w, h2, rfl⟩ := world_ok h
      have hjs : js = is := by
        have : some js ∈ s.inds := hj
        rw [hi] at this
        simpa using this
      subst hjs
      obtain ⟨i, q, h3, h4, h5⟩ := evaluateMap_values hd (hc.sched _ _) (fun r hr => modeAt_lt (hm r hr)) h2 r hr
      refine ⟨_, q, h5, h4, rfl, rfl, ?_⟩
      have := hm r hr
      unfold modeAt at this
      rw [h3] at this
      simpa [Ind.mode, Fit.setFitness] using this

/-- Whatever the fitness: the best individual was among those evaluated, its fitness is the objective
of its genome, and no genome evaluated at any time has a better objective, corrected for its size. -/
theorem best_objective (hc : c.Ordinary sub m) (hd : sub.Computes f) (hr : s.Ready m) (hlog : s.log = [])
    (h : evolve c s = (.ok (), s')) :
    ∃ b i q, s'.bestOfRun = some b ∧ s'.w.heap[b]? = some i ∧ f i.genome = .ok q ∧ i.fit.value = .num q ∧
      (∃ e ∈ s'.log, e.IsEval ∧ e.Shows b) ∧
      ∀ e ∈ s'.log, e.IsEval → ∀ r, e.Shows r → ∃ j x, e.snap.heap[r]? = some j ∧ f j.genome = .ok x ∧
        ¬ Preferred m.hib (score m.hib m.bloat x (c.size j.genome)) (score m.hib m.bloat q (c.size i.genome)) := by
  obtain ⟨b, hb, ⟨e₀, he₀, hev₀, hsh₀⟩, hall⟩ := C35_end hc hr hlog h
  have hval := evolve_evals hc (valued_prop hc hd) hr hlog _ _ h
  have hess : ∀ e ∈ s'.log, e.IsEval → ∀ r, e.Shows r → ∃ j x, e.snap.heap[r]? = some j ∧ f j.genome = .ok x ∧
      ∃ i, s'.w.heap[r]? = some i ∧ i.genome = j.genome ∧ i.fit.value = .num x ∧
        HasScore c.size m.hib s'.w r (score m.hib m.bloat x (c.size j.genome)) := by
    intro e he hev r hsh
    obtain ⟨j, x, h1, h2, h3, h4, h5⟩ := hval e he hev r hsh
    obtain ⟨-, h6, -⟩ := hall e he hev r hsh
    unfold essence at h6
    rw [h1] at h6
    cases h7 : s'.w.heap[r]? with
    | none => rw [h7] at h6; simp at h6
    | some i =>
      rw [h7] at h6
      simp only [Option.map_some, Option.some.injEq, Prod.mk.injEq] at h6
      refine ⟨j, x, h1, h2, i, rfl, h6.2.1, by rw [h6.2.2]; exact h3, i, m.bloat, x, h7, ?_, by rw [h6.2.1]⟩
      rw [h6.2.2]
      subst h5
      exact ⟨h3, h4, rfl, rfl⟩
  obtain ⟨j, q, h1, h2, i, h3, h4, h5, h6⟩ := hess e₀ he₀ hev₀ b hsh₀
  refine ⟨b, i, q, hb, h3, by rw [h4]; exact h2, h5, ⟨e₀, he₀, hev₀, hsh₀⟩, ?_⟩
  intro e he hev r hsh
  obtain ⟨k, x, h7, h8, -, -, -, -, h9⟩ := hess e he hev r hsh
  refine ⟨k, x, h7, h8, fun hp => ?_⟩
  obtain ⟨-, -, hnb⟩ := hall e he hev r hsh
  refine hnb ⟨_, _, h9, ?_, hp⟩
  rw [h4]
  exact h6

end Verif.Evo
