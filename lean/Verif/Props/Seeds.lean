import Verif.Props.Reproducible

/-! # C105: repetitions with different seeds -/

namespace Verif.Evo
open PyM
variable {G κ : Type} {c : Cfg G κ} {s s' t t' : Run G κ}

/-- All published generation numbers are at most `N`. -/
def NumsShown (N : Nat) (s : Run G κ) : Prop := ∀ e ∈ s.log, e.snap.genNum ≤ N

theorem numInv (N : Nat) : SeedInv fun s : Run G κ => s.genNum ≤ N ∧ NumsShown N s where
  only s s' h1 h2 h3 h := by
    refine ⟨by rw [h1]; exact h.1, ?_⟩
    unfold NumsShown
    rw [h3]
    exact h.2
  publish s p n h := by
    refine ⟨h.1, ?_⟩
    intro e he
    simp only [List.mem_append, List.mem_singleton] at he
    rcases he with he | rfl
    · exact h.2 e he
    · exact h.1

theorem mainLoop_nums (N n gen : Nat) {s : Run G κ} (hg : gen + n ≤ N + 1) (h : s.genNum ≤ N ∧ NumsShown N s) :
    tri (mainLoop c n gen) (fun _ s' => s'.genNum ≤ N ∧ NumsShown N s') (NumsShown N) s := by
  induction n generalizing gen s with
  | zero => exact tri_pure h
  | succ n ih =>
    have hI := numInv (G := G) (κ := κ) N
    unfold mainLoop
    refine tri_bind (tri_modify (tri_bind ?_))
    have h0 : ({ s with genNum := gen } : Run G κ).genNum ≤ N ∧ NumsShown N ({ s with genNum := gen } : Run G κ) :=
      ⟨by show gen ≤ N; omega, h.2⟩
    refine tri.mono (Stays.tri (stays_updateGen hI.only gen) h0 fun s' h' => h'.2) ?_
    intro _ s₁ h1
    refine tri_bind (tri_get (tri_bind (tri_modify (tri_bind (tri_modify (tri_bind ?_))))))
    refine tri.mono (Stays.tri (stays_generation (c := c) hI) (s := _) h1 fun s' h' => h'.2) ?_
    intro _ s₂ h4
    refine tri_bind (tri.mono (Stays.tri (stays_shouldTerminate (c := c) hI.only gen) h4 fun s' h' => h'.2) ?_)
    intro stop s₃ h5
    refine tri_ite (fun _ => tri_bind (tri_modify (tri_modify ?_))) fun _ => tri_bind (tri_modify (ih _ (by omega) ?_))
    · exact hI.publish { s₃ with finalGen := some gen } _ _ (hI.only s₃ _ rfl rfl rfl h5)
    · exact hI.publish s₃ _ _ h5

/-- No event of a run shows a later generation than `max_generation`. -/
theorem evolve_nums (hlog : s.log = []) (hg : s.genNum = 0) {r : Except Err Unit} (h : evolve c s = (r, s')) :
    NumsShown c.maxGen s' := by
  have hI := numInv (G := G) (κ := κ) c.maxGen
  have h0 : s.genNum ≤ c.maxGen ∧ NumsShown c.maxGen s := ⟨by omega, by unfold NumsShown; rw [hlog]; simp⟩
  have key : tri (evolve c) (fun _ s' => s'.genNum ≤ c.maxGen ∧ NumsShown c.maxGen s') (NumsShown c.maxGen) s := by
    unfold evolve
    refine tri_bind (tri.mono (Stays.tri (stays_init hI) h0 fun s' h' => h'.2) fun _ s₁ h1 => ?_)
    refine tri_bind (tri.mono (Q := fun _ s' => s'.genNum ≤ c.maxGen ∧ NumsShown c.maxGen s') ?_ ?_)
    · unfold afterInit
      refine tri_bind (tri_get (tri_bind (tri.mono (Stays.tri (stays_shouldTerminate hI.only _) h1 fun s' h' => h'.2) ?_)))
      intro stop s₂ h2
      refine tri_ite (fun _ => tri_bind (tri_modify (tri_modify ?_))) fun _ => mainLoop_nums _ _ _ (by omega) h2
      exact hI.publish { s₂ with finalGen := some 0 } _ _ (hI.only s₂ _ rfl rfl rfl h2)
    · intro _ s₂ h2
      exact tri_bind (tri_modify (tri_modify (hI.only _ _ rfl rfl rfl (hI.publish s₂ _ _ h2))))
  have := key r s' h
  cases r with
  | ok _ => exact this.2
  | error _ => exact this

/-- Some generation of the run that ended in `s'` was bred with the generators seeded with `x`. -/
def SeededWith (s' : Run G κ) (x : Nat) : Prop := ∃ e ∈ s'.log, 0 < e.snap.genNum ∧ e.snap.genSeed = x

/-- C105, as the property says it: two repetitions of an experiment with different seeds never seed the generators for a
generation in the same way. -/
def C105_statement : Prop :=
  ∀ (c : Cfg Nat Nat) (s s' t t' : Run Nat Nat), s.log = [] → t.log = [] → s.genNum = 0 → t.genNum = 0 →
    s.genSeed < 2 ^ 32 → t.genSeed < 2 ^ 32 → s.genSeed ≠ t.genSeed →
    evolve c s = (.ok (), s') → evolve c t = (.ok (), t') → ∀ x, SeededWith s' x → ¬ SeededWith t' x

/-- **C105 (partial): when seeds are shared.** Generation `g` of a run with seed `a` and generation `h` of one with seed
`b` are bred with the same seed exactly if `a + g` and `b + h` are equal modulo 2^32 — so the run with seed `a + k` uses
in generation `g` the random numbers that the run with seed `a` uses in generation `g + k`. -/
theorem C105_shared_partial (hs : s.log = []) (ht : t.log = []) (hsg : s.genNum = 0) (htg : t.genNum = 0)
    {r r' : Except Err Unit} (h : evolve c s = (r, s')) (h' : evolve c t = (r', t')) {e e' : Event G} (he : e ∈ s'.log)
    (he' : e' ∈ t'.log) (hg : 0 < e.snap.genNum) (hg' : 0 < e'.snap.genNum) :
    e.snap.genSeed = e'.snap.genSeed ↔
      (s.genSeed + e.snap.genNum) % 2 ^ 32 = (t.genSeed + e'.snap.genNum) % 2 ^ 32 := by
  have h1 := C38_generation_seeds hs hsg h e he
  have h2 := C38_generation_seeds ht htg h' e' he'
  rw [if_neg (by omega)] at h1 h2
  rw [h1, h2]

/-- **C105 (partial): seeds far apart.** If the seeds differ by more than `max_generation` (in both directions, counted
modulo 2^32), no seed is used by both runs. -/
theorem C105_apart_partial (hs : s.log = []) (ht : t.log = []) (hsg : s.genNum = 0) (htg : t.genNum = 0)
    (ha : s.genSeed < 2 ^ 32) (hlt : s.genSeed < t.genSeed) (hb : t.genSeed < 2 ^ 32) (hfar : s.genSeed + c.maxGen ≤ t.genSeed)
    (hfar' : t.genSeed + c.maxGen ≤ s.genSeed + 2 ^ 32)
    {r r' : Except Err Unit} (h : evolve c s = (r, s')) (h' : evolve c t = (r', t')) (x : Nat) (hx : SeededWith s' x) :
    ¬ SeededWith t' x := by
  rintro ⟨e', he', hg', hx'⟩
  obtain ⟨e, he, hg, rfl⟩ := hx
  have key := (C105_shared_partial hs ht hsg htg h h' he he' hg hg').1 hx'.symm
  have n1 := evolve_nums hs hsg h e he
  have n2 := evolve_nums ht htg h' e' he'
  omega

/-- The example run with seed 42, and with seed 43. -/
def exRun43 : Run Nat Nat := { exRun with randomSeed := 43, genSeed := 43 }

theorem exRun43_ends : (evolve exCfg exRun43).1 = .ok () ∧
    ((evolve exCfg exRun43).2.log.map fun e => (e.snap.genNum, e.snap.genSeed)).contains (1, 44) = true ∧
    ((evolve exCfg exRun).2.log.map fun e => (e.snap.genNum, e.snap.genSeed)).contains (2, 44) = true := by decide +kernel

theorem seededWith_of {s' : Run G κ} {g x : Nat} (hg : 0 < g)
    (h : (s'.log.map fun e => (e.snap.genNum, e.snap.genSeed)).contains (g, x) = true) : SeededWith s' x := by
  rw [List.contains_iff_mem] at h
  obtain ⟨e, he, h⟩ := List.mem_map.1 h
  simp only [Prod.mk.injEq] at h
  exact ⟨e, he, by omega, h.2⟩

/-- C105 is false: with seeds 42 and 43, generation 2 of the first run and generation 1 of the second are bred with
seed 44. -/
theorem C105_refuted : ¬ C105_statement := fun h =>
  h exCfg exRun _ exRun43 _ rfl rfl rfl rfl (by decide) (by decide) (by decide) (ran exRun_ends.1) (ran exRun43_ends.1) 44
    (seededWith_of (by decide) exRun43_ends.2.2) (seededWith_of (by decide) exRun43_ends.2.1)

/-- Seeds 42 and 1000 are far apart for a run of the example's length. -/
def exRun1000 : Run Nat Nat := { exRun with randomSeed := 1000, genSeed := 1000 }

theorem exRun1000_ends : (evolve exCfg exRun1000).1 = .ok () := by decide +kernel

example := C105_apart_partial (c := exCfg) (s := exRun) (t := exRun1000) rfl rfl rfl rfl (by decide) (by decide) (by decide)
  (by decide) (by decide) (ran exRun_ends.1) (ran exRun1000_ends) 44

end Verif.Evo
