import Verif.Props.MooSeveral

/-! # C177 — the stagnation checker cannot be used with NSGA-II -/

namespace Verif.Moo
open PyM
variable {G : Type} {c : MCfg G} {s s' t : MRun G} {P : G → Prop} {n m : Nat} {ds : List Bool}

theorem bestObjectives_ok {heap : Heap} {inds : List Nat} (hib : Bool) (hne : inds ≠ []) (hev : ∀ r ∈ inds, (heap r).objs ≠ none) :
    ∃ v, bestObjectives heap hib inds = .ok v := by
  obtain ⟨ks, hks⟩ := lexKeys_ok hev
  unfold bestObjectives
  rw [hks]
  show ∃ v, (match Py.sortBy (fun a b : Nat × List ℚ => if hib then lexLe b.2 a.2 else lexLe a.2 b.2) ks with
    | [] => Except.error Err.indexError
    | k :: _ => .ok k.2) = .ok v
  cases h : Py.sortBy (fun a b : Nat × List ℚ => if hib then lexLe b.2 a.2 else lexLe a.2 b.2) ks with
  | nil =>
    exfalso
    have hl := (Py.sortBy_perm (fun a b : Nat × List ℚ => if hib then lexLe b.2 a.2 else lexLe a.2 b.2) ks).length_eq
    rw [h] at hl
    have := congrArg List.length (lexKeys_fst hks)
    rw [List.length_map] at this
    apply hne
    rw [← List.length_eq_zero_iff, ← this, ← hl]
    rfl
  | cons k l => exact ⟨k.2, rfl⟩

/-- A population the checker can be shown. -/
def Showable (p : Heap × List Nat) : Prop := p.2 ≠ [] ∧ ∀ r ∈ p.2, (p.1 r).objs ≠ none

/-- **C177.** A checker that has not been asked says no. -/
theorem C177_first_partial (hib : Bool) {p : Heap × List Nat} (hp : Showable p) : (mstagnation hib .new p.1 p.2).1 = .ok false := by
  obtain ⟨v, hv⟩ := bestObjectives_ok hib hp.1 hp.2
  unfold mstagnation
  rw [hv]
  rfl

/-- **C177.** A checker that has been asked once raises `TypeError` ever after, whichever populations it has been shown. -/
theorem C177_again (hib : Bool) {ps : List (Heap × List Nat)} (hps : ps ≠ []) (hall : ∀ p ∈ ps, Showable p) {p : Heap × List Nat}
    (hp : Showable p) : (mstagnation hib (mstagAfter hib ps .new) p.1 p.2).1 = .error .typeError := by
  have hseen : ∀ (ps : List (Heap × List Nat)) (k : MStag), (∀ p ∈ ps, Showable p) → (∃ w ws, k.bestFitnesses = some (w :: ws)) →
      ∃ w ws, (mstagAfter hib ps k).bestFitnesses = some (w :: ws) := by
    intro ps
    induction ps with
    | nil => exact fun k _ h => h
    | cons p ps ih =>
      rintro k hall ⟨w, ws, hk⟩
      refine ih _ (fun q hq => hall q (List.mem_cons_of_mem _ hq)) ?_
      obtain ⟨v, hv⟩ := bestObjectives_ok hib (hall p (by simp)).1 (hall p (by simp)).2
      refine ⟨w, ws, ?_⟩
      unfold mstagnation
      rw [hv, hk]
      exact hk
  cases ps with
  | nil => exact absurd rfl hps
  | cons q ps =>
    obtain ⟨v, hv⟩ := bestObjectives_ok hib (hall q (by simp)).1 (hall q (by simp)).2
    obtain ⟨w, ws, hk⟩ := hseen ps (mstagnation hib .new q.1 q.2).2 (fun q' hq => hall q' (List.mem_cons_of_mem _ hq)) (by
      unfold mstagnation
      rw [hv]
      exact ⟨v, [], rfl⟩)
    obtain ⟨u, hu⟩ := bestObjectives_ok hib hp.1 hp.2
    show (mstagnation hib (mstagAfter hib ps (mstagnation hib .new q.1 q.2).2) p.1 p.2).1 = _
    unfold mstagnation at hk ⊢
    rw [hu]
    dsimp only
    rw [hk]

/-- The answers of the checker in a run: `ps` are the populations it has been shown in the generations before `gen`. -/
theorem mstagRun_answers (hib : Bool) {ps : List (Heap × List Nat)} (hall : ∀ p ∈ ps, Showable p) {p : Heap × List Nat}
    (hp : Showable p) (best : Option Nat) :
    mstagRun hib p.1 p.2 best ps.length = (mstagnation hib (mstagAfter hib ps .new) p.1 p.2).1 := by
  unfold mstagRun
  by_cases h : ps = []
  · subst h
    rfl
  · rw [if_neg (by simpa using h), C177_again hib h hall hp]
    obtain ⟨u, hu⟩ := bestObjectives_ok hib hp.1 hp.2
    unfold mstagnation
    rw [hu]

theorem MLiving.showable (hn : 0 < n) (h : MLiving P n m ds s) : Showable (s.w.fits, s.inds.getD []) := by
  obtain ⟨l, hp, hv⟩ := h.pop
  refine ⟨?_, fun r hr => ?_⟩
  · rw [hp.inds]
    intro h0
    have := hp.length
    simp only [Option.getD_some] at h0
    rw [h0] at this
    simp at this
    omega
  · rw [hp.inds] at hr
    obtain ⟨v, hv⟩ := hv r hr
    rw [hv.objs]
    simp

theorem mstep_wp (hc : c.Sound P n m ds) (gen : Nat) (hl : MLiving P n m ds s) : wp (mstep c gen) (fun _ s' => MLiving P n m ds s') s := by
  unfold mstep
  obtain ⟨l, hp, -⟩ := hl.pop
  rw [wp_bind, wp_modify, wp_bind]
  refine (wp_individuals (is := l) (by exact hp.inds)).2 ?_
  rw [wp_bind, wp_get, wp_bind]
  unfold msetSeed
  rw [wp_modify, wp_bind, wp_modify]
  exact mgeneration_wp hc (hl.same rfl rfl rfl rfl rfl)

/-- **C177.** No run of NSGA-II with the stagnation checker completes: a configuration that completes without it — every sound
one — raises `TypeError` in generation 1, when the checker is asked for the second time. -/
theorem C177_raises (hib : Bool) (hc : c.Sound P n m ds) (hf : s.Fresh m ds) (hp : AllHave P s.w) (hg : s.genNum = 0)
    (hmax : 1 ≤ c.maxGen) : (∃ t, mevolve c s = (.ok (), t)) ∧
    ∃ s', mevolve (c.with (mstagRun hib)) s = (.error .typeError, s') ∧ s'.genNum = 1 := by
  refine ⟨let ⟨t, h, _⟩ := C82_completes hc hf hp; ⟨t, h⟩, ?_⟩
  obtain ⟨_, s₁, h1, hl1⟩ := minit_wp hc hf hp
  have h0 : s₁.genNum = 0 := (minit_gen s h1).1.trans hg
  have h1' : minit (c.with (mstagRun hib)) s = (.ok (), s₁) := h1
  rw [mevolve_eq, bind_of_ok h1']
  obtain ⟨_, s₂, h2, hl2⟩ := mstep_wp hc 1 hl1
  have hg2 : s₂.genNum = 1 := (mstep_wlp (c := c) 1 s₁ _ _ h2).1
  have hinit : mafterInit (c.with (mstagRun hib)) s₁ = (.error .typeError, s₂) := by
    have ha := mstagRun_answers hib (ps := []) (by simp) (hl1.showable hc.size) s₁.bestOfRun
    rw [show mstagAfter hib [] MStag.new = .new from rfl, C177_first_partial hib (hl1.showable hc.size)] at ha
    have hb := mstagRun_answers hib (ps := [(s₁.w.fits, s₁.inds.getD [])]) (by simpa using hl1.showable hc.size)
      (hl2.showable hc.size) s₂.bestOfRun
    rw [C177_again hib (by simp) (by simpa using hl1.showable hc.size) (hl2.showable hc.size)] at hb
    rw [mafterInit_with, h0]
    dsimp only at ha hb
    rw [show ([] : List (Heap × List Nat)).length = 0 from rfl] at ha
    rw [ha]
    dsimp only
    obtain ⟨k, hk⟩ : ∃ k, c.maxGen = k + 1 := ⟨c.maxGen - 1, by omega⟩
    rw [hk, mloop_with, h2]
    dsimp only
    rw [show [(s₁.w.fits, s₁.inds.getD [])].length = 1 from rfl] at hb
    rw [hb]
  rw [bind_of_error hinit]
  exact ⟨s₂, rfl, hg2⟩

/-- **C177**, what is true: without generations after the initial one, the run with the stagnation checker completes and is the
run without a checker. -/
theorem C177_partial (hib : Bool) (hc : c.Sound P n m ds) (hf : s.Fresh m ds) (hp : AllHave P s.w) (hg : s.genNum = 0)
    (hmax : c.maxGen = 0) : mevolve (c.with (mstagRun hib)) s = mevolve (c.with noChecker) s ∧
    ∃ t, mevolve (c.with (mstagRun hib)) s = (.ok (), t) := by
  obtain ⟨_, s₁, h1, hl1⟩ := minit_wp hc hf hp
  have h0 : s₁.genNum = 0 := (minit_gen s h1).1.trans hg
  have h1' : minit (c.with (mstagRun hib)) s = (.ok (), s₁) := h1
  have h1'' : minit (c.with noChecker) s = (.ok (), s₁) := h1
  have ha := mstagRun_answers hib (ps := []) (by simp) (hl1.showable hc.size) s₁.bestOfRun
  rw [show mstagAfter hib [] MStag.new = .new from rfl, C177_first_partial hib (hl1.showable hc.size)] at ha
  dsimp only at ha
  rw [show ([] : List (Heap × List Nat)).length = 0 from rfl] at ha
  have e1 : mafterInit (c.with (mstagRun hib)) s₁ = (.ok (), s₁) := by
    rw [mafterInit_with, h0, ha, hmax]
    rfl
  have e2 : mafterInit (c.with noChecker) s₁ = (.ok (), s₁) := by
    rw [mafterInit_with, hmax]
    rfl
  have e : mevolve (c.with (mstagRun hib)) s = mevolve (c.with noChecker) s := by
    rw [mevolve_eq, mevolve_eq, bind_of_ok h1', bind_of_ok h1'', bind_of_ok e1, bind_of_ok e2]
  have hc' : (c.with noChecker).Sound P n m ds := { hc with calm := fun _ _ _ _ _ => ⟨false, rfl⟩ }
  obtain ⟨t, ht, -⟩ := C82_completes hc' hf hp
  exact ⟨e, t, e.trans ht⟩

/-- **C177**, the statement: what completes without a checker completes with the stagnation checker. -/
def C177_statement : Prop := ∀ (c : MCfg GA.Vec) (s : MRun GA.Vec) (hib : Bool), (∃ t, mevolve (c.with noChecker) s = (.ok (), t)) →
  ∃ t, mevolve (c.with (mstagRun hib)) s = (.ok (), t)

/-- The sample run. -/
theorem exVector_sound : exVector.Sound (GA.Legal .float (.tup [0, 1]) 3) 4 2 [false, true] :=
  exVector_assembled.sound (fun _ h => h.creates GA.exLib_proper) (fun _ h => h.good) (fun _ h _ => h.worksOn GA.exLib_proper)

theorem exVectorRun_fresh : exVectorRun.Fresh 2 [false, true] := ⟨rfl, fun r hr => absurd hr (Nat.not_lt_zero r), rfl, rfl⟩

/-- **C177 is false**, for instance for the sample run. -/
theorem C177_refuted : ¬ C177_statement := by
  intro h
  obtain ⟨h1, s', h2, -⟩ := C177_raises false exVector_sound exVectorRun_fresh (fun r hr => absurd hr (Nat.not_lt_zero r)) rfl
    (show 1 ≤ exVector.maxGen by decide)
  obtain ⟨t, ht⟩ := h exVector exVectorRun false h1
  rw [h2] at ht
  exact absurd (congrArg Prod.fst ht) (by simp)

/-- The sample run with the initial generation only. -/
example : ∃ t, mevolve ({ exVector with maxGen := 0 }.with (mstagRun true)) exVectorRun = (.ok (), t) :=
  (C177_partial (c := { exVector with maxGen := 0 }) true { exVector_sound with } exVectorRun_fresh
    (fun r hr => absurd hr (Nat.not_lt_zero r)) rfl rfl).2

/-- A population with one evaluated individual. -/
example : Showable (fun _ => { (Fit.new (some [1, 2]) (.each [false, true]) false false) with objs := some [1, 2] }, [0]) :=
  ⟨by simp, by simp⟩

end Verif.Moo
