import Verif.Model.Membership
import Verif.Props.Shown

/-! # C117: generations share no individuals -/

namespace Verif.Evo
open PyM
variable {G κ : Type} {c : Cfg G κ} {sub : SubCfg G} {m : Mode} {s s' : Run G κ}

/-- The end of a breeding step. -/
def Event.IsBreed (e : Event G) : Prop := e.publisher = "breeder" ∧ e.name = "after_operator"

/-- Nobody seen before the end of a breeding step is in the population then or later. -/
def Apart (log : List (Event G)) : Prop :=
  ∀ past b future, log = past ++ b :: future → b.IsBreed → ∀ e' ∈ past, ∀ e ∈ b :: future, ∀ r, e'.Shows r → ¬ e.Shows r

/-- The invariant. -/
structure Parted (s : Run G κ) : Prop where
  apart : Apart s.log
  old : ∀ e ∈ s.log, ∀ r, e.Shows r → r < s.w.heap.length
  pop : ∀ past b future, s.log = past ++ b :: future → b.IsBreed → ∀ e' ∈ past, ∀ r, e'.Shows r → ∀ is, some is ∈ s.inds → r ∉ is
  valid : ∀ is, some is ∈ s.inds → ∀ r ∈ is, r < s.w.heap.length

/-- The part of it that survives exceptions. -/
abbrev ApartLog (s : Run G κ) : Prop := Apart s.log

theorem snoc_eq_split {α : Type} {l past future : List α} {x b : α} (h : l ++ [x] = past ++ b :: future) :
    (future = [] ∧ past = l ∧ b = x) ∨ ∃ f, future = f ++ [x] ∧ l = past ++ b :: f := by
  rcases List.eq_nil_or_concat future with rfl | ⟨f, y, rfl⟩
  · have := List.append_inj' h (by simp)
    exact .inl ⟨rfl, this.1.symm, by simpa using this.2.symm⟩
  · have h' : l ++ [x] = (past ++ b :: f) ++ [y] := by simpa using h
    obtain ⟨h1, h2⟩ := List.append_inj' h' rfl
    obtain rfl : x = y := by simpa using h2
    exact .inr ⟨f, by simp, h1⟩

theorem Parted.push {p n : String} (h : Parted s) (hb : ¬ (p = "breeder" ∧ n = "after_operator")) : Parted (s.push p n) where
  apart := by
    intro past b future hl hbr e' he' e he r hs
    rcases snoc_eq_split hl with ⟨-, -, rfl⟩ | ⟨f, rfl, hl₁⟩
    · exact absurd hbr hb
    · rw [← List.cons_append, List.mem_append, List.mem_singleton] at he
      rcases he with he | rfl
      · exact h.apart past b f hl₁ hbr e' he' e he r hs
      · rintro ⟨is, hi, hr⟩
        exact h.pop past b f hl₁ hbr e' he' r hs is hi hr
  old := by
    intro e he r hs
    simp only [Run.push, List.mem_append, List.mem_singleton] at he
    rcases he with he | rfl
    · exact h.old e he r hs
    · obtain ⟨is, hi, hr⟩ := hs
      exact h.valid is hi r hr
  pop := by
    intro past b future hl hbr e' he' r hs is hi
    rcases snoc_eq_split hl with ⟨-, -, rfl⟩ | ⟨f, rfl, hl₁⟩
    · exact absurd hbr hb
    · exact h.pop past b f hl₁ hbr e' he' r hs is hi
  valid := h.valid

/-- The same log and population, in a heap that is not smaller. -/
theorem Parted.same {t : Run G κ} (h : Parted s) (hl : t.log = s.log) (hi : t.inds = s.inds)
    (hn : s.w.heap.length ≤ t.w.heap.length) : Parted t where
  apart := by rw [hl]; exact h.apart
  old := by rw [hl]; exact fun e he r hs => Nat.lt_of_lt_of_le (h.old e he r hs) hn
  pop := by rw [hl, hi]; exact h.pop
  valid := by rw [hi]; exact fun is hi r hr => Nat.lt_of_lt_of_le (h.valid is hi r hr) hn

theorem breed_parted (hc : c.Ordinary sub m) (ha : Alive c.size m s) (h : Parted s) :
    tri (breed c) (fun _ => Parted) ApartLog s := by
  unfold breed act
  refine tri_bind (tri_publish ?_)
  have h1 := h.push (p := "breeder") (n := "before_operator") (by simp)
  have ha1 := ha.push (p := "breeder") (n := "before_operator") (by simp)
  generalize s.push "breeder" "before_operator" = s₁ at h1 ha1
  refine tri_bind ?_
  unfold breedBody
  refine tri_bind (tri_get ?_)
  obtain ⟨is, hi, hn, hm⟩ := ha1.pop
  refine tri_bind (tri_world (E := ApartLog) ?_ fun w => h1.apart)
  rw [hc.subs, hi]
  show wlp (breedAll c.size [(sub, some is)]) _ _
  unfold breedAll
  rw [wlp_bind]
  refine (breedSub_wlp hc.sels hc.ops hm).mono fun res w hb => ?_
  unfold breedAll
  rw [wlp_bind, wlp_pure, wlp_pure]
  refine tri_modify (tri_bind (tri_publish (tri_pure ?_)))
  have hfresh : ∀ e' ∈ s₁.log, ∀ r, e'.Shows r → r ∉ res := by
    intro e' he' r hs hr
    have := h1.old e' he' r hs
    have := hb.fresh r hr
    omega
  have hlen := hb.ext.len
  refine ⟨?_, ?_, ?_, ?_⟩
  · intro past b future hl hbr e' he' e he r hs
    rcases snoc_eq_split hl with ⟨rfl, rfl, rfl⟩ | ⟨f, rfl, hl₁⟩
    · simp only [List.mem_singleton] at he
      subst he
      rintro ⟨js, hj, hr⟩
      have hj' : some js ∈ [some res] := hj
      simp only [List.mem_singleton, Option.some.injEq] at hj'
      subst hj'
      exact hfresh e' he' r hs hr
    · rw [← List.cons_append, List.mem_append, List.mem_singleton] at he
      rcases he with he | rfl
      · exact h1.apart past b f hl₁ hbr e' he' e he r hs
      · rintro ⟨js, hj, hr⟩
        have hj' : some js ∈ [some res] := hj
        simp only [List.mem_singleton, Option.some.injEq] at hj'
        subst hj'
        have hl' : s₁.log = past ++ b :: f := hl₁
        exact hfresh e' (by rw [hl']; simp [he']) r hs hr
  · intro e he r hs
    simp only [Run.push, List.mem_append, List.mem_singleton] at he
    rcases he with he | rfl
    · exact Nat.lt_of_lt_of_le (h1.old e he r hs) hlen
    · obtain ⟨js, hj, hr⟩ := hs
      have hj' : some js ∈ [some res] := hj
      simp only [List.mem_singleton, Option.some.injEq] at hj'
      subst hj'
      exact hb.valid r hr
  · intro past b future hl hbr e' he' r hs js hj
    have hj' : some js ∈ [some res] := hj
    simp only [List.mem_singleton, Option.some.injEq] at hj'
    subst hj'
    rcases snoc_eq_split hl with ⟨-, rfl, -⟩ | ⟨f, rfl, hl₁⟩
    · exact hfresh e' he' r hs
    · have hl' : s₁.log = past ++ b :: f := hl₁
      exact hfresh e' (by rw [hl']; simp [he']) r hs
  · intro js hj r hr
    have hj' : some js ∈ [some res] := hj
    simp only [List.mem_singleton, Option.some.injEq] at hj'
    subst hj'
    exact hb.valid r hr

theorem evaluate_parted (hc : c.Ordinary sub m) {is : List Nat} (hi : s.inds = [some is])
    (hm : ∀ r ∈ is, modeAt s.w r = some m) (h : Parted s) :
    tri (evaluatePopulation c) (fun _ => Parted) ApartLog s := by
  unfold evaluatePopulation act
  refine tri_bind (tri_publish ?_)
  have h1 := h.push (p := "population_evaluator") (n := "before_operator") (by simp)
  have hi1 : (s.push "population_evaluator" "before_operator").inds = [some is] := hi
  have hm1 : ∀ r ∈ is, modeAt (s.push "population_evaluator" "before_operator").w r = some m := hm
  generalize s.push "population_evaluator" "before_operator" = s₁ at h1 hi1 hm1
  refine tri_bind ((evaluateBody_wlp hc hi1 hm1 (E := ApartLog) (fun w => h1.apart)).mono ?_)
  rintro b _ ⟨w, rfl, -, -, hlen, -⟩
  have h2 : Parted { s₁ with w := w } := h1.same rfl rfl (Nat.le_of_eq hlen.symm)
  exact tri_bind (tri_publish (tri_pure (h2.push (by simp))))

theorem recordBest_parted {b : Nat} (h : Parted s) : tri (recordBest c b) (fun _ => Parted) ApartLog s := by
  unfold recordBest
  refine tri_bind (tri_get ?_)
  refine tri_bind (tri_world (E := ApartLog) ?_ fun w => h.apart)
  rw [wlp_reading]
  intro v _
  exact tri_ite (fun _ => tri_modify (h.same rfl rfl (Nat.le_refl _))) (fun _ => tri_pure h)

theorem recordWorst_parted (h : Parted s) : tri (recordWorst c) (fun _ => Parted) ApartLog s := by
  unfold recordWorst
  refine tri_bind (tri_get ?_)
  split
  · refine tri_bind (tri_world (E := ApartLog) ?_ fun w => h.apart)
    rw [wlp_reading]
    intro v _
    exact tri_modify (h.same rfl rfl (Nat.le_refl _))
  · exact tri_raise h.apart

theorem generation_parted (hc : c.Ordinary sub m) (ha : Alive c.size m s) (h : Parted s) :
    tri (generationIteration c) (fun _ => Parted) ApartLog s := by
  unfold generationIteration
  refine tri_bind ?_
  intro r s₁ e
  have h1 := tri_and (breed_alive hc ha) (breed_parted hc ha h) r s₁ e
  cases r with
  | error _ => exact h1.2
  | ok _ =>
    obtain ⟨hb, h1⟩ := h1
    obtain ⟨is, hi, hn, hm⟩ := hb.alive.pop
    refine tri_bind ((evaluate_parted hc hi hm h1).mono fun b s₂ h2 => tri_bind (tri_modify ?_))
    have h3 : Parted { s₂ with bestOfGen := some b } := h2.same rfl rfl (Nat.le_refl _)
    exact tri_bind ((recordBest_parted h3).mono fun _ s₃ h4 => recordWorst_parted h4)

theorem updateGen_parted (h : Parted s) {is : List Nat} (hi : s.inds = [some is]) (gen : Nat) :
    tri (updateGen gen) (fun _ => Parted) ApartLog s := by
  unfold updateGen
  refine tri_bind (tri_get ?_)
  rw [hi]
  unfold forL
  refine tri_bind (tri_world (E := ApartLog) ?_ fun w => h.apart)
  refine (wlp_forL (I := fun _ (w : World G) => w.heap.length = s.w.heap.length) rfl ?_).mono fun _ w hw => ?_
  · rintro pre a post w _ hw
    rw [wlp_update]
    simpa using hw
  · unfold forL
    exact tri_pure (h.same rfl rfl (Nat.le_of_eq hw.symm))

theorem shouldTerminate_parted (h : Parted s) (gen : Nat) : tri (shouldTerminate c gen) (fun _ => Parted) ApartLog s := by
  intro r s' e
  obtain ⟨ks, rfl⟩ := shouldTerminate_same gen r s' e
  cases r with
  | ok _ => exact h.same rfl rfl (Nat.le_refl _)
  | error _ => exact h.apart

theorem mainLoop_parted (hc : c.Ordinary sub m) (n gen : Nat) {s : Run G κ} (ha : Alive c.size m s) (h : Parted s) :
    tri (mainLoop c n gen) (fun _ => Parted) ApartLog s := by
  induction n generalizing gen s with
  | zero => exact tri_pure h
  | succ n ih =>
    unfold mainLoop
    refine tri_bind (tri_modify ?_)
    have ha0 : Alive c.size m { s with genNum := gen } := ⟨ha.log, ha.best, ha.pop⟩
    have h0 : Parted { s with genNum := gen } := h.same rfl rfl (Nat.le_refl _)
    obtain ⟨is, hi, -⟩ := ha0.pop
    refine tri_bind ?_
    intro r s₁ e
    have g1 := tri_and (updateGen_alive ha0 gen) (updateGen_parted h0 hi gen) r s₁ e
    cases r with
    | error _ => exact g1.2
    | ok _ =>
    obtain ⟨ha1, h1⟩ := g1
    refine tri_bind (tri_get ?_)
    refine tri_bind (tri_modify ?_)
    refine tri_bind (tri_modify ?_)
    refine tri_bind ?_
    have ha1' : Alive c.size m { s₁ with w := { s₁.w with tape := c.stream (nextSeed s₁.genSeed) }, genSeed := nextSeed s₁.genSeed } :=
      ⟨ha1.log, ha1.best, ha1.pop⟩
    have h1' : Parted { s₁ with w := { s₁.w with tape := c.stream (nextSeed s₁.genSeed) }, genSeed := nextSeed s₁.genSeed } :=
      h1.same rfl rfl (Nat.le_refl _)
    intro r s₂ e
    have g2 := tri_and (generation_alive hc ha1') (generation_parted hc ha1' h1') r s₂ e
    cases r with
    | error _ => exact g2.2
    | ok _ =>
    obtain ⟨ha2, h2⟩ := g2
    refine tri_bind ?_
    intro r s₃ e
    have g3 := tri_and (shouldTerminate_alive ha2 gen) (shouldTerminate_parted h2 gen) r s₃ e
    cases r with
    | error _ => exact g3.2
    | ok stop =>
    obtain ⟨ha3, h3⟩ := g3
    refine tri_ite (fun _ => ?_) (fun _ => ?_)
    · refine tri_bind (tri_modify (tri_publish ?_))
      exact Parted.push (s := { s₃ with finalGen := some gen }) (h3.same rfl rfl (Nat.le_refl _)) (by simp)
    · exact tri_bind (tri_publish (ih _ (ha3.push (by simp)) (h3.push (by simp))))

theorem initRun_parted (hc : c.Ordinary sub m) (hr : s.Ready m) (hlog : s.log = []) :
    tri (initRun c) (fun _ => Parted) ApartLog s := by
  have hap : Apart ([] : List (Event G)) := by intro past b future hl; simp at hl
  unfold initRun
  refine tri_bind (tri_get ?_)
  refine tri_bind (tri_modify ?_)
  refine tri_bind ?_
  unfold createPopulation
  refine tri_bind (tri_get ?_)
  refine tri_bind (tri_world (E := ApartLog) ?_ fun w => by show Apart s.log; rw [hlog]; exact hap)
  obtain ⟨o, ho, hgood⟩ : ∃ o, s.inds = [o] ∧ ∀ is, o = some is → is.Nodup ∧ ∀ r ∈ is, modeAt s.w r = some m := by
    rcases hr with h | ⟨is, h, h1, h2⟩
    · exact ⟨none, h, by simp⟩
    · exact ⟨some is, h, by rintro is' h'; cases h'; exact ⟨h1, h2⟩⟩
  rw [hc.subs]
  dsimp only
  rw [ho]
  show wlp (mapL _ [(sub, o)]) _ _
  unfold mapL
  rw [wlp_bind]
  refine (createSub_ready hc.dir hc.creators o (w := { s.w with tape := c.stream s.randomSeed }) hgood).mono ?_
  rintro res w ⟨is, rfl, hn, hm⟩
  unfold mapL
  rw [wlp_bind, wlp_pure, wlp_pure]
  refine tri_modify ?_
  have h1 : Parted { s with w := w, inds := [some is] } := by
    refine ⟨?_, ?_, ?_, ?_⟩
    · show Apart s.log
      rw [hlog]; exact hap
    · intro e he
      have he' : e ∈ s.log := he
      rw [hlog] at he'
      simp at he'
    · intro past b future hl
      have hl' : s.log = past ++ b :: future := hl
      rw [hlog] at hl'
      simp at hl'
    · intro js hj r hr
      have hj' : some js ∈ [some is] := hj
      simp only [List.mem_singleton, Option.some.injEq] at hj'
      subst hj'
      exact modeAt_lt (hm r hr)
  refine tri_bind ((evaluate_parted hc (is := is) rfl hm h1).mono fun b s₂ h2 => ?_)
  refine tri_bind (tri_modify (tri_publish ?_))
  exact Parted.push (s := { s₂ with bestOfRun := some b }) (h2.same rfl rfl (Nat.le_refl _)) (by simp)

theorem evolve_parted (hc : c.Ordinary sub m) (hr : s.Ready m) (hlog : s.log = []) :
    tri (evolve c) (fun _ => Parted) ApartLog s := by
  unfold evolve
  refine tri_bind ?_
  intro r s₁ e
  have g1 := tri_and (initRun_alive hc hr hlog) (initRun_parted hc hr hlog) r s₁ e
  cases r with
  | error _ => exact g1.2
  | ok _ =>
  obtain ⟨ha1, h1⟩ := g1
  refine tri_bind (tri.mono (Q := fun _ s₂ => Parted s₂) ?_ fun _ s₂ h2 => ?_)
  · unfold afterInit
    refine tri_bind (tri_get (tri_bind ?_))
    intro r s₃ e
    have g3 := tri_and (shouldTerminate_alive ha1 s₁.genNum) (shouldTerminate_parted h1 s₁.genNum) r s₃ e
    cases r with
    | error _ => exact g3.2
    | ok v =>
    obtain ⟨ha3, h3⟩ := g3
    refine tri_ite (fun _ => tri_bind (tri_modify (tri_publish ?_))) (fun _ => mainLoop_parted hc _ _ ha3 h3)
    exact Parted.push (s := { s₃ with finalGen := some 0 }) (h3.same rfl rfl (Nat.le_refl _)) (by simp)
  · refine tri_bind (tri_publish (tri_modify ?_))
    have := h2.push (p := "algorithm") (n := "evolution_finished") (by simp)
    exact this.same rfl rfl (Nat.le_refl _)

/-- `find_individual_subpopulation` finds exactly the members of the population. -/
theorem C117_find {l : List (Option (List Nat))} (h : ∀ o ∈ l, o ≠ none) (r : Nat) :
    (∀ k, findSub l r = .ok k ↔ ∃ is, l[k]? = some (some is) ∧ r ∈ is ∧ ∀ j < k, ∀ is', l[j]? = some (some is') → r ∉ is') ∧
    ((∀ is, some is ∈ l → r ∉ is) → findSub l r = .error .valueError) := by
  induction l with
  | nil => simp [findSub]
  | cons o l ih =>
    cases o with
    | none => exact absurd rfl (h none (by simp))
    | some is =>
      obtain ⟨h1, h2⟩ := ih fun o ho => h o (by simp [ho])
      unfold findSub
      by_cases hr : r ∈ is
      · simp only [List.contains_eq_mem, hr, decide_true, if_true]
        refine ⟨fun k => ?_, fun hc => absurd hr (hc is (by simp))⟩
        constructor
        · intro hk
          cases hk
          exact ⟨is, rfl, hr, by simp⟩
        · rintro ⟨is', hk, -, hj⟩
          cases k with
          | zero => rfl
          | succ k => exact absurd hr (hj 0 (by omega) is rfl)
      · simp only [List.contains_eq_mem, hr, decide_false, Bool.false_eq_true, if_false]
        constructor
        · intro k
          cases k with
          | zero =>
            constructor
            · intro hk
              split at hk <;> simp at hk
            · rintro ⟨is', hk, hr', -⟩
              simp only [List.getElem?_cons_zero, Option.some.injEq] at hk
              exact absurd (hk ▸ hr') hr
          | succ k =>
            refine Iff.trans (b := findSub l r = .ok k) ?_ ((h1 k).trans ?_)
            · cases findSub l r <;> simp
            constructor
            · rintro ⟨is', hk, hr', hj⟩
              refine ⟨is', by simpa using hk, hr', fun j hj' is'' hi => ?_⟩
              cases j with
              | zero =>
                simp only [List.getElem?_cons_zero, Option.some.injEq] at hi
                exact hi ▸ hr
              | succ j => exact hj j (by omega) is'' (by simpa using hi)
            · rintro ⟨is', hk, hr', hj⟩
              exact ⟨is', by simpa using hk, hr', fun j hj' is'' hi => hj (j + 1) (by omega) is'' (by simpa using hi)⟩
        · intro hc
          rw [h2 fun is' hi => hc is' (by simp [hi])]

/-- C117: no individual seen in the population before a breeding step — whoever published the event — is in the population
at any event from the end of that step on, also if the run raises later; and `find_individual_subpopulation` says so. -/
theorem C117_generations (hc : c.Ordinary sub m) (hr : s.Ready m) (hlog : s.log = []) (r : Except Err Unit)
    (h : evolve c s = (r, s')) {past future : List (Event G)} {b : Event G} (hl : s'.log = past ++ b :: future) (hb : b.IsBreed) :
    ∀ e' ∈ past, ∀ e ∈ b :: future, ∀ x, e'.Shows x → ¬ e.Shows x ∧
      ((∀ o ∈ e.snap.inds, o ≠ none) → findSub e.snap.inds x = .error .valueError) := by
  intro e' he' e he x hs
  have key : Apart s'.log := by
    have := evolve_parted hc hr hlog r s' h
    cases r with
    | ok _ => exact Parted.apart this
    | error _ => exact this
  have hn := key past b future hl hb e' he' e he x hs
  exact ⟨hn, fun ho => (C117_find ho x).2 fun is hi hx => hn ⟨is, hi, hx⟩⟩

/-- C117: the same at the end of a run: nobody seen before the last breeding step is left. -/
theorem C117_end (hc : c.Ordinary sub m) (hr : s.Ready m) (hlog : s.log = [])
    (h : evolve c s = (.ok (), s')) {past future : List (Event G)} {b : Event G} (hl : s'.log = past ++ b :: future) (hb : b.IsBreed) :
    ∀ e' ∈ past, ∀ x, e'.Shows x → ∀ is, some is ∈ s'.inds → x ∉ is :=
  (evolve_parted hc hr hlog _ s' h).pop past b future hl hb

/-! ## Examples -/

theorem prog_halve_breeds : ((evolve (progCfg halve) progRun).2.log[4]?).any
    (fun e => e.publisher == "breeder" && e.name == "after_operator") = true := by decide +kernel

example : ∃ past b future, (evolve (progCfg halve) progRun).2.log = past ++ b :: future ∧ past.length = 4 ∧ b.IsBreed ∧
    (∀ e' ∈ past, ∀ e ∈ b :: future, ∀ x, e'.Shows x → ¬ e.Shows x) ∧
    ∀ e' ∈ past, ∀ x, e'.Shows x → ∀ is, some is ∈ (evolve (progCfg halve) progRun).2.inds → x ∉ is := by
  obtain ⟨b, hb, h⟩ := (Option.any_eq_true _ _).1 prog_halve_breeds
  obtain ⟨hlt, rfl⟩ := List.getElem?_eq_some_iff.1 hb
  have hl := (List.take_append_drop 4 (evolve (progCfg halve) progRun).2.log).symm
  rw [List.drop_eq_getElem_cons hlt] at hl
  have hbr : ((evolve (progCfg halve) progRun).2.log[4]).IsBreed := by simpa [Event.IsBreed] using h
  refine ⟨_, _, _, hl, by rw [List.length_take]; omega, hbr, ?_, ?_⟩
  · exact fun e' he' e he x hx =>
      (C117_generations (progCfg_ordinary halve_good) progRun_ready rfl _ (ran prog_halve_ends) hl hbr e' he' e he x hx).1
  · exact C117_end (progCfg_ordinary halve_good) progRun_ready rfl (ran prog_halve_ends) hl hbr

example : findSub [some [3, 4], some [5]] 5 = .ok 1 ∧ findSub [some [3, 4], some [5]] 6 = .error .valueError := by decide

end Verif.Evo
