import Verif.Props.Shorter
import Verif.Lemmas.Unstuck

/-! # C176 — a list of stopping criteria ends a run when the first of them is met -/

namespace Verif.Evo
open PyM
variable {G κ : Type} {c : Cfg G κ} {s s' t : Run G κ} {ts : List (Checker G κ)}

/-- The configuration with other termination checkers. -/
def Cfg.checkedBy (c : Cfg G κ) (ck : Checkers G κ) : Cfg G κ := { c with checker := ck }

/-- The run with a single checker, in state `k`. -/
def Run.alone (k : κ) (s : Run G κ) : Run G κ := { s with checkers := [k] }

theorem Unchecked.alone {α : Type} {m : RM G κ α} (h : Unchecked m) (k : κ) (s : Run G κ) :
    m (s.alone k) = ((m s).1, (m s).2.alone k) := by
  have := h (fun _ => [k]) id s
  rw [except_map_id] at this
  exact this

theorem Unchecked.kept {α : Type} {m : RM G κ α} (h : Unchecked m) (s : Run G κ) : (m s).2.checkers = s.checkers := by
  have := h (fun _ => s.checkers) id s
  rw [except_map_id] at this
  have e : s.rechecked (fun _ => s.checkers) id = s := rfl
  rw [e] at this
  have := congrArg (fun p => p.2.checkers) this
  exact this

/-- What the loop does in generation `gen` before the checkers are asked. -/
def estep (c : Cfg G κ) (gen : Nat) : RM G κ Unit := do
  modify fun s => { s with genNum := gen }
  updateGen gen
  let s ← PyM.get
  setSeed c (nextSeed s.genSeed)
  modify fun s => { s with genSeed := nextSeed s.genSeed }
  generationIteration c

theorem estep_unchecked (gen : Nat) : Unchecked (estep c gen) := by
  refine (Unchecked.modify fun _ _ _ => rfl).bind fun _ => (updateGen_unchecked gen).bind fun _ => ?_
  refine Unchecked.reads (fun _ _ _ => rfl) fun s => ?_
  exact Unchecked.bind (Unchecked.modify fun _ _ _ => rfl) fun _ => Unchecked.bind (Unchecked.modify fun _ _ _ => rfl) fun _ =>
    generation_unchecked c

theorem mainLoop_checked (ck : Checkers G κ) (n gen : Nat) (s : Run G κ) : mainLoop (c.checkedBy ck) (n + 1) gen s =
    match estep c gen s with
    | (.error e, s₁) => (.error e, s₁)
    | (.ok _, s₁) => match shouldTerminate (c.checkedBy ck) gen s₁ with
      | (.error e, s₂) => (.error e, s₂)
      | (.ok true, s₂) => (publish "algorithm" "after_generation") { s₂ with finalGen := some gen }
      | (.ok false, s₂) => mainLoop (c.checkedBy ck) n (gen + 1) (publish "algorithm" "after_generation" s₂).2 := by
  have e : mainLoop (c.checkedBy ck) (n + 1) gen = (do
      estep c gen
      let stop ← shouldTerminate (c.checkedBy ck) gen
      if stop then do
        modify fun s => { s with finalGen := some gen }
        publish "algorithm" "after_generation"
      else do
        publish "algorithm" "after_generation"
        mainLoop (c.checkedBy ck) n (gen + 1)) := by
    unfold estep
    conv => lhs; unfold mainLoop
    simp only [bind_assoc]
    rfl
  rw [e, bind_run]
  rcases estep c gen s with ⟨_ | _, s₁⟩
  · rfl
  · dsimp only
    rw [bind_run]
    rcases shouldTerminate (c.checkedBy ck) gen s₁ with ⟨_ | a, s₂⟩
    · rfl
    · cases a <;> rfl

theorem afterInit_checked (ck : Checkers G κ) (s : Run G κ) : afterInit (c.checkedBy ck) s =
    match shouldTerminate (c.checkedBy ck) s.genNum s with
    | (.error e, s₂) => (.error e, s₂)
    | (.ok true, s₂) => (publish "algorithm" "after_generation") { s₂ with finalGen := some 0 }
    | (.ok false, s₂) => mainLoop (c.checkedBy ck) c.maxGen 1 s₂ := by
  unfold afterInit
  rw [bind_run]
  show (shouldTerminate (c.checkedBy ck) s.genNum >>= _) s = _
  rw [bind_run]
  rcases shouldTerminate (c.checkedBy ck) s.genNum s with ⟨_ | a, s₂⟩
  · rfl
  · cases a <;> rfl

/-! ## The answers -/

/-- How the checkers of a list answer. -/
theorem consult_cases (heap : List (Ind G)) (inds : List (Option (List Nat))) (best : Option Nat) (gen : Nat) (ts : List (Checker G κ))
    (ks : List κ) (hl : ks.length = ts.length) : (consult heap inds best gen ts ks).2.length = ts.length ∧
    ((∃ e, (consult heap inds best gen ts ks).1 = .error e ∧ ∃ (i : Nat) (t : Checker G κ) (k k' : κ), ts[i]? = some t ∧ ks[i]? = some k ∧
        t k heap inds best gen = (.error e, k') ∧ (consult heap inds best gen ts ks).2[i]? = some k') ∨
      ∃ bs, (consult heap inds best gen ts ks).1 = .ok bs ∧ bs.length = ts.length ∧ ∀ (i : Nat) (t : Checker G κ) (k : κ), ts[i]? = some t →
        ks[i]? = some k → ∃ b k', t k heap inds best gen = (.ok b, k') ∧ bs[i]? = some b ∧
          (consult heap inds best gen ts ks).2[i]? = some k') := by
  induction ts generalizing ks with
  | nil =>
    cases ks with
    | cons => simp at hl
    | nil => exact ⟨rfl, .inr ⟨[], rfl, rfl, by simp⟩⟩
  | cons t ts ih =>
    cases ks with
    | nil => simp at hl
    | cons k ks =>
      obtain ⟨ih1, ih2⟩ := ih ks (by simpa using hl)
      unfold consult
      rcases ht : t k heap inds best gen with ⟨e | b, k'⟩
      · exact ⟨by simpa using hl, .inl ⟨e, rfl, 0, t, k, k', rfl, rfl, ht, rfl⟩⟩
      · dsimp only
        rcases hc : consult heap inds best gen ts ks with ⟨e | bs, ks'⟩
        · rw [hc] at ih1 ih2
          refine ⟨by simpa using ih1, .inl ⟨e, rfl, ?_⟩⟩
          rcases ih2 with ⟨e', h1, i, t', j, j', h2, h3, h4, h5⟩ | ⟨bs, h1, -⟩
          · cases h1
            exact ⟨i + 1, t', j, j', h2, h3, h4, h5⟩
          · cases h1
        · rw [hc] at ih1 ih2
          refine ⟨by simpa using ih1, .inr ⟨b :: bs, rfl, ?_⟩⟩
          rcases ih2 with ⟨e', h1, -⟩ | ⟨bs', h1, h2, h3⟩
          · cases h1
          · cases h1
            refine ⟨by simp [h2], ?_⟩
            rintro (_ | i) t' j ht' hj
            · cases ht'
              cases hj
              exact ⟨b, k', ht, rfl, rfl⟩
            · exact h3 i t' j ht' hj

/-- Asking the list and asking its checkers alone. -/
theorem asked_cases (gen : Nat) {s : Run G κ} (hl : s.checkers.length = ts.length) :
    ∃ r ks', shouldTerminate (c.checkedBy (.many ts)) gen s = (r, { s with checkers := ks' }) ∧ ks'.length = ts.length ∧
    ((∃ e, r = .error e ∧ ∃ (i : Nat) (t : Checker G κ) (k k' : κ), ts[i]? = some t ∧ s.checkers[i]? = some k ∧ ks'[i]? = some k' ∧
        shouldTerminate (c.checkedBy (.one t)) gen (s.alone k) = (.error e, s.alone k')) ∨
      (r = .ok true ∧ ∃ (i : Nat) (t : Checker G κ) (k k' : κ), ts[i]? = some t ∧ s.checkers[i]? = some k ∧ ks'[i]? = some k' ∧
        shouldTerminate (c.checkedBy (.one t)) gen (s.alone k) = (.ok true, s.alone k')) ∨
      (r = .ok false ∧ ∀ (i : Nat) (t : Checker G κ) (k : κ), ts[i]? = some t → s.checkers[i]? = some k → ∃ k', ks'[i]? = some k' ∧
        shouldTerminate (c.checkedBy (.one t)) gen (s.alone k) = (.ok false, s.alone k'))) := by
  have hone : ∀ (t : Checker G κ) (k : κ), shouldTerminate (c.checkedBy (.one t)) gen (s.alone k) =
      ((t k s.w.heap s.inds s.bestOfRun gen).1, s.alone (t k s.w.heap s.inds s.bestOfRun gen).2) := fun t k => rfl
  obtain ⟨h1, h2⟩ := consult_cases s.w.heap s.inds s.bestOfRun gen ts s.checkers hl
  have hmany : shouldTerminate (c.checkedBy (.many ts)) gen s = match consult s.w.heap s.inds s.bestOfRun gen ts s.checkers with
    | (.error e, ks) => (.error e, { s with checkers := ks })
    | (.ok bs, ks) => (.ok (bs.any id), { s with checkers := ks }) := rfl
  rw [hmany]
  rcases hc : consult s.w.heap s.inds s.bestOfRun gen ts s.checkers with ⟨e | bs, ks'⟩
  · rw [hc] at h1 h2
    refine ⟨_, ks', rfl, h1, .inl ⟨e, rfl, ?_⟩⟩
    rcases h2 with ⟨e', g1, i, t, k, k', g2, g3, g4, g5⟩ | ⟨bs, g1, -⟩
    · cases g1
      exact ⟨i, t, k, k', g2, g3, g5, by rw [hone, g4]⟩
    · cases g1
  · rw [hc] at h1 h2
    refine ⟨_, ks', rfl, h1, .inr ?_⟩
    rcases h2 with ⟨e', g1, -⟩ | ⟨bs', g1, g2, g3⟩
    · cases g1
    · cases g1
      cases hany : bs.any id with
      | true =>
        obtain ⟨b, hb, hbt⟩ := List.any_eq_true.1 hany
        obtain ⟨i, hi⟩ := List.getElem?_of_mem hb
        have hib : i < bs.length := (List.getElem?_eq_some_iff.1 hi).1
        have hit : i < ts.length := by omega
        obtain ⟨b', k', j1, j2, j3⟩ := g3 i ts[i] (s.checkers[i]'(by omega)) (by simp) (by simp)
        rw [hi, Option.some.injEq] at j2
        subst j2
        have : b = true := hbt
        subst this
        exact .inl ⟨rfl, i, _, _, k', List.getElem?_eq_getElem hit, List.getElem?_eq_getElem (by omega), j3, by rw [hone, j1]⟩
      | false =>
        refine .inr ⟨rfl, fun i t k hi hk => ?_⟩
        obtain ⟨b', k', j1, j2, j3⟩ := g3 i t k hi hk
        have : b' = false := by
          have := List.any_eq_false.1 hany b' (List.mem_of_getElem? j2)
          simpa using this
        subst this
        exact ⟨k', j3, by rw [hone, j1]⟩

/-! ## The runs -/

/-- Some checker of the list, in its state of `s`, does alone what `m` does with the list. -/
def SameAlone (ts : List (Checker G κ)) (m : Checkers G κ → RM G κ Unit) (s : Run G κ) : Prop :=
  ∃ (i : Nat) (t : Checker G κ) (k k' : κ), ts[i]? = some t ∧ s.checkers[i]? = some k ∧ (m (.many ts) s).2.checkers[i]? = some k' ∧
    m (.one t) (s.alone k) = ((m (.many ts) s).1, (m (.many ts) s).2.alone k')

theorem someone (hne : ts ≠ []) (hl : s.checkers.length = ts.length) :
    ∃ (i : Nat) (t : Checker G κ) (k : κ), ts[i]? = some t ∧ s.checkers[i]? = some k := by
  have h0 : 0 < ts.length := List.length_pos_iff.2 hne
  exact ⟨0, ts[0], s.checkers[0]'(by omega), by simp, by simp⟩

theorem mainLoop_same (hne : ts ≠ []) (n gen : Nat) {s : Run G κ} (hl : s.checkers.length = ts.length) :
    SameAlone ts (fun ck => mainLoop (c.checkedBy ck) n gen) s := by
  induction n generalizing gen s with
  | zero =>
    obtain ⟨i, t, k, h1, h2⟩ := someone hne hl
    exact ⟨i, t, k, k, h1, h2, h2, rfl⟩
  | succ n ih =>
    unfold SameAlone
    simp only [mainLoop_checked, (estep_unchecked (c := c) gen).alone]
    have hkept := (estep_unchecked (c := c) gen).kept s
    generalize estep c gen s = x at hkept ⊢
    obtain ⟨e | _, s₁⟩ := x
    · obtain ⟨i, t, k, h1, h2⟩ := someone hne hl
      exact ⟨i, t, k, k, h1, h2, by rw [← hkept] at h2; exact h2, rfl⟩
    · dsimp only at hkept ⊢
      rw [← hkept] at hl ⊢
      obtain ⟨r, ks', e1, e2, h⟩ := asked_cases (c := c) gen hl
      simp only [e1]
      rcases h with ⟨e, rfl, i, t, k, k', h1, h2, h3, h4⟩ | ⟨rfl, i, t, k, k', h1, h2, h3, h4⟩ | ⟨rfl, h⟩
      · exact ⟨i, t, k, k', h1, h2, h3, by rw [h4]; rfl⟩
      · exact ⟨i, t, k, k', h1, h2, h3, by rw [h4]; rfl⟩
      · obtain ⟨i, t, k', k'', g1, g2, g3, g4⟩ := ih (gen + 1) (s := (publish "algorithm" "after_generation" { s₁ with checkers := ks' }).2) e2
        have hk : ∃ k, s₁.checkers[i]? = some k := by
          have : i < ts.length := (List.getElem?_eq_some_iff.1 g1).1
          exact ⟨_, List.getElem?_eq_getElem (by omega)⟩
        obtain ⟨k, hk⟩ := hk
        obtain ⟨j', j1, j2⟩ := h i t k g1 hk
        have g2' : ks'[i]? = some k' := g2
        rw [j1, Option.some.injEq] at g2'
        subst g2'
        exact ⟨i, t, k, k'', g1, hk, g3, by rw [j2]; exact g4⟩

/-- **C176.** Whatever happens, a run with a list of termination checkers is the run with one of them alone: the result (or
exception), all events and the final state are the same, including the state of that checker. -/
theorem C176_one_of_them (hne : ts ≠ []) (c : Cfg G κ) (hl : s.checkers.length = ts.length) :
    ∃ (i : Nat) (t : Checker G κ) (k k' : κ), ts[i]? = some t ∧ s.checkers[i]? = some k ∧
      (evolve (c.checkedBy (.many ts)) s).2.checkers[i]? = some k' ∧
      evolve (c.checkedBy (.one t)) (s.alone k) =
        ((evolve (c.checkedBy (.many ts)) s).1, (evolve (c.checkedBy (.many ts)) s).2.alone k') := by
  have hinit : ∀ ck, initRun (c.checkedBy ck) = initRun c := fun _ => rfl
  have hafter : ∀ s₁ : Run G κ, s₁.checkers.length = ts.length → SameAlone ts (fun ck => afterInit (c.checkedBy ck)) s₁ := by
    intro s₁ hl
    unfold SameAlone
    simp only [afterInit_checked]
    obtain ⟨r, ks', e1, e2, h⟩ := asked_cases (c := c) s₁.genNum hl
    have hgen : ∀ k : κ, (s₁.alone k).genNum = s₁.genNum := fun _ => rfl
    simp only [e1, hgen]
    rcases h with ⟨e, rfl, i, t, k, k', h1, h2, h3, h4⟩ | ⟨rfl, i, t, k, k', h1, h2, h3, h4⟩ | ⟨rfl, h⟩
    · exact ⟨i, t, k, k', h1, h2, h3, by rw [h4]; rfl⟩
    · exact ⟨i, t, k, k', h1, h2, h3, by rw [h4]; rfl⟩
    · obtain ⟨i, t, k', k'', g1, g2, g3, g4⟩ := mainLoop_same (c := c) hne c.maxGen 1 (s := { s₁ with checkers := ks' }) e2
      have hk : ∃ k, s₁.checkers[i]? = some k := by
        have : i < ts.length := (List.getElem?_eq_some_iff.1 g1).1
        exact ⟨_, List.getElem?_eq_getElem (by omega)⟩
      obtain ⟨k, hk⟩ := hk
      obtain ⟨j', j1, j2⟩ := h i t k g1 hk
      have g2' : ks'[i]? = some k' := g2
      rw [j1, Option.some.injEq] at g2'
      subst g2'
      exact ⟨i, t, k, k'', g1, hk, g3, by rw [j2]; exact g4⟩
  unfold evolve
  simp only [hinit]
  have hkept := (initRun_unchecked c).kept s
  simp only [bind_run, (initRun_unchecked c).alone]
  generalize initRun c s = x at hkept ⊢
  obtain ⟨e | _, s₁⟩ := x
  · obtain ⟨i, t, k, h1, h2⟩ := someone hne hl
    exact ⟨i, t, k, k, h1, h2, by rw [← hkept] at h2; exact h2, rfl⟩
  · dsimp only at hkept ⊢
    rw [← hkept] at hl ⊢
    obtain ⟨i, t, k, k', h1, h2, h3, h4⟩ := hafter s₁ hl
    dsimp only at h3 h4
    refine ⟨i, t, k, k', h1, h2, ?_, ?_⟩
    · rcases hx : afterInit (c.checkedBy (.many ts)) s₁ with ⟨_ | _, u⟩
      · rw [hx] at h3; exact h3
      · rw [hx] at h3; exact h3
    · rw [h4]
      rcases hx : afterInit (c.checkedBy (.many ts)) s₁ with ⟨_ | _, u⟩
      · rfl
      · rfl

theorem oneGen_checked (ck : Checkers G κ) (gen : Nat) :
    oneGen (c.checkedBy ck) gen = (do estep c gen; shouldTerminate (c.checkedBy ck) gen) := by
  unfold oneGen estep
  simp only [bind_assoc]
  rfl

theorem mainLoop_first {i : Nat} {t : Checker G κ} (hi : ts[i]? = some t) (n gen : Nat) {s s' u : Run G κ} {k : κ}
    (hl : s.checkers.length = ts.length) (hk : s.checkers[i]? = some k)
    (h : mainLoop (c.checkedBy (.many ts)) n gen s = (.ok (), s')) (h' : mainLoop (c.checkedBy (.one t)) n gen (s.alone k) = (.ok (), u)) :
    s'.genNum ≤ u.genNum := by
  induction n generalizing gen s k with
  | zero => cases h; cases h'; exact le_rfl
  | succ n ih =>
    have hu := mainLoop_genNum (n + 1) gen le_rfl (.inr (by omega)) h'
    rw [mainLoop_checked] at h h'
    rw [(estep_unchecked (c := c) gen).alone] at h'
    have hkept := (estep_unchecked (c := c) gen).kept s
    have hone := fun stop u => oneGen_since (c := c.checkedBy (.many ts)) (N := fun k => k = gen) (base := s.log) (gen := gen) rfl
      (s := s) (s' := u) (stop := stop) ⟨[], by simp, by simp⟩
    rw [oneGen_checked, bind_run] at hone
    generalize estep c gen s = x at hkept h h' hone
    obtain ⟨e | _, s₁⟩ := x
    · cases h
    · dsimp only at hkept h h' hone
      rw [← hkept] at hl hk
      obtain ⟨r, ks', e1, e2, hc⟩ := asked_cases (c := c) gen hl
      rw [e1] at h
      rcases hc with ⟨e, rfl, -⟩ | ⟨rfl, -⟩ | ⟨rfl, hc⟩
      · cases h
      · cases h
        have : s₁.genNum = gen := (hone true _ e1).1
        exact this.le.trans hu
      · obtain ⟨k', j1, j2⟩ := hc i t k hi hk
        rw [j2] at h'
        exact ih (gen + 1) (s := (publish "algorithm" "after_generation" { s₁ with checkers := ks' }).2) e2 j1 h h'

/-- **C176.** It ends in the generation in which the first of the checkers would have ended it: no run with one of the checkers
alone ends in an earlier generation. -/
theorem C176_first (hl : s.checkers.length = ts.length) (hg : s.genNum = 0) {i : Nat} {t : Checker G κ} {k : κ} (hi : ts[i]? = some t)
    (hk : s.checkers[i]? = some k) {u : Run G κ} (h : evolve (c.checkedBy (.many ts)) s = (.ok (), s'))
    (h' : evolve (c.checkedBy (.one t)) (s.alone k) = (.ok (), u)) : s'.genNum ≤ u.genNum := by
  have hinit : ∀ ck, initRun (c.checkedBy ck) = initRun c := fun _ => rfl
  unfold evolve at h h'
  obtain ⟨_, s₁, h1, h⟩ := bind_ok.1 h
  obtain ⟨_, u₁, g1, h'⟩ := bind_ok.1 h'
  rw [hinit] at h1 g1
  have hkept := (initRun_unchecked c).kept s
  have hgen : s₁.genNum = 0 := by
    have := (goes_init c s _ _ h1).genNum
    rw [this, hg]
  rw [(initRun_unchecked c).alone, h1] at g1
  rw [h1] at hkept
  cases g1
  dsimp only at hkept
  rw [← hkept] at hl hk
  obtain ⟨_, s₂, h2, h⟩ := bind_ok.1 h
  obtain ⟨_, u₂, g2, h'⟩ := bind_ok.1 h'
  cases h
  cases h'
  show s₂.genNum ≤ u₂.genNum
  rw [afterInit_checked] at h2 g2
  obtain ⟨r, ks', e1, e2, hc⟩ := asked_cases (c := c) s₁.genNum hl
  rw [e1] at h2
  rcases hc with ⟨e, rfl, -⟩ | ⟨rfl, -⟩ | ⟨rfl, hc⟩
  · cases h2
  · cases h2
    exact hgen.le.trans (Nat.zero_le _)
  · obtain ⟨k', j1, j2⟩ := hc i t k hi hk
    have j2' : shouldTerminate (c.checkedBy (.one t)) (s₁.alone k).genNum (s₁.alone k) = _ := j2
    rw [j2'] at g2
    exact mainLoop_first hi _ _ (s := { s₁ with checkers := ks' }) e2 j1 h2 g2

/-- **C176.** If the run completes with each of the checkers alone, it completes with all of them. -/
theorem C176_completes (hne : ts ≠ []) (hl : s.checkers.length = ts.length)
    (h : ∀ (i : Nat) t k, ts[i]? = some t → s.checkers[i]? = some k → ∃ u, evolve (c.checkedBy (.one t)) (s.alone k) = (.ok (), u)) :
    ∃ s', evolve (c.checkedBy (.many ts)) s = (.ok (), s') := by
  obtain ⟨i, t, k, k', h1, h2, -, h4⟩ := C176_one_of_them hne c hl
  obtain ⟨u, hu⟩ := h i t k h1 h2
  rw [hu] at h4
  exact ⟨_, ran (congrArg Prod.fst h4).symm⟩

/-- **C176.** An empty list is like `None`. -/
theorem C176_empty (c : Cfg G κ) : evolve (c.checkedBy (.many [])) = evolve (c.checkedBy .none) := by
  have h : ∀ gen, shouldTerminate (c.checkedBy (.many [])) gen = shouldTerminate (c.checkedBy .none) gen := by
    intro gen
    funext s
    unfold shouldTerminate Cfg.checkedBy
    simp [consult]
  have hloop : ∀ n gen, mainLoop (c.checkedBy (.many [])) n gen = mainLoop (c.checkedBy .none) n gen := by
    intro n
    induction n with
    | zero => intro gen; rfl
    | succ n ih =>
      intro gen
      funext s
      rw [mainLoop_checked, mainLoop_checked, h, ih]
  unfold evolve
  have : afterInit (c.checkedBy (.many [])) = afterInit (c.checkedBy .none) := by
    funext s
    rw [afterInit_checked, afterInit_checked, h, hloop]
  rw [this]
  rfl

/-! ## The sample run

`exCfg` has a list of two checkers that count how often they are asked; the first says stop when asked for the third time. -/

/-- The checkers of `exCfg`. -/
def exCheckers : List (Checker Nat Nat) := [fun k _ _ _ _ => (.ok (k = 2), k + 1), fun k _ _ _ _ => (.ok false, k + 1)]

theorem exCheckers_alone : ∀ t ∈ exCheckers, (evolve (exCfg.checkedBy (.one t)) (exRun.alone 0)).1 = .ok () := by
  intro t ht
  simp only [exCheckers, List.mem_cons, List.not_mem_nil, or_false] at ht
  rcases ht with rfl | rfl
  · decide +kernel
  · decide +kernel

/-- With the second checker alone the run lasts five generations, with both two. -/
theorem exCheckers_gens : (evolve (exCfg.checkedBy (.one fun k _ _ _ _ => (.ok false, k + 1))) (exRun.alone 0)).2.genNum = 5 ∧
    (evolve (exCfg.checkedBy (.many exCheckers)) exRun).2.genNum = 2 := by decide +kernel

example := C176_one_of_them (ts := exCheckers) (by simp [exCheckers]) exCfg (s := exRun) rfl

example : ∃ s', evolve (exCfg.checkedBy (.many exCheckers)) exRun = (.ok (), s') := by
  refine C176_completes (by simp [exCheckers]) rfl fun i t k hi hk => ?_
  have hk0 : k = 0 := by
    have : k ∈ [0, 0] := List.mem_of_getElem? hk
    simpa using this
  subst hk0
  exact ⟨_, ran (exCheckers_alone t (List.mem_of_getElem? hi))⟩

example := C176_first (c := exCfg) (s := exRun) (ts := exCheckers) rfl rfl (i := 1) rfl rfl (ran exRun_ends.1)
  (ran (exCheckers_alone _ (by simp [exCheckers])))

end Verif.Evo
