import Verif.Model.MooCheckers
import Verif.Props.MooShorter
import Verif.Lemmas.MooUnstuck

/-! # C175 — a list of stopping criteria ends an NSGA-II run when the first of them is met -/

namespace Verif.Moo
open PyM
variable {G : Type} {c : MCfg G} {s s' t : MRun G} {ks : List MChecker}

/-- The configuration with another termination checker. -/
def MCfg.with (c : MCfg G) (k : MChecker) : MCfg G := { c with checker := k }

/-! ## The list of answers -/

/-- How a list of checkers answers: it raises what the first one raises that does; otherwise it says stop if one of them does. -/
theorem listChecker_cases (ks : List MChecker) (heap : Heap) (inds : List Nat) (best : Option Nat) (gen : Nat) :
    (∃ e, listChecker ks heap inds best gen = .error e ∧ ∃ k ∈ ks, k heap inds best gen = .error e) ∨
    (listChecker ks heap inds best gen = .ok true ∧ (∃ k ∈ ks, k heap inds best gen = .ok true) ∧
      ∀ k ∈ ks, ∃ a, k heap inds best gen = .ok a) ∨
    (listChecker ks heap inds best gen = .ok false ∧ ∀ k ∈ ks, k heap inds best gen = .ok false) := by
  unfold listChecker
  induction ks with
  | nil => exact .inr (.inr ⟨rfl, by simp⟩)
  | cons k ks ih =>
    unfold answers
    cases hk : k heap inds best gen with
    | error e => exact .inl ⟨e, rfl, k, by simp, hk⟩
    | ok a =>
      cases hks : answers heap inds best gen ks with
      | error e =>
        rw [hks] at ih
        rcases ih with ⟨e', h1, k', h2, h3⟩ | ⟨h1, -⟩ | ⟨h1, -⟩
        · cases h1
          exact .inl ⟨e, rfl, k', List.mem_cons_of_mem _ h2, h3⟩
        · cases h1
        · cases h1
      | ok as =>
        rw [hks] at ih
        change (∃ e, Except.ok (as.any id) = .error e ∧ _) ∨ (Except.ok (as.any id) = .ok true ∧ _) ∨
          (Except.ok (as.any id) = .ok false ∧ _) at ih
        show (∃ e, Except.ok ((a :: as).any id) = .error e ∧ _) ∨ (Except.ok ((a :: as).any id) = .ok true ∧ _) ∨
          (Except.ok ((a :: as).any id) = .ok false ∧ _)
        rcases ih with ⟨e', h1, -⟩ | ⟨h1, ⟨k', h2, h3⟩, h4⟩ | ⟨h1, h2⟩
        · cases h1
        · have h1 : as.any id = true := by simpa using h1
          refine .inr (.inl ⟨by rw [List.any_cons, h1, Bool.or_true], ⟨k', List.mem_cons_of_mem _ h2, h3⟩, ?_⟩)
          rintro x (_ | ⟨_, hx⟩)
          · exact ⟨a, hk⟩
          · exact h4 x hx
        · have h1 : as.any id = false := by simpa using h1
          cases a with
          | true =>
            refine .inr (.inl ⟨rfl, ⟨k, by simp, hk⟩, ?_⟩)
            rintro x (_ | ⟨_, hx⟩)
            · exact ⟨true, hk⟩
            · exact ⟨false, h2 x hx⟩
          | false =>
            refine .inr (.inr ⟨by rw [List.any_cons, h1]; rfl, ?_⟩)
            rintro x (_ | ⟨_, hx⟩)
            · exact hk
            · exact h2 x hx

theorem minit_with (k : MChecker) : minit (c.with k) = minit c := rfl

theorem mstep_with (k : MChecker) (gen : Nat) : mstep (c.with k) gen = mstep c gen := rfl

/-- A generation and what follows it, by the answer of the checker. -/
theorem mloop_with (k : MChecker) (n gen : Nat) (s : MRun G) : mloop (c.with k) (n + 1) gen s = match mstep c gen s with
    | (.error e, s₁) => (.error e, s₁)
    | (.ok _, s₁) => match k s₁.w.fits (s₁.inds.getD []) s₁.bestOfRun gen with
      | .error e => (.error e, s₁)
      | .ok true => (mpublish "algorithm" "after_generation") { s₁ with finalGen := some gen }
      | .ok false => mloop (c.with k) n (gen + 1) (mpublish "algorithm" "after_generation" s₁).2 := by
  rw [mloop_succ, bind_run, mstep_with]
  rcases mstep c gen s with ⟨_ | _, s₁⟩
  · rfl
  · dsimp only
    rw [bind_run, mstop_run, show (c.with k).checker = k from rfl]
    cases k s₁.w.fits (s₁.inds.getD []) s₁.bestOfRun gen with
    | error e => rfl
    | ok a => cases a <;> rfl

theorem mloop_list (hne : ks ≠ []) (n gen : Nat) (s : MRun G) :
    ∃ k ∈ ks, mloop (c.with (listChecker ks)) n gen s = mloop (c.with k) n gen s := by
  induction n generalizing gen s with
  | zero =>
    obtain ⟨k, hk⟩ := List.exists_mem_of_ne_nil _ hne
    exact ⟨k, hk, rfl⟩
  | succ n ih =>
    simp only [mloop_with]
    rcases mstep c gen s with ⟨_ | _, s₁⟩
    · obtain ⟨k, hk⟩ := List.exists_mem_of_ne_nil _ hne
      exact ⟨k, hk, rfl⟩
    · dsimp only
      rcases listChecker_cases ks s₁.w.fits (s₁.inds.getD []) s₁.bestOfRun gen with
        ⟨e, h1, k, h2, h3⟩ | ⟨h1, ⟨k, h2, h3⟩, -⟩ | ⟨h1, h2⟩
      · exact ⟨k, h2, by rw [h1, h3]⟩
      · exact ⟨k, h2, by rw [h1, h3]⟩
      · obtain ⟨k, h3, h4⟩ := ih (gen + 1) (mpublish "algorithm" "after_generation" s₁).2
        exact ⟨k, h3, by rw [h1, h2 k h3]; exact h4⟩

theorem mafterInit_with (k : MChecker) (s : MRun G) : mafterInit (c.with k) s =
    match k s.w.fits (s.inds.getD []) s.bestOfRun s.genNum with
    | .error e => (.error e, s)
    | .ok true => (mpublish "algorithm" "after_generation") { s with finalGen := some 0 }
    | .ok false => mloop (c.with k) c.maxGen 1 s := by
  unfold mafterInit
  rw [bind_run]
  show (mstop (c.with k) s.genNum >>= _) s = _
  rw [bind_run, mstop_run, show (c.with k).checker = k from rfl]
  cases k s.w.fits (s.inds.getD []) s.bestOfRun s.genNum with
  | error e => rfl
  | ok a => cases a <;> rfl

/-- **C175.** Whatever happens, a run with a list of checkers is the run with one of them alone: it does the same, publishes
the same events, ends in the same state, and raises the same exception if it raises one. -/
theorem C175_one_of_them (hne : ks ≠ []) (c : MCfg G) (s : MRun G) :
    ∃ k ∈ ks, mevolve (c.with (listChecker ks)) s = mevolve (c.with k) s := by
  simp only [mevolve_eq, bind_run, minit_with]
  rcases minit c s with ⟨_ | _, s₁⟩
  · obtain ⟨k, hk⟩ := List.exists_mem_of_ne_nil _ hne
    exact ⟨k, hk, rfl⟩
  · dsimp only
    have : ∃ k ∈ ks, mafterInit (c.with (listChecker ks)) s₁ = mafterInit (c.with k) s₁ := by
      simp only [mafterInit_with]
      rcases listChecker_cases ks s₁.w.fits (s₁.inds.getD []) s₁.bestOfRun s₁.genNum with
        ⟨e, h1, k, h2, h3⟩ | ⟨h1, ⟨k, h2, h3⟩, -⟩ | ⟨h1, h2⟩
      · exact ⟨k, h2, by rw [h1, h3]⟩
      · exact ⟨k, h2, by rw [h1, h3]⟩
      · obtain ⟨k, h3, h4⟩ := mloop_list (c := c) hne c.maxGen 1 s₁
        exact ⟨k, h3, by rw [h1, h2 k h3]; exact h4⟩
    obtain ⟨k, hk, h⟩ := this
    exact ⟨k, hk, by rw [h]⟩

theorem mloop_first {k : MChecker} (hk : k ∈ ks) (n gen : Nat) {s s' t : MRun G}
    (h : mloop (c.with (listChecker ks)) n gen s = (.ok (), s')) (h' : mloop (c.with k) n gen s = (.ok (), t)) :
    s'.genNum ≤ t.genNum := by
  induction n generalizing gen s with
  | zero => cases h; cases h'; exact le_rfl
  | succ n ih =>
    have ht := mloop_genNum (n + 1) gen le_rfl (.inr (by omega)) h'
    rw [mloop_with] at h h'
    have hw := mstep_wlp (c := c) gen s
    rcases hst : mstep c gen s with ⟨_ | _, s₁⟩
    · rw [hst] at h
      cases h
    · rw [hst] at h h'
      dsimp only at h h'
      have hg : s₁.genNum = gen := (hw _ _ hst).1
      rcases listChecker_cases ks s₁.w.fits (s₁.inds.getD []) s₁.bestOfRun gen with
        ⟨e, h1, -⟩ | ⟨h1, -, -⟩ | ⟨h1, h2⟩
      · rw [h1] at h
        cases h
      · rw [h1] at h
        cases h
        exact hg.le.trans ht
      · rw [h1] at h
        rw [h2 k hk] at h'
        exact ih (gen + 1) h h'

/-- **C175.** It ends in the generation in which the first of the checkers would have ended it: no run with one of the checkers
alone ends in an earlier generation. -/
theorem C175_first {k : MChecker} (hk : k ∈ ks) (hg : s.genNum = 0) (h : mevolve (c.with (listChecker ks)) s = (.ok (), s'))
    (h' : mevolve (c.with k) s = (.ok (), t)) : s'.genNum ≤ t.genNum := by
  rw [mevolve_eq] at h h'
  obtain ⟨_, s₁, h1, h⟩ := bind_ok.1 h
  obtain ⟨_, s₂, h2, h⟩ := bind_ok.1 h
  obtain ⟨_, t₁, k1, k0⟩ := bind_ok.1 h'
  have e1 : minit c s = (.ok (), s₁) := h1
  have e2 : minit c s = (.ok (), t₁) := k1
  rw [e1, Prod.mk.injEq] at e2
  obtain ⟨-, rfl⟩ := e2
  clear h'
  obtain ⟨_, t₂, k2, h'⟩ := bind_ok.1 k0
  have hs' : s'.genNum = s₂.genNum := by
    rw [mclose_run] at h
    exact (congrArg (fun p => p.2.genNum) h).symm
  have ht : t.genNum = t₂.genNum := by
    rw [mclose_run] at h'
    exact (congrArg (fun p => p.2.genNum) h').symm
  rw [hs', ht]
  have h0 : s₁.genNum = 0 := (minit_gen s e1).1.trans hg
  rw [mafterInit_with] at h2 k2
  rcases listChecker_cases ks s₁.w.fits (s₁.inds.getD []) s₁.bestOfRun s₁.genNum with ⟨e, g1, -⟩ | ⟨g1, -, -⟩ | ⟨g1, g2⟩
  · rw [g1] at h2
    cases h2
  · rw [g1] at h2
    cases h2
    exact h0.le.trans (Nat.zero_le _)
  · rw [g1] at h2
    rw [g2 k hk] at k2
    exact mloop_first hk _ _ h2 k2

/-- **C175.** If the run completes with each of the checkers alone, it completes with all of them, and is the shortest of those
runs. -/
theorem C175_completes (hne : ks ≠ []) (hg : s.genNum = 0) {end_ : MChecker → MRun G}
    (h : ∀ k ∈ ks, mevolve (c.with k) s = (.ok (), end_ k)) :
    ∃ k ∈ ks, mevolve (c.with (listChecker ks)) s = (.ok (), end_ k) ∧ ∀ k' ∈ ks, (end_ k).genNum ≤ (end_ k').genNum := by
  obtain ⟨k, hk, h1⟩ := C175_one_of_them hne c s
  rw [h k hk] at h1
  exact ⟨k, hk, h1, fun k' hk' => C175_first hk' hg h1 (h k' hk')⟩

/-- **C175.** An empty list is like `None`: all generations are run. -/
theorem C175_empty (c : MCfg G) : mevolve (c.with (listChecker [])) = mevolve (c.with noChecker) := rfl

/-! ## Order and repetition -/

/-- Checkers that answer the same unless the first one raises. -/
theorem mloop_agree {k k' : MChecker} (hk : ∀ heap inds best gen a, k heap inds best gen = .ok a → k' heap inds best gen = .ok a)
    (n gen : Nat) {s s' : MRun G} (h : mloop (c.with k) n gen s = (.ok (), s')) : mloop (c.with k') n gen s = (.ok (), s') := by
  induction n generalizing gen s with
  | zero => exact h
  | succ n ih =>
    rw [mloop_with] at h ⊢
    rcases hst : mstep c gen s with ⟨_ | _, s₁⟩
    · rw [hst] at h
      cases h
    · rw [hst] at h
      dsimp only at h ⊢
      cases ha : k s₁.w.fits (s₁.inds.getD []) s₁.bestOfRun gen with
      | error e => rw [ha] at h; cases h
      | ok a =>
        rw [ha] at h
        rw [hk _ _ _ _ _ ha]
        cases a with
        | true => exact h
        | false => exact ih (gen + 1) h

/-- **C175.** Neither the order of the list nor repetitions in it matter: a run that completes with a list of checkers does the
same with every list of the same checkers. -/
theorem C175_order {ks' : List MChecker} (hsame : ∀ k, k ∈ ks ↔ k ∈ ks') (h : mevolve (c.with (listChecker ks)) s = (.ok (), s')) :
    mevolve (c.with (listChecker ks')) s = (.ok (), s') := by
  have hk : ∀ heap inds best gen a, listChecker ks heap inds best gen = .ok a → listChecker ks' heap inds best gen = .ok a := by
    intro heap inds best gen a ha
    rcases listChecker_cases ks heap inds best gen with ⟨e, g1, -⟩ | ⟨g1, ⟨k, g2, g3⟩, g4⟩ | ⟨g1, g2⟩
    · rw [g1] at ha; cases ha
    · rw [g1] at ha
      cases ha
      rcases listChecker_cases ks' heap inds best gen with ⟨e, -, k', i2, i3⟩ | ⟨i1, -⟩ | ⟨-, i2⟩
      · obtain ⟨b, hb⟩ := g4 k' ((hsame k').2 i2)
        rw [i3] at hb
        cases hb
      · exact i1
      · rw [i2 k ((hsame k).1 g2)] at g3
        cases g3
    · rw [g1] at ha
      cases ha
      rcases listChecker_cases ks' heap inds best gen with ⟨e, -, k', i2, i3⟩ | ⟨-, ⟨k', i2, i3⟩, -⟩ | ⟨i1, -⟩
      · rw [g2 k' ((hsame k').2 i2)] at i3; cases i3
      · rw [g2 k' ((hsame k').2 i2)] at i3; cases i3
      · exact i1
  rw [mevolve_eq] at h ⊢
  obtain ⟨_, s₁, h1, h⟩ := bind_ok.1 h
  obtain ⟨_, s₂, h2, h⟩ := bind_ok.1 h
  have h1' : minit (c.with (listChecker ks')) s = (.ok (), s₁) := h1
  rw [bind_of_ok h1']
  have h2' : mafterInit (c.with (listChecker ks')) s₁ = (.ok (), s₂) := by
    rw [mafterInit_with] at h2 ⊢
    cases ha : listChecker ks s₁.w.fits (s₁.inds.getD []) s₁.bestOfRun s₁.genNum with
    | error e => rw [ha] at h2; cases h2
    | ok a =>
      rw [ha] at h2
      rw [hk _ _ _ _ _ ha]
      cases a with
      | true => exact h2
      | false => exact mloop_agree hk _ _ h2
  rw [bind_of_ok h2']
  exact h

/-! ## A sample run

The sample run of two generations with a checker that stops in generation 1 and one that never does. -/

/-- Stop in generation `n`. -/
def stopAt (n : Nat) : MChecker := fun _ _ _ gen => .ok (decide (n ≤ gen))

theorem exStops_complete (k : MChecker) (hk : ∀ heap inds best gen, ∃ a, k heap inds best gen = .ok a) :
    ∃ t, mevolve (exVector.with k) exVectorRun = (.ok (), t) := by
  obtain ⟨t, h, -⟩ := C82_vectors (c := exVector.with k) (s := exVectorRun) GA.exLib_proper
    { exVector_assembled with calm := fun _ _ _ _ _ => hk _ _ _ _ }
    ⟨rfl, fun r hr => absurd hr (Nat.not_lt_zero r), rfl, rfl⟩ fun r hr => absurd hr (Nat.not_lt_zero r)
  exact ⟨t, h⟩

/-- The two checkers together: the run is that of one of them, and no longer than that of the other. -/
example : ∃ k ∈ [stopAt 1, noChecker], ∃ end_ : MChecker → MRun GA.Vec,
    mevolve (exVector.with (listChecker [stopAt 1, noChecker])) exVectorRun = (.ok (), end_ k) ∧
    (∀ k' ∈ [stopAt 1, noChecker], mevolve (exVector.with k') exVectorRun = (.ok (), end_ k') ∧ (end_ k).genNum ≤ (end_ k').genNum) ∧
    mevolve (exVector.with (listChecker [noChecker, stopAt 1, noChecker])) exVectorRun = (.ok (), end_ k) := by
  have hc : ∀ k, ∃ t, k ∈ [stopAt 1, noChecker] → mevolve (exVector.with k) exVectorRun = (.ok (), t) := by
    intro k
    by_cases hk : k ∈ [stopAt 1, noChecker]
    · obtain ⟨t, ht⟩ := exStops_complete k fun _ _ _ gen => by
        simp only [List.mem_cons, List.not_mem_nil, or_false] at hk
        rcases hk with rfl | rfl
        · exact ⟨_, rfl⟩
        · exact ⟨_, rfl⟩
      exact ⟨t, fun _ => ht⟩
    · exact ⟨exVectorRun, fun h => absurd h hk⟩
  choose end_ hend using hc
  obtain ⟨k, hk, h1, h2⟩ := C175_completes (c := exVector) (s := exVectorRun) (ks := [stopAt 1, noChecker]) (end_ := end_) (by simp)
    (show exVectorRun.genNum = 0 from rfl) hend
  refine ⟨k, hk, end_, h1, fun k' hk' => ⟨hend k' hk', h2 k' hk'⟩, ?_⟩
  refine C175_order (c := exVector) (ks := [stopAt 1, noChecker]) (fun k => ?_) h1
  simp only [List.mem_cons, List.not_mem_nil, or_false]
  exact ⟨fun h => h.elim (fun h => .inr (.inl h)) .inl, fun h => h.elim .inr fun h => h⟩

end Verif.Moo
