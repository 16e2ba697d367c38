import Verif.Lemmas.Reloc
import Verif.Lemmas.Descent
import Verif.Props.Run

/-! # C124: stopping criteria only cut a run short

`max_generation` and termination checkers have no influence on what a run does before it ends: the run is the beginning of
the run without them.  A run that is allowed more generations finds a best individual that is at least as good. -/

namespace Verif.Evo
open PyM
variable {G κ : Type} {c : Cfg G κ} {s s' t : Run G κ}

/-- The configuration with another `max_generation` and other termination checkers. -/
def Cfg.stopping (c : Cfg G κ) (maxGen : Nat) (checker : Checkers G κ) : Cfg G κ := { c with maxGen := maxGen, checker := checker }

/-- The run with other states of the checkers and another `final_generation_`. -/
def Run.rechecked (k : List κ → List κ) (f : Option Nat → Option Nat) (s : Run G κ) : Run G κ :=
  { s with checkers := k s.checkers, finalGen := f s.finalGen }

/-- The computation neither looks at the states of the checkers and `final_generation_` nor changes them. -/
def Unchecked {α : Type} (m : RM G κ α) : Prop := ∀ k f, Sim (Run.rechecked k f) id m m

namespace Unchecked
variable {α β : Type}

theorem pure (a : α) : Unchecked (Pure.pure a : RM G κ α) := fun _ _ => Sim.pure rfl
theorem raise (e : Err) : Unchecked (PyM.raise e : RM G κ α) := fun _ _ => Sim.raise
theorem modify {g : Run G κ → Run G κ} (h : ∀ k f s, g (Run.rechecked k f s) = (g s).rechecked k f) : Unchecked (PyM.modify g) :=
  fun k f => Sim.modify (h k f)
theorem bind {m : RM G κ α} {g : α → RM G κ β} (hm : Unchecked m) (hg : ∀ a, Unchecked (g a)) : Unchecked (m >>= g) :=
  fun k f => Sim.bind (ρ := id) (hm k f) fun a => hg a k f
theorem get_bind {g : Run G κ → RM G κ β} (h : ∀ k f s, Sim (Run.rechecked k f) id (g (s.rechecked k f)) (g s)) :
    Unchecked (PyM.get >>= g) := fun k f => Sim.get_bind (h k f)

theorem reads {g : Run G κ → RM G κ β} (h : ∀ k f s, g (Run.rechecked k f s) = g s) (hg : ∀ s, Unchecked (g s)) :
    Unchecked (PyM.get >>= g) := get_bind fun k f s => by rw [h]; exact hg s k f

theorem world (m : WM G α) : Unchecked (Evo.world (κ := κ) m) := by
  intro k f s
  unfold Evo.world PyM.zoom
  rw [except_map_id]
  rfl

theorem publish (p n : String) : Unchecked (Evo.publish (G := G) (κ := κ) p n) := modify fun _ _ _ => rfl

theorem act {name : String} {m : RM G κ α} (h : Unchecked m) : Unchecked (Evo.act name m) :=
  (publish _ _).bind fun _ => h.bind fun _ => (publish _ _).bind fun _ => Unchecked.pure _

theorem forL {g : α → RM G κ Unit} (hg : ∀ a, Unchecked (g a)) (xs : List α) : Unchecked (PyM.forL g xs) := by
  induction xs with
  | nil => exact Unchecked.pure _
  | cons x xs ih => exact (hg x).bind fun _ => ih

end Unchecked

theorem evaluatePopulation_unchecked (c : Cfg G κ) : Unchecked (evaluatePopulation c) := by
  refine Unchecked.act (Unchecked.reads (fun _ _ _ => rfl) fun s => ?_)
  split
  · split
    · exact Unchecked.raise _
    · exact Unchecked.world _
  · exact Unchecked.raise _
  · exact Unchecked.raise _

theorem breed_unchecked (c : Cfg G κ) : Unchecked (breed c) :=
  Unchecked.act (Unchecked.get_bind fun k f _ => ((Unchecked.world _).bind fun _ => Unchecked.modify fun _ _ _ => rfl) k f)

theorem createPopulation_unchecked (c : Cfg G κ) : Unchecked (createPopulation c) :=
  Unchecked.get_bind fun k f _ => ((Unchecked.world _).bind fun _ => Unchecked.modify fun _ _ _ => rfl) k f

theorem recordBest_unchecked (c : Cfg G κ) (b : Nat) : Unchecked (recordBest c b) := by
  refine Unchecked.get_bind fun k f _ => ((Unchecked.world _).bind fun better => ?_) k f
  split
  · exact Unchecked.modify fun _ _ _ => rfl
  · exact Unchecked.pure _

theorem recordWorst_unchecked (c : Cfg G κ) : Unchecked (recordWorst c) := by
  refine Unchecked.reads (fun _ _ _ => rfl) fun s => ?_
  split
  · exact (Unchecked.world _).bind fun _ => Unchecked.modify fun _ _ _ => rfl
  · exact Unchecked.raise _

theorem generation_unchecked (c : Cfg G κ) : Unchecked (generationIteration c) :=
  (breed_unchecked c).bind fun _ => (evaluatePopulation_unchecked c).bind fun b =>
    Unchecked.bind (Unchecked.modify fun _ _ _ => rfl) fun _ => (recordBest_unchecked c b).bind fun _ => recordWorst_unchecked c

theorem updateGen_unchecked (gen : Nat) : Unchecked (updateGen (G := G) (κ := κ) gen) := by
  refine Unchecked.get_bind fun k f s => Unchecked.forL (fun o => ?_) _ k f
  cases o with
  | none => exact Unchecked.raise _
  | some is => exact Unchecked.world _

theorem initRun_unchecked (c : Cfg G κ) : Unchecked (initRun c) :=
  Unchecked.get_bind fun k f _ => (Unchecked.bind (Unchecked.modify fun _ _ _ => rfl) fun _ => (createPopulation_unchecked c).bind fun _ =>
    (evaluatePopulation_unchecked c).bind fun _ => Unchecked.bind (Unchecked.modify fun _ _ _ => rfl) fun _ => Unchecked.publish _ _) k f

/-! ## One run is a beginning of the other -/

/-- `m` returns, having published a beginning of what `m'` publishes; or raises what `m'` raises, or something of `B`. -/
def CutShort (B : Err → Prop) (L : Run G κ → Run G κ) (m' m : RM G κ Unit) : Prop := ∀ s,
  (∃ t, m s = (.ok (), t) ∧ t.log <+: (m' (L s)).2.log) ∨ ∃ e t, m s = (.error e, t) ∧ (B e ∨ m' (L s) = (.error e, L t))

variable {B : Err → Prop} {k : List κ → List κ} {f : Option Nat → Option Nat}

theorem CutShort.after {α : Type} {L : Run G κ → Run G κ} {m : RM G κ α} {g' g : α → RM G κ Unit} (hm : Sim L id m m) (hg : ∀ a, CutShort B L (g' a) (g a)) :
    CutShort B L (m >>= g') (m >>= g) := by
  intro s
  rw [bind_run, bind_run, hm s]
  rcases hr : m s with ⟨r, t⟩
  cases r with
  | error e => exact .inr ⟨e, t, rfl, .inr rfl⟩
  | ok a => exact hg a t

/-- The other checkers say stop only when these do. -/
def Laxer (B : Err → Prop) (L : Run G κ → Run G κ) (m' m : RM G κ Bool) : Prop := ∀ s,
  (∃ b b' t, m s = (.ok b, t) ∧ m' (L s) = (.ok b', L t) ∧ t.log = s.log ∧ t.snapshot = s.snapshot ∧ (b' = true → b = true)) ∨
    ∃ e t, m s = (.error e, t) ∧ B e

/-- Asking the checkers raises `e`. -/
def Cfg.AskingRaises (c : Cfg G κ) (e : Err) : Prop := ∃ gen s t, shouldTerminate c gen s = (.error e, t)

theorem shouldTerminate_seen (c : Cfg G κ) (gen : Nat) (s : Run G κ) :
    ∃ ks, (shouldTerminate c gen s).2 = { s with checkers := ks } := by
  unfold shouldTerminate
  split
  · exact ⟨s.checkers, rfl⟩
  · split <;> exact ⟨_, rfl⟩
  · split <;> exact ⟨_, rfl⟩

theorem lax_none (m : Nat) (ks : List κ) (fg : Option Nat) (gen : Nat) :
    Laxer c.AskingRaises (Run.rechecked (fun _ => ks) fun _ => fg) (shouldTerminate (c.stopping m .none) gen) (shouldTerminate c gen) := by
  intro s
  obtain ⟨ks', hk⟩ := shouldTerminate_seen c gen s
  cases hr : shouldTerminate c gen s with
  | mk r t =>
    rw [hr] at hk
    simp only at hk
    subst hk
    cases r with
    | error e => exact .inr ⟨e, _, rfl, gen, s, _, hr⟩
    | ok b => exact .inl ⟨b, false, _, rfl, rfl, rfl, rfl, by simp⟩

theorem lax_same (m gen : Nat) :
    Laxer c.AskingRaises (Run.rechecked id id) (shouldTerminate (c.stopping m c.checker) gen) (shouldTerminate c gen) := by
  intro s
  obtain ⟨ks', hk⟩ := shouldTerminate_seen c gen s
  have e : shouldTerminate (c.stopping m c.checker) gen (s.rechecked id id) = shouldTerminate c gen s := rfl
  rw [e]
  cases hr : shouldTerminate c gen s with
  | mk r t =>
    rw [hr] at hk
    simp only at hk
    subst hk
    cases r with
    | error e => exact .inr ⟨e, _, rfl, gen, s, _, hr⟩
    | ok b => exact .inl ⟨b, b, _, rfl, rfl, rfl, rfl, id⟩

theorem CutShort.get {L : Run G κ → Run G κ} {g' g : Run G κ → RM G κ Unit} (h : ∀ s, CutShort B L (g' (L s)) (g s)) :
    CutShort B L (PyM.get >>= g') (PyM.get >>= g) := fun s => h s s

/-- The checkers are asked; `x` and `x'` is what is done when they say stop, `y` and `y'` what is done when they do not. -/
theorem CutShort.asking {L : Run G κ → Run G κ} {m' m : RM G κ Bool} {x' x y' y : RM G κ Unit} (hm : Laxer B L m' m)
    (hx : CutShort B L x' x) (hxy : CutShort B L y' x) (hy : CutShort B L y' y) :
    CutShort B L (m' >>= fun stop => if stop then x' else y') (m >>= fun stop => if stop then x else y) := by
  intro s
  rcases hm s with ⟨b, b', t, h1, h2, h3, h4, h5⟩ | ⟨e, t, h1, h2⟩
  · rw [bind_of_ok h1, bind_of_ok h2]
    cases b with
    | true =>
      cases b' with
      | true => exact hx t
      | false => exact hxy t
    | false =>
      cases b' with
      | true => simp at h5
      | false => exact hy t
  · exact .inr ⟨e, t, bind_of_error h1, .inl h2⟩

theorem Grows.prefix {α : Type} {m : RM G κ α} (h : Grows m) (s : Run G κ) : s.log <+: (m s).2.log := by
  obtain ⟨l, hl⟩ := h s
  rw [hl]
  exact List.prefix_append _ _

theorem mainLoop_begins {m : Nat} {ck : Checkers G κ}
    (hlax : ∀ gen, Laxer B (Run.rechecked k f) (shouldTerminate (c.stopping m ck) gen) (shouldTerminate c gen)) {n n' : Nat} (hn : n ≤ n')
    (gen : Nat) : CutShort B (Run.rechecked k f) (mainLoop (c.stopping m ck) n' gen) (mainLoop c n gen) := by
  induction n generalizing n' gen with
  | zero =>
    intro s
    obtain ⟨l, hl⟩ := mainLoop_grows (c.stopping m ck) n' gen (s.rechecked k f)
    exact .inl ⟨s, rfl, by rw [hl]; exact List.prefix_append _ _⟩
  | succ n ih =>
    cases n' with
    | zero => omega
    | succ n' =>
      unfold mainLoop
      refine CutShort.after (Unchecked.modify (fun _ _ _ => rfl) k f) fun _ => CutShort.after (updateGen_unchecked gen k f) fun _ => ?_
      refine CutShort.get fun s => CutShort.after (m := setSeed c (nextSeed s.genSeed)) (Unchecked.modify (fun _ _ _ => rfl) k f) fun _ => ?_
      refine CutShort.after (Unchecked.modify (fun _ _ _ => rfl) k f) fun _ => CutShort.after (generation_unchecked c k f) fun _ => ?_
      refine CutShort.asking (hlax gen) ?_ ?_ ?_
      · intro s
        exact .inl ⟨_, rfl, List.prefix_refl _⟩
      · intro s
        refine .inl ⟨_, rfl, ?_⟩
        exact (mainLoop_grows (c.stopping m ck) n' (gen + 1)).prefix ((publish "algorithm" "after_generation" (s.rechecked k f)).2)
      · exact CutShort.after (Unchecked.publish _ _ k f) fun _ => ih (by omega) (gen + 1)

/-- What `afterInit` shows of a run that is stopped. -/
theorem afterInit_begins {m : Nat} {ck : Checkers G κ} (hlax : ∀ gen, Laxer B (Run.rechecked k f) (shouldTerminate (c.stopping m ck) gen) (shouldTerminate c gen))
    (hm : c.maxGen ≤ m) (s : Run G κ) :
    (∃ t, afterInit c s = (.ok (), t) ∧ (t.log <+: (afterInit (c.stopping m ck) (s.rechecked k f)).2.log ∨
      s.log <+: (afterInit (c.stopping m ck) (s.rechecked k f)).2.log ∧ t.log = s.log ++ [⟨"algorithm", "after_generation", s.snapshot⟩] ∧
        t.snapshot = s.snapshot ∧ t.finalGen = some 0)) ∨
      ∃ e t, afterInit c s = (.error e, t) ∧ (B e ∨ afterInit (c.stopping m ck) (s.rechecked k f) = (.error e, t.rechecked k f)) := by
  have hg := (afterInit_grows (c.stopping m ck)).prefix (s.rechecked k f)
  rcases hlax s.genNum s with ⟨b, b', t, h1, h2, h3, h4, h5⟩ | ⟨e, t, h1, h2⟩
  · cases b with
    | true =>
      refine .inl ⟨{ t with finalGen := some 0, log := t.log ++ [⟨"algorithm", "after_generation", t.snapshot⟩] }, ?_, .inr ⟨hg, ?_⟩⟩
      · unfold afterInit
        simp only [bind_run, PyM.get, h1]
        rfl
      · exact ⟨by show t.log ++ [_] = _; rw [h3, ← h4], h4, rfl⟩
    | false =>
      have hb : b' = false := by cases b' <;> simp_all
      subst hb
      have e1 : afterInit c s = mainLoop c c.maxGen 1 t := by
        unfold afterInit
        simp only [bind_run, PyM.get, h1]
        rfl
      have e2 : afterInit (c.stopping m ck) (s.rechecked k f) = mainLoop (c.stopping m ck) m 1 (t.rechecked k f) := by
        unfold afterInit
        have h2' : shouldTerminate (c.stopping m ck) (s.rechecked k f).genNum (s.rechecked k f) = _ := h2
        simp only [bind_run, PyM.get, h2']
        rfl
      rw [e1, e2]
      rcases mainLoop_begins hlax hm 1 t with ⟨u, h6, h7⟩ | h
      · exact .inl ⟨u, h6, .inl h7⟩
      · exact .inr h
  · refine .inr ⟨e, t, ?_, .inl h2⟩
    unfold afterInit
    simp only [bind_run, PyM.get, h1]

/-! ## The last event shows the end of the run -/

/-- The last event shows the present state. -/
def UpToDate (s : Run G κ) : Prop := ∃ l e, s.log = l ++ [e] ∧ e.snap = s.snapshot

theorem publish_settled (p n : String) (s : Run G κ) : wlp (publish p n) (fun _ t => UpToDate t) s := by
  unfold publish
  exact wlp_modify.2 ⟨s.log, _, rfl, rfl⟩

theorem mainLoop_settled (n gen : Nat) : ∀ {s : Run G κ}, UpToDate s → wlp (mainLoop c n gen) (fun _ t => UpToDate t) s := by
  induction n generalizing gen with
  | zero => intro s h; simpa [mainLoop] using h
  | succ n ih =>
    intro s _
    unfold mainLoop
    refine wlp_bind.2 ((wlp_true _ _).mono fun _ s1 _ => wlp_bind.2 ((wlp_true _ _).mono fun _ s2 _ => ?_))
    refine wlp_bind.2 ((wlp_true _ _).mono fun _ s3 _ => wlp_bind.2 ((wlp_true _ _).mono fun _ s4 _ => ?_))
    refine wlp_bind.2 ((wlp_true _ _).mono fun _ s5 _ => wlp_bind.2 ((wlp_true _ _).mono fun _ s6 _ => ?_))
    refine wlp_bind.2 ((wlp_true _ _).mono fun stop s7 _ => wlp_ite.2 ⟨fun _ => ?_, fun _ => ?_⟩)
    · exact wlp_bind.2 ((wlp_true _ _).mono fun _ s8 _ => publish_settled _ _ s8)
    · exact wlp_bind.2 ((publish_settled _ _ s7).mono fun _ s8 h8 => ih _ h8)

theorem initRun_settled (s : Run G κ) : wlp (initRun c) (fun _ t => UpToDate t) s := by
  unfold initRun
  refine wlp_bind.2 ((wlp_true _ _).mono fun _ s1 _ => wlp_bind.2 ((wlp_true _ _).mono fun _ s2 _ => ?_))
  refine wlp_bind.2 ((wlp_true _ _).mono fun _ s3 _ => wlp_bind.2 ((wlp_true _ _).mono fun _ s4 _ => ?_))
  exact wlp_bind.2 ((wlp_true _ _).mono fun _ s5 _ => publish_settled _ _ s5)

theorem afterInit_settled (h : UpToDate s) : wlp (afterInit c) (fun _ t => UpToDate t) s := by
  unfold afterInit
  refine wlp_bind.2 (wlp_get.2 (wlp_bind.2 ?_))
  intro stop t ht
  obtain ⟨ks, hk⟩ := shouldTerminate_seen c s.genNum s
  rw [ht] at hk
  simp only at hk
  subst hk
  refine wlp_ite.2 ⟨fun _ => ?_, fun _ => mainLoop_settled _ _ h⟩
  exact wlp_bind.2 ((wlp_true _ _).mono fun _ s8 _ => publish_settled _ _ s8)

/-! ## C124 -/

/-- The run that ended in `s` is a beginning of one that showed `log`: it showed the same events, down to every individual,
up to one that shows how it ended; only then did it publish `evolution_finished` (and if it was stopped right after the
initialisation, `after_generation`). -/
def BeginningOf (s : Run G κ) (log : List (Event G)) : Prop := ∃ l e tail, s.log = l ++ [e] ++ tail ∧ l ++ [e] <+: log ∧
  e.snap = s.snapshot ∧ (tail = [⟨"algorithm", "evolution_finished", s.snapshot⟩] ∨
    tail = [⟨"algorithm", "after_generation", s.snapshot⟩, ⟨"algorithm", "evolution_finished", s.snapshot⟩] ∧ s.finalGen = some 0)

theorem evolve_begins {m : Nat} {ck : Checkers G κ} (hlax : ∀ gen, Laxer B (Run.rechecked k f) (shouldTerminate (c.stopping m ck) gen) (shouldTerminate c gen))
    (hm : c.maxGen ≤ m) (s : Run G κ) :
    (∃ t, evolve c s = (.ok (), t) ∧ BeginningOf t (evolve (c.stopping m ck) (s.rechecked k f)).2.log) ∨
      ∃ e t, evolve c s = (.error e, t) ∧ (B e ∨ evolve (c.stopping m ck) (s.rechecked k f) = (.error e, t.rechecked k f)) := by
  have hi := initRun_unchecked c k f s
  have hi' : initRun (c.stopping m ck) (s.rechecked k f) = ((initRun c s).1, (initRun c s).2.rechecked k f) := by
    rw [except_map_id] at hi
    exact hi
  have hset := initRun_settled (c := c) s
  rcases hr : initRun c s with ⟨r, s1⟩
  rw [hr] at hi'
  cases r with
  | error e =>
    refine .inr ⟨e, s1, ?_, .inr ?_⟩
    · exact bind_of_error hr
    · exact bind_of_error hi'
  | ok u =>
    have h1 := hset _ _ hr
    have hset2 := afterInit_settled (c := c) h1
    have e1 : ∀ x, evolve c s = x ↔ ((afterInit c >>= fun _ => publish "algorithm" "evolution_finished" >>= fun _ =>
        PyM.modify fun s => { s with shutdown := true }) s1) = x := by
      intro x
      unfold evolve
      rw [bind_of_ok hr]
    have e2 : evolve (c.stopping m ck) (s.rechecked k f) = (afterInit (c.stopping m ck) >>= fun _ =>
        publish "algorithm" "evolution_finished" >>= fun _ => PyM.modify fun s => { s with shutdown := true }) (s1.rechecked k f) := by
      unfold evolve
      rw [bind_of_ok hi']
    have hgrow : (afterInit (c.stopping m ck) (s1.rechecked k f)).2.log <+: (evolve (c.stopping m ck) (s.rechecked k f)).2.log := by
      rw [e2]
      cases hq : afterInit (c.stopping m ck) (s1.rechecked k f) with
      | mk q v =>
        cases q with
        | error e => rw [bind_of_error hq]
        | ok u =>
          rw [bind_of_ok hq]
          exact List.prefix_append _ _
    rcases afterInit_begins hlax hm s1 with ⟨t, h2, h3⟩ | ⟨e, t, h2, h3⟩
    · left
      refine ⟨_, (e1 _).2 (by rw [bind_of_ok h2]; rfl), ?_⟩
      rcases h3 with h3 | ⟨h3, h4, h5, h6⟩
      · obtain ⟨l, e, hl, hs⟩ := hset2 _ _ h2
        refine ⟨l, e, [⟨"algorithm", "evolution_finished", t.snapshot⟩], ?_, ?_, hs, .inl rfl⟩
        · show t.log ++ [_] = _
          rw [hl]
        · rw [← hl]; exact h3.trans hgrow
      · obtain ⟨l, e, hl, hs⟩ := h1
        refine ⟨l, e, [⟨"algorithm", "after_generation", t.snapshot⟩, ⟨"algorithm", "evolution_finished", t.snapshot⟩], ?_, ?_, hs.trans h5.symm, .inr ⟨rfl, h6⟩⟩
        · show t.log ++ [_] = _
          rw [h4, hl, ← h5]
          simp
        · rw [← hl]; exact h3.trans hgrow
    · right
      refine ⟨e, t, (e1 _).2 (bind_of_error h2), ?_⟩
      rcases h3 with h3 | h3
      · exact .inl h3
      · exact .inr (by rw [e2, bind_of_error h3])

/-- **C124**: a run with a termination checker is a beginning of the run without it that may last at least as long: it shows
the same events, and ends in what the other shows at the time.  It raises what the other raises, unless asking the checkers
raises. -/
theorem C124_checker {m : Nat} (hm : c.maxGen ≤ m) (ks : List κ) {r : Except Err Unit} (h : evolve c s = (r, s')) :
    (r = .ok () → BeginningOf s' (evolve (c.stopping m .none) { s with checkers := ks }).2.log) ∧
    ∀ e, r = .error e → c.AskingRaises e ∨
      evolve (c.stopping m .none) { s with checkers := ks } = (.error e, { s' with checkers := ks, finalGen := s.finalGen }) := by
  rcases evolve_begins (fun gen => lax_none m ks s.finalGen gen) hm s with ⟨t, h1, h2⟩ | ⟨e, t, h1, h2⟩
  · rw [h] at h1
    cases h1
    exact ⟨fun _ => h2, fun e he => by simp at he⟩
  · rw [h] at h1
    cases h1
    exact ⟨fun he => by simp at he, fun e he => by cases he; exact h2⟩

/-- **C124**: a run is a beginning of the run with more generations. -/
theorem C124_generations {m : Nat} (hm : c.maxGen ≤ m) {r : Except Err Unit} (h : evolve c s = (r, s')) :
    (r = .ok () → BeginningOf s' (evolve (c.stopping m c.checker) s).2.log) ∧
    ∀ e, r = .error e → c.AskingRaises e ∨ evolve (c.stopping m c.checker) s = (.error e, s') := by
  rcases evolve_begins (fun gen => lax_same m gen) hm s with ⟨t, h1, h2⟩ | ⟨e, t, h1, h2⟩
  · rw [h] at h1
    cases h1
    exact ⟨fun _ => h2, fun e he => by simp at he⟩
  · rw [h] at h1
    cases h1
    exact ⟨fun he => by simp at he, fun e he => by cases he; exact h2⟩

theorem BeginningOf.evals {log : List (Event G)} (h : BeginningOf s log) : ∀ e ∈ s.log, e.IsEval → e ∈ log := by
  obtain ⟨l, e₀, tail, h1, h2, -, h3⟩ := h
  intro e he hev
  rw [h1, List.mem_append] at he
  rcases he with he | he
  · exact h2.subset he
  · exfalso
    rcases h3 with rfl | ⟨rfl, -⟩
    · simp only [List.mem_singleton] at he
      subst he
      exact absurd hev (by simp [Event.IsEval])
    · simp only [List.mem_cons, List.not_mem_nil, or_false] at he
      rcases he with rfl | rfl <;> exact absurd hev (by simp [Event.IsEval])

theorem beginning_best {sub : SubCfg G} {mo : Mode} {c' : Cfg G κ} {s s' t t' : Run G κ} (hc : c.Ordinary sub mo) (hc' : c'.Ordinary sub mo)
    (hsize : c'.size = c.size) (hr : s.Ready mo) (hr' : t.Ready mo) (hlog : s.log = []) (hlog' : t.log = [])
    (h : evolve c s = (.ok (), s')) (h' : evolve c' t = (.ok (), t')) (hb : BeginningOf s' t'.log) :
    ∃ b b', s'.bestOfRun = some b ∧ t'.bestOfRun = some b' ∧ essence t'.w.heap b = essence s'.w.heap b ∧
      ¬ Beats c.size mo.hib (ofHeap t'.w.heap) b b' := by
  obtain ⟨b, hb1, ⟨e, he, hev, hsh⟩, hall⟩ := C35_end hc hr hlog h
  obtain ⟨b', hb2, -, hall'⟩ := C35_end hc' hr' hlog' h'
  have h1 := hall' e (hb.evals e he hev) hev b hsh
  have h2 := hall e he hev b hsh
  exact ⟨b, b', hb1, hb2, h1.2.1.trans h2.2.1.symm, hsize ▸ h1.2.2⟩

theorem Cfg.Ordinary.stopping {sub : SubCfg G} {mo : Mode} (hc : c.Ordinary sub mo) (m : Nat) (ck : Checkers G κ) :
    (c.stopping m ck).Ordinary sub mo := ⟨hc.1, hc.2, hc.3, hc.4, hc.5, hc.6, hc.7⟩

/-- **C124**: the best individual of a run that may last longer is at least as good; the best of the shorter run has the
genome and fitness there that it has here. -/
theorem C124_budget {sub : SubCfg G} {mo : Mode} {m : Nat} (hm : c.maxGen ≤ m) (hc : c.Ordinary sub mo) (hr : s.Ready mo) (hlog : s.log = [])
    (h : evolve c s = (.ok (), s')) (h' : evolve (c.stopping m c.checker) s = (.ok (), t)) :
    ∃ b b', s'.bestOfRun = some b ∧ t.bestOfRun = some b' ∧ essence t.w.heap b = essence s'.w.heap b ∧
      ¬ Beats c.size mo.hib (ofHeap t.w.heap) b b' :=
  beginning_best hc (hc.stopping m c.checker) rfl hr hr hlog hlog h h' (by have := (C124_generations hm h).1 rfl; rwa [h'] at this)

/-- **C124**: the same for a run without termination checkers. -/
theorem C124_patience {sub : SubCfg G} {mo : Mode} {m : Nat} (hm : c.maxGen ≤ m) (ks : List κ) (hc : c.Ordinary sub mo) (hr : s.Ready mo)
    (hlog : s.log = []) (h : evolve c s = (.ok (), s')) (h' : evolve (c.stopping m .none) { s with checkers := ks } = (.ok (), t)) :
    ∃ b b', s'.bestOfRun = some b ∧ t.bestOfRun = some b' ∧ essence t.w.heap b = essence s'.w.heap b ∧
      ¬ Beats c.size mo.hib (ofHeap t.w.heap) b b' :=
  beginning_best (t := { s with checkers := ks }) hc (hc.stopping m .none) rfl hr hr hlog hlog h h' (by have := (C124_checker hm ks h).1 rfl; rwa [h'] at this)

/-! `exCfg` is stopped by a checker in generation 2 of 5; without the checker it lasts 7 generations. -/

theorem exLonger : (evolve (exCfg.stopping 7 .none) { exRun with checkers := [] }).1 = .ok () ∧
    (evolve (exCfg.stopping 7 .none) { exRun with checkers := [] }).2.genNum = 7 := by decide +kernel

example := C124_checker (c := exCfg) (s := exRun) (m := 7) (by decide) [] (ran exRun_ends.1)

example := C124_patience (m := 7) (by decide) [] exCfg_ordinary (.inl rfl) (s := exRun) rfl (ran exRun_ends.1) (ran exLonger.1)

theorem exBrief : (evolve (exCfg.stopping 1 exCfg.checker) exRun).1 = .ok () := by decide +kernel

example := C124_generations (c := exCfg.stopping 1 exCfg.checker) (s := exRun) (m := 5) (by decide) (ran exBrief)

example := C124_budget (m := 5) (by decide) (exCfg_ordinary.stopping 1 exCfg.checker) (.inl rfl) (s := exRun) rfl (ran exBrief)
  (ran exRun_ends.1)

end Verif.Evo
