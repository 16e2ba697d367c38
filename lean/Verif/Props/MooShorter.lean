import Verif.Props.MooCourse

/-! # C127 — stopping criteria only cut a multi-objective run short

A run stopped by its checker in generation `g` is the run with `max_generation = g` and without a checker; and that is the
beginning of all longer runs. -/

namespace Verif.Moo
open PyM
variable {G : Type} {c : MCfg G} {s s' t : MRun G}

/-- The configuration with another `max_generation` and a checker that never says stop. -/
def MCfg.never (c : MCfg G) (m : Nat) : MCfg G := { c with maxGen := m, checker := fun _ _ _ _ => .ok false }

/-- Asking the checker raises `e`. -/
def MCfg.AskingRaises (c : MCfg G) (e : Err) : Prop := ∃ heap inds best gen, c.checker heap inds best gen = .error e

/-! ## One generation -/

/-- What the main loop does in generation `gen` before the checker is asked. -/
def mstep (c : MCfg G) (gen : Nat) : MRM G Unit := do
  modify fun s => { s with genNum := gen }
  let _ ← individuals
  let s ← PyM.get
  msetSeed c (Evo.nextSeed s.genSeed)
  modify fun s => { s with genSeed := Evo.nextSeed s.genSeed }
  mgeneration c

theorem mloop_succ (n gen : Nat) : mloop c (n + 1) gen = (do
    mstep c gen
    let stop ← mstop c gen
    if stop then do
      modify fun s => { s with finalGen := some gen }
      mpublish "algorithm" "after_generation"
    else do
      mpublish "algorithm" "after_generation"
      mloop c n (gen + 1)) := by
  unfold mstep
  conv => lhs; unfold mloop
  simp only [bind_assoc]

theorem mstep_never (m gen : Nat) : mstep (c.never m) gen = mstep c gen := rfl

theorem mloop_never (m n gen : Nat) : mloop (c.never m) (n + 1) gen = (do
    mstep c gen
    mpublish "algorithm" "after_generation"
    mloop (c.never m) n (gen + 1)) := by
  rw [mloop_succ]
  rfl

theorem mloop_any (m m' n gen : Nat) : mloop (c.never m) n gen = mloop (c.never m') n gen := by
  induction n generalizing gen with
  | zero => rfl
  | succ n ih => rw [mloop_never, mloop_never, ih]

/-- The loop continues where a shorter one ends. -/
theorem mloop_continues (m k j gen : Nat) :
    mloop (c.never m) (k + j) gen = (do mloop (c.never m) k gen; mloop (c.never m) j (gen + k)) := by
  induction k generalizing gen with
  | zero => rw [Nat.zero_add]; rfl
  | succ k ih =>
    rw [Nat.succ_add, mloop_never, mloop_never, ih]
    simp only [bind_assoc]
    rw [show gen + 1 + k = gen + (k + 1) by omega]

/-! ## The log only grows -/

/-- Whatever happens, the log only grows. -/
def MGrows {α : Type} (m : MRM G α) : Prop := ∀ s, s.log <+: (m s).2.log

namespace MGrows
variable {α β : Type}

theorem same {m : MRM G α} (h : ∀ s, (m s).2.log = s.log) : MGrows m := fun s => by rw [h]
theorem bind {m : MRM G α} {f : α → MRM G β} (hm : MGrows m) (hf : ∀ a, MGrows (f a)) : MGrows (m >>= f) := by
  intro s
  have h1 := hm s
  rcases h : m s with ⟨_ | a, s₁⟩
  · rw [bind_of_error h]
    rwa [h] at h1
  · rw [bind_of_ok h]
    rw [h] at h1
    exact h1.trans (hf a s₁)
theorem world (m : MM G α) : MGrows (mworld m) := same fun s => by
  unfold mworld PyM.zoom
  rfl
theorem publish (p n : String) : MGrows (mpublish p n : MRM G Unit) := fun s => List.prefix_append _ _
theorem get : MGrows (PyM.get : MRM G (MRun G)) := same fun _ => rfl
theorem act {p : String} {m : MRM G α} (h : MGrows m) : MGrows (mact p m) :=
  (publish _ _).bind fun _ => h.bind fun _ => (publish _ _).bind fun _ => same fun _ => rfl
theorem inds : MGrows (individuals : MRM G (List Nat)) := same fun s => by
  unfold individuals
  rw [bind_run]
  show (match s.inds with | none => _ | some is => _ : MRM G (List Nat)) s |>.2.log = s.log
  cases s.inds <;> rfl

end MGrows

theorem mstep_grows (gen : Nat) : MGrows (mstep c gen) := by
  refine (MGrows.same fun _ => rfl).bind fun _ => MGrows.inds.bind fun _ => MGrows.get.bind fun _ => (MGrows.same fun _ => rfl).bind fun _ =>
    (MGrows.same fun _ => rfl).bind fun _ => ?_
  refine (MGrows.act (MGrows.inds.bind fun _ => (MGrows.world _).bind fun _ => MGrows.same fun _ => rfl)).bind fun _ => ?_
  refine (MGrows.act (MGrows.inds.bind fun _ => MGrows.get.bind fun _ => MGrows.world _)).bind fun _ => ?_
  refine (MGrows.inds.bind fun _ => MGrows.get.bind fun _ => (MGrows.world _).bind fun _ => MGrows.same fun _ => rfl).bind fun _ => ?_
  exact MGrows.inds.bind fun _ => MGrows.same fun _ => rfl

theorem mloop_grows (m n gen : Nat) : MGrows (mloop (c.never m) n gen) := by
  induction n generalizing gen with
  | zero => exact MGrows.same fun _ => rfl
  | succ n ih => rw [mloop_never]; exact (mstep_grows gen).bind fun _ => (MGrows.publish _ _).bind fun _ => ih _

/-! ## The loop with and without a checker -/

theorem mstep_wlp (gen : Nat) (s : MRun G) : wlp (mstep c gen) (fun _ s' => s'.genNum = gen ∧ s'.finalGen = s.finalGen) s := by
  unfold mstep
  rw [wlp_bind, wlp_modify, wlp_bind]
  refine (mgoes_individuals _).mono ?_
  rintro _ s1 rfl
  rw [wlp_bind, wlp_get, wlp_bind]
  unfold msetSeed
  rw [wlp_modify, wlp_bind, wlp_modify]
  exact (mgoes_generation _).mono fun _ s1 h1 => ⟨h1.genNum, h1.finalGen⟩

/-- How a loop with a checker ends, in terms of the loop without one. -/
def LoopEnds (c : MCfg G) (m n gen : Nat) (s : MRun G) : Except Err Unit → MRun G → Prop
  | .ok _, s' => ∃ k ≤ n, mloop (c.never m) k gen s = (.ok (), { s' with finalGen := s.finalGen }) ∧
      s'.genNum = (if k = 0 then s.genNum else gen + k - 1)
  | .error e, s' => c.AskingRaises e ∨ mloop (c.never m) n gen s = (.error e, s')

theorem mstop_run (gen : Nat) (s : MRun G) : mstop c gen s = (c.checker s.w.fits (s.inds.getD []) s.bestOfRun gen, s) := by
  unfold mstop
  rw [bind_run]
  show ofExcept _ s = _
  cases c.checker s.w.fits (s.inds.getD []) s.bestOfRun gen <;> rfl

theorem mloop_ends (m n gen : Nat) (s : MRun G) : LoopEnds c m n gen s (mloop c n gen s).1 (mloop c n gen s).2 := by
  induction n generalizing gen s with
  | zero => exact ⟨0, le_refl _, rfl, rfl⟩
  | succ n ih =>
    have hstep := mstep_wlp (c := c) gen s
    rw [mloop_succ]
    rcases h1 : mstep c gen s with ⟨r, s1⟩
    cases r with
    | error e =>
      rw [bind_of_error h1]
      refine .inr ?_
      rw [mloop_never, bind_of_error h1]
    | ok _ =>
      obtain ⟨hg, hf⟩ := hstep _ _ h1
      rw [bind_of_ok h1]
      have h2 := mstop_run (c := c) gen s1
      cases hck : c.checker s1.w.fits (s1.inds.getD []) s1.bestOfRun gen with
      | error e =>
        rw [hck] at h2
        rw [bind_of_error h2]
        exact .inl ⟨_, _, _, _, hck⟩
      | ok stop =>
        rw [hck] at h2
        rw [bind_of_ok h2]
        cases stop with
        | true =>
          refine ⟨1, by omega, ?_, hg⟩
          rw [mloop_never, bind_of_ok h1]
          rw [← hf]
          rfl
        | false =>
          have h3 := ih (gen + 1) { s1 with log := s1.log ++ [s1.told "after_generation"] }
          have e1 : (if false = true then (do
              modify fun s => { s with finalGen := some gen }
              mpublish "algorithm" "after_generation") else do
              mpublish "algorithm" "after_generation"
              mloop c n (gen + 1) : MRM G Unit) s1 = mloop c n (gen + 1) { s1 with log := s1.log ++ [s1.told "after_generation"] } := rfl
          have e2 : ∀ k, mloop (c.never m) (k + 1) gen s = mloop (c.never m) k (gen + 1) { s1 with log := s1.log ++ [s1.told "after_generation"] } := by
            intro k
            rw [mloop_never, bind_of_ok h1]
            rfl
          rw [e1]
          rcases hr : mloop c n (gen + 1) { s1 with log := s1.log ++ [s1.told "after_generation"] } with ⟨r, s2⟩
          rw [hr] at h3
          cases r with
          | error e =>
            rcases h3 with h3 | h3
            · exact .inl h3
            · exact .inr (by rw [e2]; exact h3)
          | ok _ =>
            obtain ⟨k, h4, h5, h6⟩ := h3
            refine ⟨k + 1, by omega, ?_, ?_⟩
            · rw [e2, h5]
              dsimp only
              rw [hf]
            · show s2.genNum = _
              rw [h6]
              dsimp only
              rw [if_neg (Nat.succ_ne_zero k)]
              by_cases hk : k = 0
              · rw [if_pos hk, hg, hk]; omega
              · rw [if_neg hk]; omega

/-! ## The run -/

/-- The end of `evolve`. -/
def mclose : MRM G Unit := do
  mpublish "algorithm" "evolution_finished"
  mfinish

/-- Whether the best individual can be shown. -/
def showing (fits : Heap) : Option Nat → Except Err Unit
  | none => .error .attributeError
  | some b => (fits b).pure.map fun _ => ()

theorem mclose_run (s : MRun G) : mclose s = (showing s.w.fits s.bestOfRun, { s with log := s.log ++ [s.told "evolution_finished"] }) := by
  unfold mclose
  rw [bind_run]
  show mfinish { s with log := s.log ++ [s.told "evolution_finished"] } = _
  generalize hs3 : ({ s with log := s.log ++ [s.told "evolution_finished"] } : MRun G) = s3
  have hb : s3.bestOfRun = s.bestOfRun := by rw [← hs3]
  have hw : s3.w = s.w := by rw [← hs3]
  rw [← hb, ← hw]
  unfold mfinish showing
  rw [bind_run]
  simp only [PyM.get]
  cases s3.bestOfRun with
  | none => rfl
  | some r =>
    dsimp only
    cases (s3.w.fits r).pure with
    | error e => rfl
    | ok v => rfl

theorem showing_error {fits : Heap} {best : Option Nat} {e : Err} (h : showing fits best = .error e) :
    ∀ b, best = some b → (fits b).objs = none := by
  rintro b rfl
  cases hp : (fits b).objs with
  | none => rfl
  | some v =>
    simp only [showing, Fit.pure, hp] at h
    cases h

theorem mevolve_eq : mevolve c = (do minit c; mafterInit c; mclose) := rfl

theorem mafterInit_never (m : Nat) (s : MRun G) : mafterInit (c.never m) s = mloop (c.never m) m 1 s := rfl

theorem minit_never (m : Nat) : minit (c.never m) = minit c := rfl

/-- The run without a checker, once the initialisation has returned. -/
theorem mevolve_never {m : Nat} {s1 : MRun G} (h : minit c s = (.ok (), s1)) :
    mevolve (c.never m) s = (mloop (c.never m) m 1 >>= fun _ => mclose) s1 := by
  have h' : minit (c.never m) s = (.ok (), s1) := h
  rw [mevolve_eq, bind_of_ok h']
  rw [bind_run, bind_run, mafterInit_never]

theorem minit_gen (s : MRun G) {s1 : MRun G} (h : minit c s = (.ok (), s1)) : s1.genNum = s.genNum ∧ s1.finalGen = s.finalGen := by
  obtain ⟨_, _, _, h1, h2⟩ := minit_course (c := c) s _ _ h
  exact ⟨h1, h2⟩

/-- **C127.** A run that is stopped by its checker in generation `g` has done what the run without a checker and with
`max_generation = g` does: everything is the same in the end except `final_generation_`; only if it was stopped right after
the initialisation it has published an additional `after_generation`. -/
theorem C127_stopped (hg : s.genNum = 0) (h : mevolve c s = (.ok (), s')) : s'.genNum ≤ c.maxGen ∧
    (mevolve (c.never s'.genNum) s = (.ok (), { s' with finalGen := s.finalGen }) ∨
      s'.genNum = 0 ∧ s'.finalGen = some 0 ∧ ∃ l, s'.log = l ++ [s'.told "after_generation", s'.told "evolution_finished"] ∧
        mevolve (c.never 0) s = (.ok (), { s' with finalGen := s.finalGen, log := l ++ [s'.told "evolution_finished"] })) := by
  rw [mevolve_eq] at h
  rcases h1 : minit c s with ⟨r, s1⟩
  cases r with
  | error e => rw [bind_of_error h1] at h; cases h
  | ok _ =>
    rw [bind_of_ok h1] at h
    obtain ⟨hgn, hfg⟩ := minit_gen s h1
    rw [hg] at hgn
    have h2 := mstop_run (c := c) s1.genNum s1
    have close : ∀ (u : MRun G), mclose u = (.ok (), s') →
        showing u.w.fits u.bestOfRun = .ok () ∧ s' = { u with log := u.log ++ [u.told "evolution_finished"] } := by
      intro u hu
      rw [mclose_run] at hu
      exact ⟨congrArg Prod.fst hu, (congrArg Prod.snd hu).symm⟩
    cases hck : c.checker s1.w.fits (s1.inds.getD []) s1.bestOfRun s1.genNum with
    | error e =>
      rw [hck] at h2
      have : mafterInit c s1 = (.error e, s1) := by
        unfold mafterInit
        rw [bind_run]
        simp only [PyM.get, bind_of_error h2]
      rw [bind_of_error this] at h
      cases h
    | ok stop =>
      rw [hck] at h2
      cases stop with
      | true =>
        have h3 : mafterInit c s1 = (.ok (), { s1 with finalGen := some 0, log := s1.log ++ [s1.told "after_generation"] }) := by
          unfold mafterInit
          rw [bind_run]
          simp only [PyM.get, bind_of_ok h2]
          rfl
        rw [bind_of_ok h3] at h
        obtain ⟨hsh, e⟩ := close _ h
        have hg' : s'.genNum = 0 := by rw [e]; exact hgn
        refine ⟨by omega, .inr ⟨hg', by rw [e], s1.log, ?_, ?_⟩⟩
        · rw [e]; simp [MRun.told]
        · rw [mevolve_never h1]
          show mclose s1 = _
          rw [mclose_run]
          refine Prod.ext hsh ?_
          rw [e, ← hfg]
          rfl
      | false =>
        have h3 : mafterInit c s1 = mloop c c.maxGen 1 s1 := by
          unfold mafterInit
          rw [bind_run]
          simp only [PyM.get, bind_of_ok h2]
          rfl
        rcases h4 : mloop c c.maxGen 1 s1 with ⟨r, s2⟩
        rw [h4] at h3
        cases r with
        | error e => rw [bind_of_error h3] at h; cases h
        | ok _ =>
          rw [bind_of_ok h3] at h
          have h5 := mloop_ends (c := c) 0 c.maxGen 1 s1
          rw [h4] at h5
          obtain ⟨k, hk, h6, h7⟩ := h5
          obtain ⟨hsh, e⟩ := close _ h
          have hg' : s'.genNum = k := by
            rw [e]
            show s2.genNum = k
            rw [h7]
            split
            · omega
            · omega
          refine ⟨by omega, .inl ?_⟩
          rw [show c.never s'.genNum = c.never k by rw [hg'], mevolve_never h1, mloop_any k 0, bind_of_ok h6, hfg, mclose_run]
          refine Prod.ext hsh ?_
          rw [e]
          rfl

/-- **C127, errors.** What a run with a checker raises was raised by the checker, or is raised by the run without it at the
same point, or is raised at the very end since the best individual of the run has no fitness. -/
theorem C127_raises {e : Err} (h : mevolve c s = (.error e, s')) : c.AskingRaises e ∨ mevolve (c.never c.maxGen) s = (.error e, s') ∨
    (∃ l, s'.log = l ++ [s'.told "evolution_finished"]) ∧ ∀ b, s'.bestOfRun = some b → (s'.w.fits b).objs = none := by
  rw [mevolve_eq] at h
  have close : ∀ (u : MRun G), mclose u = (.error e, s') →
      (∃ l, s'.log = l ++ [s'.told "evolution_finished"]) ∧ ∀ b, s'.bestOfRun = some b → (s'.w.fits b).objs = none := by
    intro u hu
    rw [mclose_run] at hu
    have e2 := congrArg Prod.snd hu
    dsimp only at e2
    rw [← e2]
    exact ⟨⟨_, rfl⟩, showing_error (congrArg Prod.fst hu)⟩
  rcases h1 : minit c s with ⟨r, s1⟩
  cases r with
  | error e' =>
    rw [bind_of_error h1] at h
    refine .inr (.inl ?_)
    have h1' : minit (c.never c.maxGen) s = (.error e', s1) := h1
    rw [mevolve_eq, bind_of_error h1', h]
  | ok _ =>
    rw [bind_of_ok h1] at h
    have h2 := mstop_run (c := c) s1.genNum s1
    cases hck : c.checker s1.w.fits (s1.inds.getD []) s1.bestOfRun s1.genNum with
    | error e' =>
      rw [hck] at h2
      have : mafterInit c s1 = (.error e', s1) := by
        unfold mafterInit
        rw [bind_run]
        simp only [PyM.get, bind_of_error h2]
      rw [bind_of_error this] at h
      cases h
      exact .inl ⟨_, _, _, _, hck⟩
    | ok stop =>
      rw [hck] at h2
      cases stop with
      | true =>
        have h3 : mafterInit c s1 = (.ok (), { s1 with finalGen := some 0, log := s1.log ++ [s1.told "after_generation"] }) := by
          unfold mafterInit
          rw [bind_run]
          simp only [PyM.get, bind_of_ok h2]
          rfl
        rw [bind_of_ok h3] at h
        exact .inr (.inr (close _ h))
      | false =>
        have h3 : mafterInit c s1 = mloop c c.maxGen 1 s1 := by
          unfold mafterInit
          rw [bind_run]
          simp only [PyM.get, bind_of_ok h2]
          rfl
        rcases h4 : mloop c c.maxGen 1 s1 with ⟨r, s2⟩
        rw [h4] at h3
        have h5 := mloop_ends (c := c) c.maxGen c.maxGen 1 s1
        rw [h4] at h5
        cases r with
        | error e' =>
          rw [bind_of_error h3] at h
          cases h
          rcases h5 with h5 | h5
          · exact .inl h5
          · exact .inr (.inl (by rw [mevolve_never h1, bind_of_error h5]))
        | ok _ =>
          rw [bind_of_ok h3] at h
          exact .inr (.inr (close _ h))

theorem mloop_current (m n gen : Nat) (s : MRun G) (hs : ∃ l name, s.log = l ++ [s.told name]) :
    wlp (mloop (c.never m) n gen) (fun _ s' => ∃ l name, s'.log = l ++ [s'.told name]) s := by
  induction n generalizing gen s with
  | zero => exact wlp_pure.2 hs
  | succ n ih =>
    rw [mloop_never, wlp_bind]
    refine (wlp_true _ _).mono fun _ s1 _ => ?_
    rw [wlp_bind]
    unfold mpublish
    rw [wlp_modify]
    exact ih _ _ ⟨_, _, rfl⟩

/-- **C127, longer runs.** A run without a checker is a beginning of every run that may last longer: the longer one
publishes the same events, up to the last one the shorter run published before `evolution_finished`, which shows how the shorter
run ended. -/
theorem C127_longer {k m : Nat} (hk : k ≤ m) (h : mevolve (c.never k) s = (.ok (), s')) :
    ∃ l name, s'.log = l ++ [s'.told name, s'.told "evolution_finished"] ∧
      l ++ [s'.told name] <+: (mevolve (c.never m) s).2.log := by
  rw [mevolve_eq] at h
  rcases h1 : minit (c.never k) s with ⟨r, s1⟩
  cases r with
  | error e => rw [bind_of_error h1] at h; cases h
  | ok _ =>
    rw [bind_of_ok h1] at h
    have h1' : minit c s = (.ok (), s1) := h1
    rw [mevolve_never h1']
    rw [bind_run, mafterInit_never] at h
    have hcur := mloop_current (c := c) k k 1 s1 (by
      obtain ⟨evs, hl, -⟩ := minit_course (c := c) s _ _ h1'
      exact ⟨_, _, hl⟩)
    rcases h4 : mloop (c.never k) k 1 s1 with ⟨r, s2⟩
    rw [h4] at h
    cases r with
    | error e => cases h
    | ok _ =>
      obtain ⟨l, name, hl⟩ := hcur _ _ h4
      have h' : mclose s2 = (.ok (), s') := h
      rw [mclose_run] at h'
      have e2 := congrArg Prod.snd h'
      dsimp only at e2
      subst e2
      refine ⟨l, name, ?_, ?_⟩
      · show s2.log ++ [s2.told "evolution_finished"] = l ++ [s2.told name, s2.told "evolution_finished"]
        rw [hl, List.append_assoc]; rfl
      · show l ++ [s2.told name] <+: _
        rw [← hl]
        obtain ⟨j, rfl⟩ := Nat.exists_eq_add_of_le hk
        rw [mloop_continues, mloop_any (k + j) k k, bind_assoc, bind_of_ok h4]
        refine ((mloop_grows (c := c) (k + j) j (1 + k)).bind (f := fun _ => mclose) fun _ => ?_) s2
        intro u
        rw [mclose_run]
        exact List.prefix_append _ _

/-! ## Examples -/

theorem raised {σ α : Type} {m : PyM σ α} {s : σ} {e : Err} (h : (m s).1 = .error e) : m s = (.error e, (m s).2) := by
  rw [← h]

example := C127_stopped (c := exStopAt 1) (s := exVectorRun) rfl (Evo.ran exStopAt_ends.1)
example := C127_stopped (c := exStopAt 0) (s := exVectorRun) rfl (Evo.ran exStopAt_ends.2.2.2.1)

theorem exNever_ends : (mevolve (exVector.never 1) exVectorRun).1 = .ok () ∧ (mevolve (exVector.never 3) exVectorRun).1 = .ok () := by decide +kernel

example := C127_longer (c := exVector) (s := exVectorRun) (k := 1) (m := 3) (by decide) (Evo.ran exNever_ends.1)

/-- With the default checker a run of NSGA-II raises. -/
theorem exDefault_raises : (mevolve { exVector with checker := defaultChecker } exVectorRun).1 = .error .typeError := by decide +kernel

example := C127_raises (c := { exVector with checker := defaultChecker }) (s := exVectorRun) (raised exDefault_raises)

end Verif.Moo
