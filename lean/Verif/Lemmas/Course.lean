import Verif.Lemmas.Run

/-! # Lemmas about the course of a run: which events, which generations -/

namespace Verif.Evo
open PyM
variable {G κ : Type}

/-- What the parts of a generation do to the algorithm: they publish events `tags` and leave the
generation number, checkers, `final_generation_` and seeds alone. -/
structure Goes (tags : List (String × String)) (s s' : Run G κ) : Prop where
  log : ∃ evs : List (Event G), s'.log = s.log ++ evs ∧ evs.map Event.tag = tags
  genNum : s'.genNum = s.genNum
  checkers : s'.checkers = s.checkers
  finalGen : s'.finalGen = s.finalGen
  genSeed : s'.genSeed = s.genSeed
  randomSeed : s'.randomSeed = s.randomSeed
  shutdown : s'.shutdown = s.shutdown

theorem Goes.trans {a b : List (String × String)} {s s₁ s₂ : Run G κ} (h1 : Goes a s s₁)
    (h2 : Goes b s₁ s₂) : Goes (a ++ b) s s₂ := by
  obtain ⟨⟨e1, l1, t1⟩, p1, p2, p3, p4, p5, p6⟩ := h1
  obtain ⟨⟨e2, l2, t2⟩, q1, q2, q3, q4, q5, q6⟩ := h2
  exact ⟨⟨e1 ++ e2, by rw [l2, l1, List.append_assoc], by rw [List.map_append, t1, t2]⟩, q1.trans p1,
    q2.trans p2, q3.trans p3, q4.trans p4, q5.trans p5, q6.trans p6⟩

theorem Goes.quiet {s s' : Run G κ} (h1 : s'.log = s.log) (h2 : s'.genNum = s.genNum)
    (h3 : s'.checkers = s.checkers) (h4 : s'.finalGen = s.finalGen) (h5 : s'.genSeed = s.genSeed)
    (h6 : s'.randomSeed = s.randomSeed) (h7 : s'.shutdown = s.shutdown) : Goes [] s s' :=
  ⟨⟨[], by simp [h1], rfl⟩, h2, h3, h4, h5, h6, h7⟩

theorem goes_publish (p n : String) (s : Run G κ) : wlp (publish p n) (fun _ s' => Goes [(p, n)] s s') s := by
  unfold publish
  rw [wlp_modify]
  exact ⟨⟨[_], rfl, rfl⟩, rfl, rfl, rfl, rfl, rfl, rfl⟩

theorem goes_world {α : Type} (m : WM G α) (s : Run G κ) : wlp (world m) (fun _ s' => Goes [] s s') s := by
  unfold world
  rw [wlp_zoom]
  exact fun _ _ _ => Goes.quiet rfl rfl rfl rfl rfl rfl rfl

theorem goes_bind {α β : Type} {a b t : List (String × String)} {m : RM G κ α} {f : α → RM G κ β}
    {s : Run G κ} (h1 : wlp m (fun _ s' => Goes a s s') s)
    (h2 : ∀ x s', Goes a s s' → wlp (f x) (fun _ s'' => Goes b s' s'') s') (ht : t = a ++ b) :
    wlp (m >>= f) (fun _ s' => Goes t s s') s := by
  rw [wlp_bind]
  refine h1.mono fun x s₁ h => (h2 x s₁ h).mono fun _ s₂ h' => ?_
  rw [ht]
  exact h.trans h'

theorem goes_get_bind {β : Type} {t : List (String × String)} {f : Run G κ → RM G κ β}
    {s : Run G κ} (h : wlp (f s) (fun _ s' => Goes t s s') s) :
    wlp (PyM.get >>= f) (fun _ s' => Goes t s s') s := by
  rw [wlp_bind, wlp_get]; exact h

theorem goes_act {α : Type} (p : String) {m : RM G κ α} {s : Run G κ}
    (h : ∀ s, wlp m (fun _ s' => Goes [] s s') s) :
    wlp (act p m) (fun _ s' => Goes [(p, "before_operator"), (p, "after_operator")] s s') s := by
  unfold act
  refine goes_bind (goes_publish p _ s) (fun _ s₁ _ => ?_) (b := [(p, "after_operator")]) rfl
  refine goes_bind (h s₁) (fun r s₂ _ => ?_) (b := [(p, "after_operator")]) rfl
  refine goes_bind (goes_publish p _ s₂) (fun _ s₃ _ => ?_) (b := []) rfl
  rw [wlp_pure]
  exact Goes.quiet rfl rfl rfl rfl rfl rfl rfl

theorem goes_evaluateBody (c : Cfg G κ) (s : Run G κ) : wlp (evaluateBody c) (fun _ s' => Goes [] s s') s := by
  unfold evaluateBody
  refine goes_get_bind ?_
  split
  · rw [wlp_ite]
    exact ⟨fun _ => by simp, fun _ => goes_world _ s⟩
  · simp
  · simp

theorem goes_breedBody (c : Cfg G κ) (s : Run G κ) : wlp (breedBody c) (fun _ s' => Goes [] s s') s := by
  unfold breedBody
  refine goes_get_bind (goes_bind (goes_world _ s) (fun is s₁ _ => ?_) (b := []) rfl)
  rw [wlp_modify]
  exact Goes.quiet rfl rfl rfl rfl rfl rfl rfl

theorem goes_generation (c : Cfg G κ) (s : Run G κ) : wlp (generationIteration c)
    (fun _ s' => Goes [("breeder", "before_operator"), ("breeder", "after_operator"),
      ("population_evaluator", "before_operator"), ("population_evaluator", "after_operator")] s s') s := by
  unfold generationIteration
  refine goes_bind (goes_act "breeder" (goes_breedBody c)) (fun _ s₁ _ => ?_) rfl
  refine goes_bind (goes_act "population_evaluator" (goes_evaluateBody c)) (fun b s₂ _ => ?_) (b := []) rfl
  refine goes_bind (a := []) (b := []) ?_ (fun _ s₃ _ => ?_) rfl
  · rw [wlp_modify]
    exact Goes.quiet rfl rfl rfl rfl rfl rfl rfl
  refine goes_bind (a := []) (b := []) ?_ (fun _ s₄ _ => ?_) rfl
  · unfold recordBest
    refine goes_get_bind (goes_bind (goes_world _ s₃) (fun v s₄ _ => ?_) (b := []) rfl)
    rw [wlp_ite, wlp_modify, wlp_pure]
    exact ⟨fun _ => Goes.quiet rfl rfl rfl rfl rfl rfl rfl, fun _ => Goes.quiet rfl rfl rfl rfl rfl rfl rfl⟩
  · unfold recordWorst
    refine goes_get_bind ?_
    split
    · refine goes_bind (goes_world _ s₄) (fun v s₅ _ => ?_) (b := []) rfl
      rw [wlp_modify]
      exact Goes.quiet rfl rfl rfl rfl rfl rfl rfl
    · simp

theorem goes_init (c : Cfg G κ) (s : Run G κ) : wlp (initRun c) (fun _ s' => Goes initTags s s') s := by
  unfold initRun
  refine goes_get_bind ?_
  refine goes_bind (a := []) (b := initTags) ?_ (fun _ s₁ _ => ?_) rfl
  · unfold setSeed
    rw [wlp_modify]
    exact Goes.quiet rfl rfl rfl rfl rfl rfl rfl
  refine goes_bind (a := []) (b := initTags) ?_ (fun _ s₂ _ => ?_) rfl
  · unfold createPopulation
    refine goes_get_bind (goes_bind (goes_world _ s₁) (fun is s₂ _ => ?_) (b := []) rfl)
    rw [wlp_modify]
    exact Goes.quiet rfl rfl rfl rfl rfl rfl rfl
  refine goes_bind (goes_act "population_evaluator" (goes_evaluateBody c)) (fun b s₃ _ => ?_)
    (b := [("algorithm", "init")]) rfl
  refine goes_bind (a := []) ?_ (fun _ s₄ _ => goes_publish _ _ s₄) rfl
  rw [wlp_modify]
  exact Goes.quiet rfl rfl rfl rfl rfl rfl rfl

theorem goes_updateGen (gen : Nat) (s : Run G κ) : wlp (updateGen gen) (fun _ s' => Goes [] s s') s := by
  unfold updateGen
  refine goes_get_bind ?_
  refine wlp_forL (I := fun _ s' => Goes [] s s') (Goes.quiet rfl rfl rfl rfl rfl rfl rfl) ?_
  intro pre is post s₁ _ h
  cases is with
  | none => simp
  | some is => exact (goes_world _ s₁).mono fun _ s₂ h' => h.trans h'

theorem consult_spec {heap : List (Ind G)} {inds : List (Option (List Nat))} {best : Option Nat} {gen : Nat}
    (ts : List (Checker G κ)) (ks : List κ) (hl : ks.length = ts.length) {bs : List Bool} {ks' : List κ}
    (h : consult heap inds best gen ts ks = (.ok bs, ks')) :
    ks'.length = ks.length ∧ bs.length = ts.length ∧ ∀ (i : Nat) (t : Checker G κ) (k : κ),
      ts[i]? = some t → ks[i]? = some k → ∃ b k', bs[i]? = some b ∧ ks'[i]? = some k' ∧ t k heap inds best gen = (.ok b, k') := by
  induction ts generalizing ks bs ks' with
  | nil =>
    cases ks with
    | cons k ks => simp at hl
    | nil =>
      simp only [consult, Prod.mk.injEq, Except.ok.injEq] at h
      obtain ⟨rfl, rfl⟩ := h
      simp
  | cons t ts ih =>
    cases ks with
    | nil => simp at hl
    | cons k ks =>
      unfold consult at h
      rcases ht : t k heap inds best gen with ⟨_ | b, k'⟩
      · simp [ht] at h
      · simp only [ht] at h
        rcases hr : consult heap inds best gen ts ks with ⟨_ | bs', ks₁⟩
        · simp [hr] at h
        · simp only [hr, Prod.mk.injEq, Except.ok.injEq] at h
          obtain ⟨rfl, rfl⟩ := h
          obtain ⟨h1, h2, h3⟩ := ih ks (by simpa using hl) hr
          refine ⟨by simp [h1], by simp [h2], ?_⟩
          rintro (_ | i) t' k₁ hti hki
          · simp only [List.getElem?_cons_zero, Option.some.injEq] at hti hki ⊢
            subst hti hki
            exact ⟨b, k', rfl, rfl, ht⟩
          · simpa using h3 i t' k₁ (by simpa using hti) (by simpa using hki)

/-- What asking for termination does. -/
theorem shouldTerminate_asked {c : Cfg G κ} {s : Run G κ} {gen : Nat} (hg : s.genNum = gen)
    (hf : c.Fits s.checkers) :
    wlp (shouldTerminate c gen) (fun v s' => ∃ ks', s' = { s with checkers := ks' } ∧
      Asked c s.snapshot s.checkers v ks' ∧ c.Fits ks') s := by
  subst hg
  intro v s' e
  unfold shouldTerminate at e
  unfold Asked
  unfold Cfg.Fits at hf ⊢
  split at e
  · rename_i hck
    simp only [Prod.mk.injEq, Except.ok.injEq] at e
    obtain ⟨rfl, rfl⟩ := e
    rw [hck]
    exact ⟨s.checkers, rfl, ⟨rfl, rfl⟩, trivial⟩
  · rename_i t hck
    rw [hck] at hf ⊢
    cases hks : s.checkers with
    | nil => simp [hks] at hf
    | cons k ks =>
      have hnil : ks = [] := by simpa [hks] using hf
      subst hnil
      simp only [hks, Prod.mk.injEq] at e
      obtain ⟨e1, rfl⟩ := e
      refine ⟨_, rfl, ⟨k, _, rfl, rfl, ?_⟩, rfl⟩
      exact Prod.ext e1 rfl
  · rename_i ts hck
    rw [hck] at hf ⊢
    dsimp only at hf ⊢
    split at e
    · simp at e
    · rename_i bs ks hc
      simp only [Prod.mk.injEq, Except.ok.injEq] at e
      obtain ⟨rfl, rfl⟩ := e
      obtain ⟨h1, h2, h3⟩ := consult_spec ts s.checkers hf hc
      refine ⟨ks, rfl, ⟨h1, bs, h2, h3, ?_⟩, by rw [h1, hf]⟩
      simp

/-- What the main loop does when `n` generations are left, starting with generation `gen`. -/
structure LoopRun (c : Cfg G κ) (n gen : Nat) (s s' : Run G κ) (snaps : List (Snapshot G)) (stop : Bool) :
    Prop where
  le : snaps.length ≤ n
  full : stop = false → snaps.length = n
  ne : stop = true → snaps ≠ []
  asked : Consultations c gen snaps s.checkers stop s'.checkers
  log : ∃ evs : List (Event G), s'.log = s.log ++ evs ∧
    evs.map Event.tag = (List.replicate snaps.length genTags).flatten ∧
    (evs.filter Event.isPoint).map (·.snap) = snaps
  genNum : s'.genNum = if snaps = [] then s.genNum else gen + snaps.length - 1
  finalGen : s'.finalGen = if stop then some (gen + snaps.length - 1) else s.finalGen
  shutdown : s'.shutdown = s.shutdown
  last : (s.snapshot :: snaps).getLast? = some s'.snapshot

theorem points_of_tags {evs : List (Event G)} {tags : List (String × String)}
    (h : evs.map Event.tag = tags) (ht : ∀ t ∈ tags, t ≠ ("algorithm", "init") ∧ t ≠ ("algorithm", "after_generation")) :
    evs.filter Event.isPoint = [] := by
  rw [List.filter_eq_nil_iff]
  intro e he hp
  obtain ⟨h1, h2⟩ := ht e.tag (h ▸ List.mem_map_of_mem he)
  simp [Event.isPoint, h1, h2] at hp

theorem mainLoop_course (c : Cfg G κ) (n gen : Nat) (s : Run G κ) (hf : c.Fits s.checkers) :
    wlp (mainLoop c n gen) (fun _ s' => ∃ snaps stop, LoopRun c n gen s s' snaps stop) s := by
  induction n generalizing gen s with
  | zero =>
    unfold mainLoop
    rw [wlp_pure]
    exact ⟨[], false, le_refl _, fun _ => rfl, by simp, .done, ⟨[], by simp, rfl, rfl⟩, rfl, rfl, rfl, rfl⟩
  | succ n ih =>
    unfold mainLoop
    rw [wlp_bind, wlp_modify, wlp_bind]
    refine (goes_updateGen gen _).mono fun _ s₁ g1 => ?_
    rw [wlp_bind, wlp_get, wlp_bind]
    unfold setSeed
    rw [wlp_modify, wlp_bind, wlp_modify, wlp_bind]
    refine (goes_generation c _).mono fun _ s₂ g2 => ?_
    rw [wlp_bind]
    have hgen : s₂.genNum = gen := by rw [g2.genNum]; exact g1.genNum
    have hck : s₂.checkers = s.checkers := by rw [g2.checkers]; exact g1.checkers
    have hfin : s₂.finalGen = s.finalGen := by rw [g2.finalGen]; exact g1.finalGen
    have hsh : s₂.shutdown = s.shutdown := by rw [g2.shutdown]; exact g1.shutdown
    obtain ⟨ev2, hl2, ht2⟩ : ∃ evs : List (Event G), s₂.log = s.log ++ evs ∧ evs.map Event.tag =
        [("breeder", "before_operator"), ("breeder", "after_operator"),
        ("population_evaluator", "before_operator"), ("population_evaluator", "after_operator")] := by
      obtain ⟨e1, l1, t1⟩ := g1.log
      obtain ⟨e2, l2, t2⟩ := g2.log
      refine ⟨e1 ++ e2, ?_, by rw [List.map_append, t1, t2]; rfl⟩
      rw [l2]
      show s₁.log ++ e2 = _
      rw [l1, List.append_assoc]
    have hp2 : ev2.filter Event.isPoint = [] := points_of_tags ht2 (by simp)
    refine (shouldTerminate_asked (c := c) (s := s₂) hgen (by rw [hck]; exact hf)).mono ?_
    rintro v _ ⟨ks', rfl, hask, hfit⟩
    have hpoint : ∀ sn : Snapshot G, Event.isPoint ⟨"algorithm", "after_generation", sn⟩ = true := by
      intro sn; simp [Event.isPoint, Event.tag]
    rw [wlp_ite]
    constructor
    · rintro rfl
      rw [wlp_bind, wlp_modify]
      unfold publish
      rw [wlp_modify]
      refine ⟨[s₂.snapshot], true, by simp, by simp, by simp, .stop hgen (hck ▸ hask), ?_, ?_, ?_, hsh, rfl⟩
      · refine ⟨ev2 ++ [⟨"algorithm", "after_generation", s₂.snapshot⟩], ?_, ?_, ?_⟩
        · show s₂.log ++ [_] = _
          rw [hl2, List.append_assoc]; rfl
        · rw [List.map_append, ht2]; rfl
        · rw [List.filter_append, hp2, List.filter_cons, if_pos (hpoint _)]; rfl
      · simp [hgen]
      · simp
    · intro hv
      simp only [Bool.not_eq_true] at hv
      subst hv
      rw [wlp_bind]
      unfold publish
      rw [wlp_modify]
      refine (ih (gen + 1) { s₂ with checkers := ks', log := s₂.log ++ [⟨"algorithm", "after_generation", s₂.snapshot⟩] } hfit).mono ?_
      rintro _ s₃ ⟨snaps, stop, h⟩
      obtain ⟨ev3, hl3, ht3, hp3⟩ := h.log
      refine ⟨s₂.snapshot :: snaps, stop, by simpa using h.le, fun hs => by simp [h.full hs], by simp,
        .next hgen (hck ▸ hask) h.asked, ?_, ?_, ?_, h.shutdown.trans hsh, ?_⟩
      · refine ⟨(ev2 ++ [⟨"algorithm", "after_generation", s₂.snapshot⟩]) ++ ev3, ?_, ?_, ?_⟩
        · rw [hl3]
          show (s₂.log ++ [_]) ++ ev3 = _
          rw [hl2]; simp
        · rw [List.map_append, List.map_append, ht2, ht3]; rfl
        · rw [List.filter_append, List.filter_append, hp2, List.filter_cons, if_pos (hpoint _),
            List.map_append, hp3]; rfl
      · rw [h.genNum]
        by_cases hs : snaps = []
        · simp [hs, hgen]
        · simp only [hs, if_false, List.length_cons, reduceCtorEq]
          omega
      · rw [h.finalGen]
        cases stop with
        | false => simpa using hfin
        | true => simp only [if_true, List.length_cons]; congr 1; omega
      · rw [List.getLast?_cons_cons]
        exact h.last

end Verif.Evo
