import Verif.Model.Reports
import Verif.Props.Published
import Verif.Props.Restore
import Verif.Props.Resume
import Verif.Props.Run
import Verif.Lemmas.Descent

/-! # C102: statistics are written once per generation -/

namespace Verif.Evo
open PyM Verif.Pub
variable {G κ C : Type} {c : Cfg G κ} {s s' : Run G κ}

/-- The event ends a generation (or the run, if it ends before the first one). -/
def Event.EndsGeneration (e : Event G) : Bool := e.publisher == "algorithm" && e.name == "after_generation"

/-- The publisher knows the event `after_generation`, its subscribers there are the callbacks `subs`, and the ids it
will hand out are new. -/
def Sound (reg : Registry C) (subs : List C) : Prop :=
  ∃ l, lookup reg.events "after_generation" = some l ∧ l.map (·.2) = subs.map .callback ∧
    ∀ p ∈ l, p.1 < reg.customersId

theorem callAll_all {l : List (Nat × Stored C)} {subs : List C} (h : l.map (·.2) = subs.map .callback) :
    callAll l = (subs, .ok ()) := by
  induction l generalizing subs with
  | nil =>
    cases subs with
    | nil => rfl
    | cons => simp at h
  | cons p l ih =>
    obtain ⟨i, st⟩ := p
    cases subs with
    | nil => simp at h
    | cons c cs =>
      simp only [List.map_cons, List.cons.injEq] at h
      obtain ⟨rfl, h⟩ := h
      simp [callAll, ih h]

theorem Sound.publish {reg : Registry C} {subs : List C} (h : Sound reg subs) :
    (Pub.publish reg "after_generation").1 = subs := by
  obtain ⟨l, h1, h2, -⟩ := h
  unfold Pub.publish
  rw [h1]
  simp [callAll_all h2]

/-- Registering the statistics adds them at the end, and leaves the other events alone. -/
theorem Sound.register {reg : Registry C} {subs : List C} (h : Sound reg subs) (stats : List C) :
    ∃ reg', registerStats stats reg = (.ok (), reg') ∧ Sound reg' (subs ++ stats) ∧
      ∀ e, e ≠ "after_generation" → lookup reg'.events e = lookup reg.events e := by
  induction stats generalizing reg subs with
  | nil => exact ⟨reg, rfl, by simpa using h, fun _ _ => rfl⟩
  | cons c cs ih =>
    obtain ⟨l, h1, h2, h3⟩ := h
    have hstep : Pub.register "after_generation" (some c) reg = (.ok reg.customersId,
        ⟨assign reg.events "after_generation" (l ++ [(reg.customersId, .callback c)]), reg.customersId + 1⟩) := by
      simp only [Pub.register, bind, PyM.bind, PyM.get, h1, PyM.set, pure, PyM.pure]
      rw [assign_fresh l _ _ fun p hp => Nat.ne_of_lt (h3 p hp)]
      rfl
    obtain ⟨reg', e1, e2, e3⟩ := ih (reg := ⟨assign reg.events "after_generation"
      (l ++ [(reg.customersId, .callback c)]), reg.customersId + 1⟩) (subs := subs ++ [c]) (by
        refine ⟨l ++ [(reg.customersId, .callback c)], by rw [lookup_assign, if_pos rfl], by simp [h2], ?_⟩
        intro p hp
        rcases List.mem_append.1 hp with hp | hp
        · exact Nat.lt_succ_of_lt (h3 p hp)
        · simp only [List.mem_singleton] at hp
          rw [hp]
          exact Nat.lt_succ_self _)
    refine ⟨reg', ?_, by simpa using e2, fun e he => ?_⟩
    · have e1' : forL (fun c => do
          let _ ← Pub.register "after_generation" (some c)
          pure ()) cs _ = _ := e1
      simp only [registerStats, forL, bind, PyM.bind, hstep, pure, PyM.pure]
      exact e1'
    · rw [e3 e he, lookup_assign, if_neg (Ne.symm he)]

/-- The calls on `after_generation`. -/
def onGeneration (calls : List (C × Event G)) : List (C × Event G) := calls.filter fun p => p.2.EndsGeneration

theorem delivered_generation {reg : Registry C} {subs : List C} (h : Sound reg subs) (evs : List (Event G)) :
    onGeneration (delivered reg evs) = (evs.filter Event.EndsGeneration).flatMap fun e => subs.map fun c => (c, e) := by
  induction evs with
  | nil => rfl
  | cons e evs ih =>
    unfold onGeneration delivered at ih ⊢
    rw [List.flatMap_cons, List.filter_append, ih]
    by_cases hp : e.publisher = "algorithm"
    · by_cases hn : e.name = "after_generation"
      · have he : e.EndsGeneration = true := by simp [Event.EndsGeneration, hp, hn]
        rw [if_pos hp, hn, h.publish, List.filter_cons_of_pos he, List.flatMap_cons]
        congr 1
        rw [List.filter_eq_self]
        intro p hp'
        obtain ⟨c, -, rfl⟩ := List.mem_map.1 hp'
        exact he
      · have he : e.EndsGeneration = false := by simp [Event.EndsGeneration, hn]
        rw [if_pos hp, List.filter_cons_of_neg (by rw [he]; simp)]
        convert List.nil_append _ using 2
        rw [List.filter_eq_nil_iff]
        intro p hp'
        obtain ⟨c, -, rfl⟩ := List.mem_map.1 hp'
        simp [he]
    · have he : e.EndsGeneration = false := by simp [Event.EndsGeneration, hp]
      rw [if_neg hp, List.filter_cons_of_neg (by rw [he]; simp)]
      rfl

theorem initRun_silent {r : Except Err Unit} (h : initRun c s = (r, s')) :
    (s'.log.drop s.log.length).filter Event.EndsGeneration = [] := by
  obtain ⟨l, h1, h2⟩ := emits_initRun c s r s' h
  have hsub : ∀ x ∈ l, x ∈ initTags := by
    cases r with
    | ok _ => intro x hx; exact h2.1.subset hx
    | error _ => intro x hx; exact h2.1.subset hx
  have hl : (s'.log.drop s.log.length).map Event.tag = l := by
    have : s'.log.map Event.tag = s.log.map Event.tag ++ l := h1
    rw [List.map_drop, this]
    simp
  rw [List.filter_eq_nil_iff]
  intro e he ht
  have : e.tag ∈ initTags := hsub _ (hl ▸ List.mem_map_of_mem he)
  simp only [Event.EndsGeneration, Bool.and_eq_true, beq_iff_eq] at ht
  rw [show e.tag = ("algorithm", "after_generation") from Prod.ext ht.1 ht.2] at this
  revert this
  decide

/-- The events of this run that end a generation. -/
def ends (s s' : Run G κ) : List (Event G) := (s'.log.drop s.log.length).filter Event.EndsGeneration

/-- **C102, the reports of a run.** Evolving an object whose subscribers to `after_generation` are `subs`: the run
is that of the object without statistics, and if it gets past its initialisation, then at the end of every
generation exactly `subs` and after them the statistics are called, and these are the subscribers afterwards. -/
theorem C102_reports {reg : Registry C} {subs stats : List C} (h : Sound reg subs)
    {r : Except Err Unit} {reg' : Registry C} {calls : List (C × Event G)}
    (hrun : evolveReporting c stats reg s = ((r, s'), reg', calls)) :
    evolve c s = (r, s') ∧
    ((onGeneration calls = (ends s s').flatMap fun e => (subs ++ stats).map fun x => (x, e)) ∧
      (Sound reg' (subs ++ stats) ∨ (Sound reg' subs ∧ ends s s' = [] ∧ r ≠ .ok ()))) := by
  unfold evolveReporting at hrun
  rcases hi : initRun c s with ⟨r₁, s₁⟩
  have hsil := initRun_silent hi
  rw [hi] at hrun
  cases r₁ with
  | error e =>
    simp only [Prod.mk.injEq] at hrun
    obtain ⟨⟨rfl, rfl⟩, rfl, rfl⟩ := hrun
    refine ⟨by unfold evolve; exact bind_of_error hi, ?_, .inr ⟨h, hsil, by simp⟩⟩
    rw [delivered_generation h, hsil]
    unfold ends
    rw [hsil]
    rfl
  | ok u =>
    obtain ⟨reg₁, e1, e2, -⟩ := h.register stats
    simp only [e1] at hrun
    rcases hrest : (do
          afterInit c
          publish "algorithm" "evolution_finished"
          PyM.modify fun s => { s with shutdown := true } : RM G κ Unit) s₁ with ⟨r₂, s₂⟩
    rw [hrest] at hrun
    simp only [Prod.mk.injEq] at hrun
    obtain ⟨⟨rfl, rfl⟩, rfl, rfl⟩ := hrun
    have hev : evolve c s = (r₂, s₂) := by
      unfold evolve
      rw [bind_of_ok hi]
      exact hrest
    refine ⟨hev, ?_, .inl e2⟩
    obtain ⟨l, hl⟩ := (emits_initRun c s _ s₁ hi)
    have hgrow : Grows (do
        afterInit c
        publish "algorithm" "evolution_finished"
        PyM.modify fun s => { s with shutdown := true } : RM G κ Unit) :=
      (afterInit_grows c).bind fun _ => (Grows.publish _ _).bind fun _ => Grows.modify (by exact fun _ => rfl)
    obtain ⟨l₂, hl₂⟩ := hgrow s₁
    rw [hrest] at hl₂
    have hl₂ : s₂.log = s₁.log ++ l₂ := hl₂
    have hle : s.log.length ≤ s₁.log.length := by
      have := congrArg List.length hl.1
      simp only [Run.tags, List.length_append, List.length_map] at this
      omega
    have hsplit : s₂.log.drop s.log.length = s₁.log.drop s.log.length ++ s₂.log.drop s₁.log.length := by
      rw [hl₂, List.drop_append_of_le_length hle]
      simp
    unfold onGeneration
    rw [List.filter_append]
    have d1 := delivered_generation h (s₁.log.drop s.log.length)
    have d2 := delivered_generation e2 (s₂.log.drop s₁.log.length)
    unfold onGeneration at d1 d2
    rw [d1, d2, hsil]
    unfold ends
    rw [hsplit, List.filter_append, hsil]
    rfl

/-- The registry of a newly constructed `SimpleEvolution` — simple_evolution.py:99-105, algorithm.py:118-123. -/
def freshRegistry : Registry C :=
  new (["before_eval", "after_eval", "before_breeding", "after_breeding"] ++ ["init", "evolution_finished", "after_generation"])

theorem freshRegistry_sound : Sound (freshRegistry : Registry C) [] := ⟨[], rfl, rfl, by simp⟩

/-- The generations whose end the statistics `x` was called at, in order. -/
def written [DecidableEq C] (x : C) (calls : List (C × Event G)) : List Nat :=
  ((onGeneration calls).filter fun p => p.1 = x).map fun p => p.2.snap.genNum

/-- C102, as the property says it: whenever an algorithm is evolved with success — a new one, or one that was saved and
loaded again — each statistics object it was given is called exactly once at the end of every generation. -/
def C102_statement : Prop :=
  ∀ (c : Cfg Nat Unit) (s s' : Run Nat Unit) (x : Nat) (reg reg' : Registry Nat) (calls : List (Nat × Event Nat)),
    (reg = freshRegistry ∨ ∃ s₀ calls₀ s₁, evolveReporting c [x] freshRegistry s₀ = ((.ok (), s₁), reg, calls₀) ∧ s = s₁.reloaded) →
    evolveReporting c [x] reg s = ((.ok (), s'), reg', calls) →
    written x calls = (ends s s').map fun e => e.snap.genNum

theorem written_eq [DecidableEq C] {x : C} {evs : List (Event G)} {calls : List (C × Event G)} {subs : List C}
    (h : onGeneration calls = evs.flatMap fun e => subs.map fun y => (y, e)) :
    written x calls = evs.flatMap fun e => List.replicate (subs.count x) e.snap.genNum := by
  unfold written
  rw [h]
  clear h
  induction evs with
  | nil => rfl
  | cons e evs ih =>
    rw [List.flatMap_cons, List.filter_append, List.map_append, ih, List.flatMap_cons]
    congr 1
    clear ih
    induction subs with
    | nil => rfl
    | cons y ys ih =>
      rw [List.map_cons]
      by_cases hy : y = x
      · subst hy
        rw [List.filter_cons_of_pos (by simp), List.map_cons, ih, List.count_cons_self, List.replicate_succ]
      · rw [List.filter_cons_of_neg (by simp [hy]), ih, List.count_cons_of_ne hy]

/-- **C102 (partial): a new object.** In the first run of a newly constructed algorithm, however it goes, each
statistics object given once is called exactly once at the end of each generation. -/
theorem C102_once_partial [DecidableEq C] {stats : List C} {x : C} (hx : stats.count x = 1)
    {r : Except Err Unit} {reg' : Registry C} {calls : List (C × Event G)}
    (hrun : evolveReporting c stats freshRegistry s = ((r, s'), reg', calls)) :
    written x calls = (ends s s').map fun e => e.snap.genNum := by
  rw [written_eq (C102_reports freshRegistry_sound hrun).2.1]
  simp only [List.nil_append, hx, List.replicate_one]
  rw [List.map_eq_flatMap]

/-- An object evolved successfully `n` times in a row, saved and loaded in between. -/
inductive Evolved (c : Cfg G κ) (stats : List C) : Nat → Registry C → Run G κ → Prop
  | new (s : Run G κ) : Evolved c stats 0 freshRegistry s
  | again {n : Nat} {reg reg' : Registry C} {s s' : Run G κ} {calls : List (C × Event G)} :
      Evolved c stats n reg s → evolveReporting c stats reg s = ((.ok (), s'), reg', calls) →
      Evolved c stats (n + 1) reg' s'.reloaded

theorem Evolved.sound {stats : List C} {n : Nat} {reg : Registry C} (h : Evolved c stats n reg s) :
    Sound reg (List.replicate n stats).flatten := by
  induction h with
  | new => exact freshRegistry_sound
  | again _ hrun ih =>
    rcases (C102_reports ih hrun).2.2 with h | ⟨-, -, h⟩
    · rwa [List.replicate_succ', List.flatten_append, List.flatten_singleton]
    · exact absurd rfl h

/-- **C102 (partial): the object evolved again.** After `n` runs, the next one calls each statistics object `n + 1`
times at the end of every generation: the registrations of the runs before are still there. -/
theorem C102_again_partial [DecidableEq C] {stats : List C} {x : C} (hx : stats.count x = 1) {n : Nat} {reg : Registry C}
    (h : Evolved c stats n reg s) {r : Except Err Unit} {reg' : Registry C} {calls : List (C × Event G)}
    (hrun : evolveReporting c stats reg s = ((r, s'), reg', calls)) :
    written x calls = (ends s s').flatMap fun e => List.replicate (n + 1) e.snap.genNum := by
  rw [written_eq (C102_reports h.sound hrun).2.1]
  have : ((List.replicate n stats).flatten ++ stats).count x = n + 1 := by
    rw [List.count_append, List.count_flatten, List.map_replicate, List.sum_replicate, hx]
    simp
  rw [this]

theorem Consultations.genNums {gen : Nat} {snaps : List (Snapshot G)} {ks ks' : List κ} {b : Bool}
    (h : Consultations c gen snaps ks b ks') : snaps.map (·.genNum) = List.range' gen snaps.length := by
  induction h with
  | done => rfl
  | stop h _ => simp [h]
  | next h _ _ ih => simp [h, ih, List.range'_succ]

/-- The events that end a generation are the points but the first. -/
theorem points_eq {log : List (Event G)} {rest : List (String × String)} (h : log.map Event.tag = initTags ++ rest)
    (hr : ("algorithm", "init") ∉ rest) :
    (log.filter Event.isPoint).tail = log.filter Event.EndsGeneration := by
  match log, h with
  | [], h => simp [initTags] at h
  | [_], h => simp [initTags] at h
  | [_, _], h => simp [initTags] at h
  | a :: b :: i :: log, h =>
    simp only [initTags, List.map_cons, List.cons_append, List.nil_append, List.cons.injEq] at h
    obtain ⟨ha, hb, hi, h⟩ := h
    have e1 : a.isPoint = false := by simp [Event.isPoint, ha]
    have e2 : b.isPoint = false := by simp [Event.isPoint, hb]
    have e3 : i.isPoint = true := by simp [Event.isPoint, hi]
    have hE : ∀ e : Event G, e.EndsGeneration = (e.tag == ("algorithm", "after_generation")) := fun e => rfl
    have e4 : a.EndsGeneration = false := by rw [hE, ha]; decide
    have e5 : b.EndsGeneration = false := by rw [hE, hb]; decide
    have e6 : i.EndsGeneration = false := by rw [hE, hi]; decide
    simp only [List.filter_cons, e1, e2, e3, e4, e5, e6, if_true, List.tail_cons, Bool.false_eq_true, if_false]
    refine List.filter_congr fun e he => ?_
    have : e.tag ∈ rest := h ▸ List.mem_map_of_mem he
    have hne : (e.tag == ("algorithm", "init")) = false := by
      rw [beq_eq_false_iff_ne]
      intro hh
      rw [hh] at this
      exact hr this
    rw [hE, Event.isPoint, hne, Bool.false_or]

/-- **C102 (partial): which generations.** A first run that returns calls each statistics object after the generations
1, 2, … up to the last one, in order and once each (never for the initial population) — or, when the checkers stop the
run before its first generation, once after generation 0. -/
theorem C102_generations_partial [DecidableEq C] {stats : List C} {x : C} (hx : stats.count x = 1) (hlog : s.log = [])
    (hg : s.genNum = 0) (hf : c.Fits s.checkers) {reg' : Registry C} {calls : List (C × Event G)}
    (hrun : evolveReporting c stats freshRegistry s = ((.ok (), s'), reg', calls)) :
    written x calls = List.range' 1 s'.genNum ∨ (s'.genNum = 0 ∧ s'.finalGen = some 0 ∧ written x calls = [0]) := by
  have hev := (C102_reports freshRegistry_sound hrun).1
  obtain ⟨snaps, stop, hc⟩ := C36_course hlog hg hf hev
  rw [C102_once_partial hx hrun]
  have hp := points_eq (log := s'.log) (rest := (List.replicate (snaps.length - 1) genTags).flatten ++
    (if stop = true ∧ snaps.length = 1 then [("algorithm", "after_generation")] else []) ++
    [("algorithm", "evolution_finished")]) (by rw [hc.tags]; simp only [List.append_assoc]) (by
      simp only [List.mem_append, not_or]
      refine ⟨⟨?_, ?_⟩, by decide⟩
      · intro h
        obtain ⟨y, hy, hy'⟩ := List.mem_flatten.1 h
        rw [List.eq_of_mem_replicate hy] at hy'
        revert hy'
        decide
      · split
        · decide
        · simp)
  have hends : (ends s s').map (fun e => e.snap.genNum) =
      (snaps ++ if stop = true ∧ snaps.length = 1 then snaps else []).tail.map (·.genNum) := by
    rw [← hc.seen, ← List.map_tail, hp]
    unfold ends
    rw [hlog]
    simp [Function.comp_def]
  have hnum := hc.asked.genNums
  rw [hends, hc.genNum]
  obtain ⟨a, l, rfl⟩ := List.exists_cons_of_ne_nil hc.ne
  simp only [List.map_cons, List.length_cons, List.range'_succ, List.cons.injEq] at hnum
  by_cases h : stop = true ∧ (a :: l).length = 1
  · right
    obtain ⟨h1, h2⟩ := h
    have hl : l = [] := by simpa using h2
    subst hl
    have hfin := hc.finalGen
    rw [h1] at hfin
    refine ⟨rfl, by simpa using hfin, ?_⟩
    simp [h1, hnum.1]
  · left
    rw [if_neg h]
    simp only [List.append_nil, List.tail_cons, List.length_cons, Nat.add_sub_cancel]
    exact hnum.2

theorem reported {α : Type} {x : (Except Err Unit × Run G κ) × Registry C × α} (h : x.1.1 = .ok ()) :
    x = ((.ok (), x.1.2), x.2.1, x.2.2) := by
  obtain ⟨⟨r, s⟩, reg, calls⟩ := x
  simp only at h
  rw [h]

/-- A run of two generations with one statistics object. -/
def exReport := evolveReporting (exDownCfg.upTo 2) [7] freshRegistry exDownRun

/-- The same object, saved, loaded and evolved again. -/
def exReportAgain := evolveReporting (exDownCfg.upTo 2) [7] exReport.2.1 exReport.1.2.reloaded

theorem exReport_ends : exReport.1.1 = .ok () ∧ written 7 exReport.2.2 = [1, 2] ∧ exReportAgain.1.1 = .ok () ∧
    written 7 exReportAgain.2.2 = [1, 1, 2, 2] ∧
    (ends exReport.1.2.reloaded exReportAgain.1.2).map (fun e => e.snap.genNum) = [1, 2] := by decide +kernel

theorem exReport_ran : evolveReporting (exDownCfg.upTo 2) [7] freshRegistry exDownRun =
    ((.ok (), exReport.1.2), exReport.2.1, exReport.2.2) :=
  exReport.eq_1.symm.trans (reported exReport_ends.1)

theorem exReportAgain_ran : evolveReporting (exDownCfg.upTo 2) [7] exReport.2.1 exReport.1.2.reloaded =
    ((.ok (), exReportAgain.1.2), exReportAgain.2.1, exReportAgain.2.2) :=
  exReportAgain.eq_1.symm.trans (reported exReport_ends.2.2.1)

/-- C102 is false: the statistics of an object that was saved, loaded and evolved again are written twice. -/
theorem C102_refuted : ¬ C102_statement := fun h => by
  have := h (exDownCfg.upTo 2) exReport.1.2.reloaded _ 7 exReport.2.1 _ _
    (.inr ⟨exDownRun, _, _, exReport_ran, rfl⟩) exReportAgain_ran
  rw [exReport_ends.2.2.2.1, exReport_ends.2.2.2.2] at this
  revert this
  decide

example := C102_once_partial (stats := [7]) (x := 7) (by decide) exReport_ran

example := C102_generations_partial (stats := [7]) (x := 7) (c := exDownCfg.upTo 2) (s := exDownRun) (by decide) rfl rfl trivial
  exReport_ran

example := C102_again_partial (stats := [7]) (x := 7) (by decide) (.again (.new exDownRun) exReport_ran) exReportAgain_ran

example := C102_reports (stats := [7]) freshRegistry_sound exReport_ran

end Verif.Evo
