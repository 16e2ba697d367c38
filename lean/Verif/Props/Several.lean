import Verif.Lemmas.Tamed
import Verif.Props.Run

/-! # C122: a population without exactly one sub-population is refused before anything is evaluated

`SimpleEvolution` accepts any list of sub-populations; its default population evaluator refuses all but lists of one. -/

namespace Verif.Evo
open PyM
variable {G κ : Type} {c : Cfg G κ}

/-- The event was published by the population evaluator before it started. -/
def Event.IsEvalStart (e : Event G) : Prop := e.publisher = "population_evaluator" ∧ e.name = "before_operator"

theorem evaluateBody_several (h : c.subs.length ≠ 1) (s : Run G κ) : evaluateBody c s = (.error .valueError, s) := by
  unfold evaluateBody
  rw [bind_of_ok (m := PyM.get) (s := s) rfl]
  match hs : c.subs with
  | [] => rfl
  | [sub] => simp [hs] at h
  | _ :: _ :: _ => rfl

theorem evaluatePopulation_several (h : c.subs.length ≠ 1) (s : Run G κ) : evaluatePopulation c s =
    (.error .valueError, { s with log := s.log ++ [⟨"population_evaluator", "before_operator", s.snapshot⟩] }) := by
  unfold evaluatePopulation act
  rw [bind_of_ok (m := publish "population_evaluator" "before_operator") (s := s) rfl, bind_of_error (evaluateBody_several h _)]

/-- What the run looks like when the population has been created. -/
def creation (c : Cfg G κ) : RM G κ Unit := do
  let s ← PyM.get
  setSeed c s.randomSeed
  createPopulation c

theorem initRun_eq (c : Cfg G κ) : initRun c = (do
    creation c
    let b ← evaluatePopulation c
    modify fun s => { s with bestOfRun := some b }
    publish "algorithm" "init") := by
  funext s
  unfold initRun creation
  rw [bind_of_ok (m := PyM.get) (s := s) rfl, bind_of_ok (m := setSeed c s.randomSeed) (s := s) rfl]
  cases hr : createPopulation c { s with w := { s.w with tape := c.stream s.randomSeed } } with
  | mk r s' =>
    have h : (PyM.get >>= fun s : Run G κ => setSeed c s.randomSeed >>= fun _ => createPopulation c) s = (r, s') := by
      rw [bind_of_ok (m := PyM.get) (s := s) rfl, bind_of_ok (m := setSeed c s.randomSeed) (s := s) rfl, hr]
    cases r with
    | error e => rw [bind_of_error hr, bind_of_error h]
    | ok u => rw [bind_of_ok hr, bind_of_ok h]

theorem evolve_several (h : c.subs.length ≠ 1) (s : Run G κ) : evolve c s =
    match creation c s with
    | (.error e, s') => (.error e, s')
    | (.ok _, s') => (.error .valueError, { s' with log := s'.log ++ [⟨"population_evaluator", "before_operator", s'.snapshot⟩] }) := by
  have h1 : initRun c s = match creation c s with
    | (.error e, s') => (.error e, s')
    | (.ok _, s') => (.error .valueError, { s' with log := s'.log ++ [⟨"population_evaluator", "before_operator", s'.snapshot⟩] }) := by
    rw [initRun_eq]
    cases hr : creation c s with
    | mk r s' =>
      cases r with
      | error e => rw [bind_of_error hr]
      | ok u => rw [bind_of_ok hr, bind_of_error (evaluatePopulation_several h s')]
  unfold evolve
  cases hr : creation c s with
  | mk r s' =>
    rw [hr] at h1
    cases r with
    | error e => exact bind_of_error h1
    | ok u => exact bind_of_error h1

/-- Creation touches the individuals and the random tape only. -/
theorem createPopulation_keeps (c : Cfg G κ) (s : Run G κ) :
    ∃ r w is, createPopulation c s = (r, { s with w := w, inds := is }) := by
  unfold createPopulation
  rw [bind_of_ok (m := PyM.get) (s := s) rfl]
  cases hr : mapL (fun (p : SubCfg G × Option (List Nat)) => createSub p.1 p.2) (c.subs.zip s.inds) s.w with
  | mk r w =>
    cases r with
    | error e =>
      refine ⟨.error e, w, s.inds, ?_⟩
      rw [bind_of_error (e := e) (s' := { s with w := w })]
      simp [world, zoom, hr]
    | ok is =>
      refine ⟨.ok (), w, is, ?_⟩
      rw [bind_of_ok (a := is) (s' := { s with w := w })]
      · rfl
      · simp [world, zoom, hr]

theorem creation_keeps (c : Cfg G κ) (s : Run G κ) : ∃ r w is, creation c s = (r, { s with w := w, inds := is }) := by
  unfold creation
  rw [bind_of_ok (m := PyM.get) (s := s) rfl, bind_of_ok (m := setSeed c s.randomSeed) (s := s) rfl]
  obtain ⟨r, w, is, h⟩ := createPopulation_keeps c { s with w := { s.w with tape := c.stream s.randomSeed } }
  exact ⟨r, w, is, h⟩

/-- **C122**: `evolve` of an algorithm without exactly one sub-population raises.  Nothing has been evaluated, bred or
recorded by then: the attributes of the algorithm are what they were, and no event was published except that the population
evaluator starts. -/
theorem C122_refused (h : c.subs.length ≠ 1) (s : Run G κ) :
    ∃ e s', evolve c s = (.error e, s') ∧ (∃ es, s'.log = s.log ++ es ∧ es.length ≤ 1 ∧ ∀ ev ∈ es, ev.IsEvalStart) ∧
      s'.bestOfRun = s.bestOfRun ∧ s'.bestOfGen = s.bestOfGen ∧ s'.worstOfGen = s.worstOfGen ∧ s'.genNum = s.genNum ∧
      s'.finalGen = s.finalGen ∧ s'.checkers = s.checkers ∧ s'.shutdown = s.shutdown := by
  obtain ⟨r, w, is, hr⟩ := creation_keeps c s
  rw [evolve_several h, hr]
  cases r with
  | error e => exact ⟨e, _, rfl, ⟨[], by simp⟩, rfl, rfl, rfl, rfl, rfl, rfl, rfl⟩
  | ok u => exact ⟨_, _, rfl, ⟨[_], rfl, le_refl _, by simp [Event.IsEvalStart]⟩, rfl, rfl, rfl, rfl, rfl, rfl, rfl⟩

/-- If the creators work, the exception is a `ValueError`. -/
theorem C122_value_error (h : c.subs.length ≠ 1) {s s₁ : Run G κ}
    (hc : (setSeed c s.randomSeed >>= fun _ => createPopulation c) s = (.ok (), s₁)) :
    (evolve c s).1 = .error .valueError ∧ (evolve c s).2.w = s₁.w ∧ (evolve c s).2.inds = s₁.inds := by
  have : creation c s = (.ok (), s₁) := by
    unfold creation
    rw [bind_of_ok (m := PyM.get) (s := s) rfl, hc]
  rw [evolve_several h, this]
  exact ⟨rfl, rfl, rfl⟩

/-- Two configurations that may differ in their evaluators, operators, selection methods, elites, termination checkers,
numbers of generations and workers, but not in what is created. -/
structure Cfg.CreatesLike (c c' : Cfg G κ) : Prop where
  stream : c.stream = c'.stream
  subs : List.Forall₂ (fun a b => a.creators = b.creators ∧ a.pick = b.pick ∧ a.popSize = b.popSize ∧ a.hib = b.hib) c.subs c'.subs

/-- No evaluator, operator, selection method or termination checker is called: whatever they do, the outcome is the same. -/
theorem C122_unused {c' : Cfg G κ} (h : c.subs.length ≠ 1) (hc : c.CreatesLike c') (s : Run G κ) :
    evolve c s = evolve c' s := by
  have h' : c'.subs.length ≠ 1 := hc.subs.length_eq ▸ h
  have hm : ∀ (inds : List (Option (List Nat))) (w : World G),
      mapL (fun (p : SubCfg G × Option (List Nat)) => createSub p.1 p.2) (c.subs.zip inds) w =
      mapL (fun (p : SubCfg G × Option (List Nat)) => createSub p.1 p.2) (c'.subs.zip inds) w := by
    intro inds w
    refine congrFun ?_ w
    have := hc.subs
    generalize c.subs = xs at this
    generalize c'.subs = ys at this
    induction this generalizing inds with
    | nil => rfl
    | @cons a b xs ys hab _ ih =>
      cases inds with
      | nil => rfl
      | cons i is =>
        simp only [List.zip_cons_cons]
        unfold mapL
        have : createSub a i = createSub b i := by
          cases i with
          | some _ => rfl
          | none => simp only [createSub, hab.1, hab.2.1, hab.2.2.1, hab.2.2.2]
        rw [this, ih]
  have hcr : creation c = creation c' := by
    have hp : createPopulation c = createPopulation c' := by
      unfold createPopulation
      congr 1
      funext s
      have : mapL (fun (p : SubCfg G × Option (List Nat)) => createSub p.1 p.2) (c.subs.zip s.inds) =
        mapL (fun (p : SubCfg G × Option (List Nat)) => createSub p.1 p.2) (c'.subs.zip s.inds) := funext (hm _)
      rw [this]
    unfold creation
    rw [hp]
    unfold setSeed
    rw [hc.stream]
  rw [evolve_several h, evolve_several h', hcr]

/-! Two sub-populations of three: they are created, then the run is refused. -/

def exTwoCfg : Cfg Nat Nat := { exCfg with subs := [exSubCfg, exSubCfg] }

def exTwoRun : Run Nat Nat := { exRun with inds := [none, none] }

theorem exTwo_created : ((setSeed exTwoCfg exTwoRun.randomSeed >>= fun _ => createPopulation exTwoCfg) exTwoRun).1 = .ok () ∧
    (evolve exTwoCfg exTwoRun).2.inds = [some [0, 1, 2], some [3, 4, 5]] := by decide +kernel

example := C122_refused (c := exTwoCfg) (by decide) exTwoRun

example := C122_value_error (c := exTwoCfg) (by decide) (s := exTwoRun) (ran exTwo_created.1)

/-- The same with another evaluator. -/
def exTwoCfg' : Cfg Nat Nat := { exCfg with subs := [{ exSubCfg with evaluate := fun _ => raise (.user 1) }, exSubCfg] }

theorem exTwo_like : exTwoCfg.CreatesLike exTwoCfg' where
  stream := rfl
  subs := .cons ⟨rfl, rfl, rfl, rfl⟩ (.cons ⟨rfl, rfl, rfl, rfl⟩ .nil)

example : evolve exTwoCfg exTwoRun = evolve exTwoCfg' exTwoRun := C122_unused (by decide) exTwo_like _

end Verif.Evo
