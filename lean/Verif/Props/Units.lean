import Verif.Lemmas.Units
import Verif.Props.MooTotal

/-! # C125 — runs of NSGA-II do not depend on the units of the objectives -/

namespace Verif.Moo
open PyM
variable {G : Type} {U : Units} {c : MCfg G}

/-- No objective has been assigned and nothing published. -/
structure MRun.Blank (s : MRun G) : Prop where
  fits : ∀ r, (s.w.fits r).objs = none
  log : s.log = []

/-- The runs agree, except that the objectives of the second are those of the first in the units `U`. -/
structure SameRun (U : Units) (s s' : MRun G) : Prop where
  inds : s'.inds = s.inds
  bestOfRun : s'.bestOfRun = s.bestOfRun
  bestOfGen : s'.bestOfGen = s.bestOfGen
  genNum : s'.genNum = s.genNum
  finalGen : s'.finalGen = s.finalGen
  genome : s'.w.genome = s.w.genome
  tape : s'.w.tape = s.w.tape
  objs : ∀ r, (s'.w.fits r).objs = (s.w.fits r).objs.map fun v => v.mapIdx fun j x => U.factor j * x + U.offset j
  rank : ∀ r, (s'.w.fits r).rank = (s.w.fits r).rank
  crowding : ∀ r, (s'.w.fits r).crowding = (s.w.fits r).crowding
  log : List.Forall₂ (fun e e' => e'.publisher = e.publisher ∧ e'.name = e.name ∧ e'.genNum = e.genNum ∧ e'.inds = e.inds ∧
    ∀ r, (e'.fits r).objs = (e.fits r).objs.map (fun v => v.mapIdx fun j x => U.factor j * x + U.offset j) ∧
      (e'.fits r).rank = (e.fits r).rank ∧ (e'.fits r).crowding = (e.fits r).crowding) s.log s'.log

theorem sameRun_units (s : MRun G) : SameRun U s (s.units U) := by
  refine ⟨rfl, rfl, rfl, rfl, rfl, rfl, rfl, fun _ => rfl, fun _ => rfl, fun _ => rfl, ?_⟩
  unfold MRun.units
  rw [List.forall₂_map_right_iff]
  exact List.forall₂_same.2 fun e _ => ⟨rfl, rfl, rfl, rfl, fun _ => ⟨rfl, rfl, rfl⟩⟩

theorem MRun.Blank.units {s : MRun G} (h : s.Blank) : s.units U = s := by
  unfold MRun.units MWorld.units
  have h1 : s.w.fits.units U = s.w.fits := by
    funext r
    have := h.fits r
    unfold Heap.units Fit.units
    cases hf : s.w.fits r with
    | mk objs dirs cache relative crowding rank =>
      rw [hf] at this
      subst this
      rfl
  rw [h1, h.log, List.map_nil, ← h.log]

/-- **C125.** A run of NSGA-II whose parts look at objectives only through domination, ranks and crowding stays the same
when the evaluator returns the objectives in other units: it ends as it did, or raises what it raised, with the same
individuals, genomes, ranks and crowding distances at every event. -/
theorem C125_run (hU : U.Proper) (hc : c.Same U) {s : MRun G} (hs : s.Blank) :
    (mevolve (c.units U) s).1 = (mevolve c s).1 ∧ SameRun U (mevolve c s).2 (mevolve (c.units U) s).2 := by
  have h := mevolve_units hU hc s
  rw [hs.units] at h
  rw [h]
  refine ⟨?_, sameRun_units _⟩
  show Except.map id _ = _
  rw [Evo.except_map_id]

/-! ## The checkers -/

/-- **C125, the crowding checker.** `CrowdingTerminationChecker` gives the same answers in all units. -/
theorem C125_crowding_checker (threshold : ℚ) :
    SameAnswers U (fun heap inds _ _ => crowdingTerminate threshold heap [inds]) (fun heap inds _ _ => crowdingTerminate threshold heap [inds]) := by
  intro heap inds best gen
  have h1 : ∀ l, finiteCrowding (heap.units U) l = finiteCrowding heap l := by
    intro l
    induction l with
    | nil => rfl
    | cons r l ih =>
      unfold finiteCrowding
      rw [ih]
      rfl
  unfold crowdingTerminate findMaxCrowding subCrowding
  simp only [List.map_cons, List.map_nil, h1]

/-- The default checker raises in all units. -/
theorem defaultChecker_units : SameAnswers U defaultChecker defaultChecker := by
  intro heap inds best gen
  cases best with
  | none => rfl
  | some r =>
    show (match ((heap r).units U).pure with | .error e => _ | .ok _ => _) = (match (heap r).pure with | .error e => _ | .ok _ => _)
    rw [pure_units]
    cases (heap r).pure <;> rfl

/-- A checker that looks at the number of the generation only. -/
theorem byGeneration_units (f : Nat → Except Err Bool) : SameAnswers U (fun _ _ _ g => f g) (fun _ _ _ g => f g) := fun _ _ _ _ => rfl

/-! ## The library -/

section library
variable {n m : Nat} {ds : List Bool}

theorem tournaments_units (h : ∀ x ∈ c.sub.sels, ∃ arity k replace, x = ⟨arity, tournamentM k replace⟩) : ∀ x ∈ c.sub.sels, x.Same U := by
  intro x hx
  obtain ⟨a, k, rep, rfl⟩ := h x hx
  exact fun source dest => tournamentM_units k rep source dest

/-- **C125, vectors.** A run put together from the library's vector creators, crossover and mutations, with tournament selection
and a checker that gives the same answers in all units, does not depend on the units of the objectives. -/
theorem C125_vectors {kind : GA.Kind} {bounds : GA.Bounds} {length : Nat} {c : MCfg GA.Vec} (hU : U.Proper)
    (hcr : VecCreator kind bounds length n m ds c.sub.create) (hop : ∀ o ∈ c.sub.ops, VecOp kind length o)
    (hsel : ∀ x ∈ c.sub.sels, ∃ arity k replace, x = ⟨arity, tournamentM k replace⟩) (hck : SameAnswers U c.checker c.checker)
    {s : MRun GA.Vec} (hs : s.Blank) :
    (mevolve (c.units U) s).1 = (mevolve c s).1 ∧ SameRun U (mevolve c s).2 (mevolve (c.units U) s).2 := by
  refine C125_run hU ⟨⟨?_, fun o ho => ?_, tournaments_units hsel⟩, hck⟩ hs
  · generalize c.sub.create = cr at hcr
    cases hcr with
    | mk fit hf => exact Sim.ite Iff.rfl (fun _ => Sim.raise) fun _ => createM_units _ _ hf.1 n
  · cases hop o ho <;> exact onGenomes_units _ _ _

/-- **C125, programs.** The same for tree creators and operators. -/
theorem C125_programs {cfg : GP.Cfg} {c : MCfg GP.Ind} (hU : U.Proper)
    (hcr : TreeCreator cfg n m ds c.sub.create) (hop : ∀ o ∈ c.sub.ops, TreeOp o)
    (hsel : ∀ x ∈ c.sub.sels, ∃ arity k replace, x = ⟨arity, tournamentM k replace⟩) (hck : SameAnswers U c.checker c.checker)
    {s : MRun GP.Ind} (hs : s.Blank) :
    (mevolve (c.units U) s).1 = (mevolve c s).1 ∧ SameRun U (mevolve c s).2 (mevolve (c.units U) s).2 := by
  refine C125_run hU ⟨⟨?_, fun o ho => ?_, tournaments_units hsel⟩, hck⟩ hs
  · generalize c.sub.create = cr at hcr
    cases hcr with
    | full d fit hf => exact createM_units _ _ hf.1 n
    | grow q lo hi fit hf => exact createM_units _ _ hf.1 n
    | half q lo hi fit hf => exact halfM_units (fun _ k => createM_units _ _ hf.1 k) (fun _ k => createM_units _ _ hf.1 k) _ _ _
  · cases hop o ho <;> exact onGenomes_units _ _ _

end library

/-! ## Examples -/

/-- Metres to millimetres in the first objective, degrees Celsius to Fahrenheit in the second. -/
def exUnits : Units := ⟨fun j => if j = 0 then 1000 else 9 / 5, fun j => if j = 0 then 0 else 32⟩

theorem exUnits_proper : exUnits.Proper := by
  intro j
  unfold exUnits
  dsimp only
  split <;> norm_num

theorem exVectorRun_blank : exVectorRun.Blank := ⟨fun _ => rfl, rfl⟩

example : (mevolve (exVector.units exUnits) exVectorRun).1 = .ok () ∧
    SameRun exUnits (mevolve exVector exVectorRun).2 (mevolve (exVector.units exUnits) exVectorRun).2 := by
  obtain ⟨s', h1, -⟩ := C82_vectors (s := exVectorRun) GA.exLib_proper exVector_assembled ⟨rfl, fun r hr => absurd hr (Nat.not_lt_zero r), rfl, rfl⟩
    (fun r hr => absurd hr (Nat.not_lt_zero r))
  obtain ⟨h2, h3⟩ := C125_vectors exUnits_proper exVector_assembled.creator exVector_assembled.ops
    (fun x hx => ⟨1, 2, true, by simpa [exVector] using hx⟩) (byGeneration_units fun _ => .ok false) exVectorRun_blank
  exact ⟨by rw [h2, h1], h3⟩

example : (mevolve (exProg.units exUnits) exProgRun).1 = .ok () ∧
    SameRun exUnits (mevolve exProg exProgRun).2 (mevolve (exProg.units exUnits) exProgRun).2 := by
  obtain ⟨s', h1, -⟩ := C82_programs (s := exProgRun) GP.exPlain exProg_assembled ⟨rfl, fun r hr => absurd hr (Nat.not_lt_zero r), rfl, rfl⟩
    (fun r hr => absurd hr (Nat.not_lt_zero r))
  obtain ⟨h2, h3⟩ := C125_programs exUnits_proper exProg_assembled.creator exProg_assembled.ops
    (fun x hx => ⟨1, 2, false, by simpa [exProg] using hx⟩) (byGeneration_units fun _ => .ok false) (s := exProgRun) ⟨fun _ => rfl, rfl⟩
  exact ⟨by rw [h2, h1], h3⟩

/-! ## Other rescalings -/

/-- An increasing function that is not linear. -/
def bend (x : ℚ) : ℚ := if x ≤ 1 then 8 * x else 8 + (x - 1) / 4

theorem bend_strictMono : StrictMono bend := by
  intro x y h
  unfold bend
  split <;> split <;> linarith

/-- Four individuals on one front, both objectives being minimised. -/
def exFront (f : ℚ → ℚ) : Heap := fun r => .new (some [f ([0, 1, 4, 10].getD r 0), [10, 9, 6, 0].getD r 0]) (.same false) false false

/-- **C125, rescalings that are not linear.** An increasing function of an objective may change which individuals are kept. -/
theorem C125_nonlinear : ∃ f : ℚ → ℚ, StrictMono f ∧
    ((select (fun _ l => l) 5 (exFront id) [0, 1, 2, 3] [] (some 3)).map (Except.map Prod.snd)) ≠
    ((select (fun _ l => l) 5 (exFront f) [0, 1, 2, 3] [] (some 3)).map (Except.map Prod.snd)) := by
  refine ⟨bend, bend_strictMono, ?_⟩
  decide +kernel

end Verif.Moo
