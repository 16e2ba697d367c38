import Verif.Lemmas.Rescale
import Verif.Props.Resume
import Verif.Props.Legal

/-! # C123: what a run does depends only on the order of the fitness values

If fitness values are replaced by others in the same order, tournaments have the same winners, elites are the same, and so on:
the run does the same.  Minimising a function is the same as maximising its negation.  With bloat control the sizes of trees
are subtracted from fitness values, so only the second holds. -/

namespace Verif.Evo
open PyM
variable {G κ : Type} {S : Scale}

/-- The fitness objects creators make: `SimpleFitness` objects if `bloat` is `none`, `GPFitness` objects with that weight
otherwise. -/
def stdFit (relative cache : Bool) (bloat : Option ℚ) (hib : Bool) : Fit := ⟨.none, false, hib, relative, cache, bloat⟩

/-- Other values in the same order. -/
def Scale.order (φ : ℚ → ℚ) : Scale := ⟨φ, id, false⟩

/-- The values mirrored at `b / 2`, to be optimised in the other direction. -/
def Scale.mirror (b : ℚ) : Scale := ⟨fun q => b - q, id, true⟩

/-- The values moved by `b`. -/
def Scale.shift (b : ℚ) : Scale := ⟨fun q => q + b, id, false⟩

theorem Scale.order_monotone {φ : ℚ → ℚ} (h : StrictMono φ) : (Scale.order φ).Monotone := fun a b => by
  show a < b ↔ φ a < φ b
  exact h.lt_iff_lt.symm

theorem Scale.mirror_monotone (b : ℚ) : (Scale.mirror b).Monotone := fun x y => by
  show x < y ↔ b - y < b - x
  constructor <;> intro h <;> linarith

theorem Scale.shift_monotone (b : ℚ) : (Scale.shift b).Monotone := fun x y => by
  show x < y ↔ x + b < y + b
  constructor <;> intro h <;> linarith

theorem Scale.mirror_suits (b : ℚ) (bl : Option ℚ) : (Scale.mirror b).Suits bl := by
  cases bl with
  | none => trivial
  | some w =>
    refine ⟨Iff.rfl, fun q n hib _ => ?_⟩
    cases hib <;> simp [Scale.mirror] <;> ring

theorem Scale.shift_suits (b : ℚ) (bl : Option ℚ) : (Scale.shift b).Suits bl := by
  cases bl with
  | none => trivial
  | some w =>
    refine ⟨Iff.rfl, fun q n hib _ => ?_⟩
    cases hib <;> simp [Scale.shift] <;> ring

/-- A configuration that uses tournaments, creators of the kind `CR`, and operators of the kind `OP`. -/
structure Cfg.Ranks (CR : (Nat → Bool → WM G (List Nat)) → Prop) (OP : Op G → Prop) (c : Cfg G κ) : Prop where
  creators : ∀ sub ∈ c.subs, ∀ create ∈ sub.creators, CR create
  ops : ∀ sub ∈ c.subs, ∀ o ∈ sub.ops, OP o
  sels : ∀ sub ∈ c.subs, ∀ sel ∈ sub.sels, ∃ size z replace, sel = tournament size z replace

/-- Nothing exists yet. -/
def Run.Blank (s : Run G κ) : Prop := s.w.heap = [] ∧ s.log = []

theorem Run.Blank.scaled {s : Run G κ} (h : s.Blank) : s.scaled S = s := by
  rcases s with ⟨⟨heap, n, t⟩, a, b, c, d, e, f, g, i, j, k, log⟩
  obtain ⟨h1, h2⟩ := h
  simp only at h1 h2
  subst h1 h2
  rfl

/-- **C123** for any parts that look at the order of fitness at most: the two runs raise the same or return, and do the same
in every respect, except that every fitness value is the image of the other, in what is left and in what every event showed. -/
theorem C123_scaled (hm : S.Monotone) {c : Cfg G κ} {ck : Checkers G κ} (hc : c.Scales S ck) {s : Run G κ}
    (hs : s.w.Suited S) : evolve (c.scaled S ck) (s.scaled S) = ((evolve c s).1, (evolve c s).2.scaled S) := by
  have := (evolve_scales hm hc s hs).1
  rwa [except_map_id] at this

theorem Cfg.Ranks.scales (hm : S.Monotone) {CR : (Nat → Bool → WM G (List Nat)) → Prop} {OP : Op G → Prop} {c : Cfg G κ}
    {ck : Checkers G κ} (h : c.Ranks CR OP) (hck : CheckersScale S ck c.checker) (hcr : ∀ create, CR create → CreatorScales S create)
    (hop : ∀ o, OP o → o.Scales S) : c.Scales S ck where
  subs := fun sub hsub =>
    { creators := fun create hcreate => hcr _ (h.creators sub hsub create hcreate)
      ops := fun o ho => hop _ (h.ops sub hsub o ho)
      sels := fun sel hsel => by
        obtain ⟨size, z, replace, rfl⟩ := h.sels sub hsub sel hsel
        exact tournament_scales hm z replace }
  checkers := hck

theorem ranks_run (hm : S.Monotone) {CR : (Nat → Bool → WM G (List Nat)) → Prop} {OP : Op G → Prop} {c : Cfg G κ}
    {ck : Checkers G κ} (h : c.Ranks CR OP) (hck : CheckersScale S ck c.checker) (hcr : ∀ create, CR create → CreatorScales S create)
    (hop : ∀ o, OP o → o.Scales S) {s : Run G κ} (hs : s.Blank) :
    evolve (c.scaled S ck) s = ((evolve c s).1, (evolve c s).2.scaled S) := by
  have := C123_scaled hm (h.scales hm hck hcr hop) (s := s) (by intro i hi; rw [hs.1] at hi; simp at hi)
  rwa [hs.scaled] at this

/-- Fitness objects made by creators are those of the other scale. -/
theorem stdFit_scaled (rel ca : Bool) (bl : Option ℚ) (hw : S.weight = id) (b : Bool) :
    stdFit rel ca bl (b != S.flip) = (stdFit rel ca bl b).scaled S := by
  unfold stdFit Fit.scaled
  rw [hw, Option.map_id]
  rfl

/-! ## Checkers -/

/-- The target checker is the same for a mirrored target. -/
theorem threshold_mirror (b optimal thr : ℚ) :
    CheckerScales (G := G) (Scale.mirror b) (threshold (b - optimal) thr) (threshold optimal thr) := by
  intro k heap inds best gen _
  unfold threshold
  cases best with
  | none => rfl
  | some r =>
    have : pureOf (heap.map (Ind.scaled (Scale.mirror b))) r = (pureOf heap r).map (FVal.scaled (Scale.mirror b)) := by
      unfold pureOf
      rw [scaled_get]
      cases heap[r]? with
      | none => rfl
      | some i =>
        show (if i.fit.evaluated then _ else _) = Except.map _ (if i.fit.evaluated then _ else _)
        split <;> rfl
    simp only [this]
    cases pureOf heap r with
    | error e => rfl
    | ok v =>
      cases v with
      | none => rfl
      | obj o => rfl
      | num x =>
        have : |b - x - (b - optimal)| = |x - optimal| := by
          rw [show b - x - (b - optimal) = -(x - optimal) by ring, abs_neg]
        show (Except.ok (decide (|b - x - (b - optimal)| ≤ thr)), ()) = _
        rw [this]

/-! ## The full statement is false with bloat control -/

/-- C123 in full: replacing fitness values by others in the same order does not change which genome is the best of the run,
whatever the fitness class. -/
def C123_statement : Prop := ∀ (c : Cfg Nat Unit) (sub : SubCfg Nat) (φ : ℚ → ℚ) (s : Run Nat Unit) (bl : Option ℚ) (make : Nat → Rand Nat),
  c.subs = [sub] → c.checker = .none → StrictMono φ → s.Blank →
  sub.creators = [fun n hib => createIndividuals 0 (make n) (stdFit false true bl) true n hib] → sub.ops = [] →
  sub.sels = [tournament c.size 1 true] →
    ((evolve c s).2.bestOfRun.bind fun b => (evolve c s).2.w.heap[b]?.map (·.genome)) =
    ((evolve (c.scaled (Scale.order φ) .none) s).2.bestOfRun.bind fun b =>
      (evolve (c.scaled (Scale.order φ) .none) s).2.w.heap[b]?.map (·.genome))

/-- Programs of size 11 with fitness 1, and of size 1 with fitness 1/10. -/
def exHeavySub : SubCfg Nat where
  creators := [fun n hib => createIndividuals 0 (do let d ← Rand.random; pure (if d < 1 / 3 then 1 else 11)) (stdFit false true (some (1 / 10))) true n hib]
  pick := pure 0
  ops := []
  sels := [tournament id 1 true]
  popSize := 4
  nElite := 0
  hib := true
  evaluate := fun g => pure (if g = 11 then 1 else 1 / 10)

def exHeavyCfg : Cfg Nat Unit where
  size := id
  subs := [exHeavySub]
  stream := fun seed n => seed + n % 3
  maxGen := 0
  checker := .none
  sched := fun _ n => List.range n
  submit := false

def exHeavyRun : Run Nat Unit := ⟨⟨[], 1, fun n => n⟩, [none], none, none, none, 0, 42, 42, none, [], false, []⟩

/-- The genome of the best individual of a run. -/
def bestGenome (s : Run G κ) : Option G := s.bestOfRun.bind fun b => s.w.heap[b]?.map (·.genome)

theorem exHeavy_best : bestGenome (evolve exHeavyCfg exHeavyRun).2 = some 1 ∧
    bestGenome (evolve (exHeavyCfg.scaled (Scale.order fun q => 2 * q) .none) exHeavyRun).2 = some 11 := by decide +kernel

/-- **C123** is false for `GPFitness` with a bloat weight: doubling all fitness values makes another program the best. -/
theorem C123_refuted : ¬ C123_statement := by
  intro h
  have := h exHeavyCfg exHeavySub (fun q => 2 * q) exHeavyRun (some (1 / 10))
    (fun _ => do let d ← Rand.random; pure (if d < 1 / 3 then 1 else 11)) rfl rfl
    (fun a b hab => by show 2 * a < 2 * b; linarith) ⟨rfl, rfl⟩ rfl rfl rfl
  have h1 : bestGenome (evolve exHeavyCfg exHeavyRun).2 =
      bestGenome (evolve (exHeavyCfg.scaled (Scale.order fun q => 2 * q) .none) exHeavyRun).2 := this
  rw [exHeavy_best.1, exHeavy_best.2] at h1
  simp at h1

end Verif.Evo

namespace Verif.GA
open PyM Verif.Evo
variable {κ : Type} {kind : Kind} {length : Nat} {S : Scale}

/-- The vector creators of the library, making fitness objects of the given kind. -/
inductive StdCreator (bl : Option ℚ) : (Nat → Bool → WM Vec (List Nat)) → Prop
  | mk (kind : Kind) (bounds : Bounds) (length : Nat) (rel ca up : Bool) :
      StdCreator bl (vectorCreator kind length bounds (stdFit rel ca bl) up)

theorem StdCreator.scales {bl : Option ℚ} (hw : S.weight = id) (hs : S.Suits bl) {create : Nat → Bool → WM Vec (List Nat)}
    (h : StdCreator bl create) : CreatorScales S create := by
  cases h with
  | mk kind bounds length rel ca up =>
    intro n hib
    unfold vectorCreator
    exact SimOn.ite Iff.rfl (fun _ => SimOn.raise) fun _ =>
      createIndividuals_scales _ _ up (stdFit_scaled rel ca bl hw) (fun _ => hs) n hib

theorem LibOp.scales {o : Op Vec} (h : LibOp kind length o) : o.Scales S := by
  cases h with
  | crossover p arity k hk => exact inPlace_scales _ _ _ _
  | mutation c p arity hc hn =>
    rcases c.asOp_eq p arity with ⟨name, e⟩ | ⟨name, d, -, -, -, -, -, -, -, -, -, name', e', e⟩
    · rw [e]; exact inPlace_scales _ _ _ _
    · rw [e]
      refine withFallback_scales _ _ _ _ ?_
      rw [e']
      exact inPlace_scales _ _ _ _

/-- **C123** for vectors with `SimpleFitness`: the run with fitness values in the same order does the same. -/
theorem C123_order_partial {φ : ℚ → ℚ} (hφ : StrictMono φ) {c : Evo.Cfg Vec κ} (h : c.Ranks (StdCreator none) (LibOp kind length))
    (hck : c.checker = .none) {s : Run Vec κ} (hs : s.Blank) :
    evolve (c.scaled (Scale.order φ) .none) s = ((evolve c s).1, (evolve c s).2.scaled (Scale.order φ)) :=
  ranks_run (Scale.order_monotone hφ) h (by rw [hck]; exact .none) (fun _ h => h.scales rfl (S := Scale.order φ) (bl := none) trivial) (fun _ h => h.scales) hs

/-- **C123** for vectors: minimising is maximising the mirrored values. -/
theorem C123_mirror (b : ℚ) {bl : Option ℚ} {c : Evo.Cfg Vec κ} (h : c.Ranks (StdCreator bl) (LibOp kind length))
    (hck : c.checker = .none) {s : Run Vec κ} (hs : s.Blank) :
    evolve (c.scaled (Scale.mirror b) .none) s = ((evolve c s).1, (evolve c s).2.scaled (Scale.mirror b)) :=
  ranks_run (Scale.mirror_monotone b) h (by rw [hck]; exact .none) (fun _ h => h.scales rfl (Scale.mirror_suits b bl)) (fun _ h => h.scales) hs

/-! The run of `exLibCfg` with cubed fitness values. -/

theorem exRanks : exLibCfg.Ranks (StdCreator none) (LibOp .float 3) where
  creators := by
    intro sub hsub create hc
    rw [List.mem_singleton.1 hsub] at hc
    rw [List.mem_singleton.1 hc]
    exact .mk _ _ _ _ _ _
  ops := by
    intro sub hsub o ho
    rw [List.mem_singleton.1 hsub] at ho
    exact exLibCfg_built.ops o ho
  sels := by
    intro sub hsub sel hs
    rw [List.mem_singleton.1 hsub] at hs
    rw [List.mem_singleton.1 hs]
    exact ⟨_, _, _, rfl⟩

example := C123_order_partial (φ := fun q => q + q * q * q) (fun a b hab => by
    show a + a * a * a < b + b * b * b
    nlinarith [sq_nonneg (a + b), sq_nonneg a, sq_nonneg b, sq_nonneg (a - b), mul_pos (sub_pos.2 hab) (sub_pos.2 hab)])
  exRanks rfl (s := exLibRun) ⟨rfl, rfl⟩

example := C123_mirror 0 exRanks rfl (s := exLibRun) ⟨rfl, rfl⟩

end Verif.GA

namespace Verif.GP
open PyM Verif.Evo
variable {κ : Type} {S : Scale}

/-- The tree creators of the library, making fitness objects of the given kind. -/
inductive StdCreator (bl : Option ℚ) : (Nat → Bool → WM GP.Ind (List Nat)) → Prop
  | full (cfg : GP.Cfg) (maxDepth : Nat) (rel ca up : Bool) : StdCreator bl (fullCreator cfg maxDepth (stdFit rel ca bl) up)
  | grow (cfg : GP.Cfg) (pPrune : ℚ) (minDepth maxDepth : Nat) (rel ca up : Bool) :
      StdCreator bl (growCreator cfg pPrune minDepth maxDepth (stdFit rel ca bl) up)
  | half (cfg : GP.Cfg) (pPrune : ℚ) (minDepth maxDepth : Nat) (rel ca up : Bool) :
      StdCreator bl (halfCreator cfg pPrune minDepth maxDepth (stdFit rel ca bl) up)

theorem StdCreator.scales {bl : Option ℚ} (hw : S.weight = id) (hs : S.Suits bl) {create : Nat → Bool → WM GP.Ind (List Nat)}
    (h : StdCreator bl create) : CreatorScales S create := by
  have ht : ∀ (cfg : GP.Cfg) (mk : Option Ty → Rand (List Node)) (rel ca up : Bool),
      CreatorScales S (treeCreator cfg mk (stdFit rel ca bl) up) := fun cfg mk rel ca up =>
    createIndividuals_scales _ _ up (stdFit_scaled rel ca bl hw) (fun _ => hs)
  cases h with
  | full cfg maxDepth rel ca up => exact ht _ _ _ _ _
  | grow cfg pPrune minDepth maxDepth rel ca up => exact ht _ _ _ _ _
  | half cfg pPrune minDepth maxDepth rel ca up =>
    exact halfCreate_scales (fun d => ht _ _ _ _ _) (fun d => ht _ _ _ _ _) _ _

theorem LibOp.scales {o : Op GP.Ind} (h : LibOp o) : o.Scales S := by
  cases h <;> exact inPlace_scales _ _ _ _

/-- **C123** for programs with `SimpleFitness`, or `GPFitness` without bloat weight. -/
theorem C123_order_partial {φ : ℚ → ℚ} (hφ : StrictMono φ) {bl : Option ℚ} (hbl : bl = none ∨ bl = some 0) {c : Evo.Cfg GP.Ind κ}
    (h : c.Ranks (StdCreator bl) LibOp) (hck : c.checker = .none) {s : Run GP.Ind κ} (hs : s.Blank) :
    evolve (c.scaled (Scale.order φ) .none) s = ((evolve c s).1, (evolve c s).2.scaled (Scale.order φ)) := by
  refine ranks_run (Scale.order_monotone hφ) h (by rw [hck]; exact .none) (fun _ h => h.scales rfl ?_) (fun _ h => h.scales) hs
  rcases hbl with rfl | rfl
  · trivial
  · exact ⟨Iff.rfl, fun q n hib h => absurd rfl h⟩

/-- **C123** for programs, whatever the bloat weight: minimising is maximising the mirrored values, and a constant added to all
fitness values makes no difference. -/
theorem C123_mirror (b : ℚ) {bl : Option ℚ} {c : Evo.Cfg GP.Ind κ} (h : c.Ranks (StdCreator bl) LibOp)
    (hck : c.checker = .none) {s : Run GP.Ind κ} (hs : s.Blank) :
    evolve (c.scaled (Scale.mirror b) .none) s = ((evolve c s).1, (evolve c s).2.scaled (Scale.mirror b)) ∧
    evolve (c.scaled (Scale.shift b) .none) s = ((evolve c s).1, (evolve c s).2.scaled (Scale.shift b)) :=
  ⟨ranks_run (Scale.mirror_monotone b) h (by rw [hck]; exact .none) (fun _ h => h.scales rfl (Scale.mirror_suits b bl)) (fun _ h => h.scales) hs,
    ranks_run (Scale.shift_monotone b) h (by rw [hck]; exact .none) (fun _ h => h.scales rfl (Scale.shift_suits b bl)) (fun _ h => h.scales) hs⟩

/-- **C123** for programs with a target: minimising until the target is reached is maximising the mirrored values until the
mirrored target is reached. -/
theorem C123_target (b optimal thr : ℚ) {bl : Option ℚ} {c : Evo.Cfg GP.Ind Unit} (h : c.Ranks (StdCreator bl) LibOp)
    (hck : c.checker = .one (threshold optimal thr)) {s : Run GP.Ind Unit} (hs : s.Blank) :
    evolve (c.scaled (Scale.mirror b) (.one (threshold (b - optimal) thr))) s =
      ((evolve c s).1, (evolve c s).2.scaled (Scale.mirror b)) :=
  ranks_run (Scale.mirror_monotone b) h (by rw [hck]; exact .one (threshold_mirror b optimal thr))
    (fun _ h => h.scales rfl (Scale.mirror_suits b bl)) (fun _ h => h.scales) hs

/-! The run of `exLibCfg`, with and without a target and a bloat weight. -/

theorem exRanks : exLibCfg.Ranks (StdCreator none) LibOp where
  creators := by
    intro sub hsub create hc
    rw [List.mem_singleton.1 hsub] at hc
    rw [List.mem_singleton.1 hc]
    exact .half _ _ _ _ _ _ _
  ops := by
    intro sub hsub o ho
    rw [List.mem_singleton.1 hsub] at ho
    exact exLibCfg_built.ops o ho
  sels := by
    intro sub hsub sel hs
    rw [List.mem_singleton.1 hsub] at hs
    rw [List.mem_singleton.1 hs]
    exact ⟨_, _, _, rfl⟩

example := C123_order_partial (φ := fun q => 2 * q) (fun a b hab => by show 2 * a < 2 * b; linarith) (.inl rfl) exRanks rfl
  (s := exLibRun) ⟨rfl, rfl⟩

def exBloated : Evo.Cfg GP.Ind Unit :=
  { exLibCfg with
    subs := [{ exLibSub with creators := [halfCreator Sample.cfg (1 / 2) 1 2 (stdFit false true (some (1 / 10))) true] }]
    checker := .one (threshold 3 (1 / 2)) }

theorem exBloated_ranks : exBloated.Ranks (StdCreator (some (1 / 10))) LibOp where
  creators := by
    intro sub hsub create hc
    rw [List.mem_singleton.1 hsub] at hc
    rw [List.mem_singleton.1 hc]
    exact .half _ _ _ _ _ _ _
  ops := by
    intro sub hsub o ho
    rw [List.mem_singleton.1 hsub] at ho
    exact exLibCfg_built.ops o ho
  sels := by
    intro sub hsub sel hs
    rw [List.mem_singleton.1 hsub] at hs
    rw [List.mem_singleton.1 hs]
    exact ⟨_, _, _, rfl⟩

example := C123_target 0 3 (1 / 2) exBloated_ranks rfl (s := { exLibRun with checkers := [()] }) ⟨rfl, rfl⟩

example := C123_mirror 5 exRanks rfl (s := exLibRun) ⟨rfl, rfl⟩

end Verif.GP
