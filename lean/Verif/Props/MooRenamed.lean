import Verif.Lemmas.MooRepresent
import Verif.Lemmas.Renaming
import Verif.Lemmas.Coordinates
import Verif.Props.Renamed
import Verif.Props.Coordinates
import Verif.Props.MooTotal

/-! # C134: NSGA-II runs do not depend on names in programs and on units of cells

As C131 and C132, for multi-objective runs. -/

namespace Verif.Moo
open PyM
variable {G H : Type} {f : G → H} {P : G → Prop}

/-- Two sub-populations that differ in the representation of genomes: creators correspond through `CR`, operators through `OP`,
selection is by tournaments or elitism with the same arguments, a genome in the other representation has the same scores, and the
rest is the same. -/
structure MSub.Alike (f : G → H) (P : G → Prop) (CR : MM H (List Nat) → MM G (List Nat) → Prop) (OP : MOp H → MOp G → Prop)
    (c' : MSub H) (c : MSub G) : Prop where
  create : CR c'.create c.create
  ops : List.Forall₂ OP c'.ops c.ops
  sels : List.Forall₂ (fun sel' sel => (∃ a k replace, sel' = ⟨a, tournamentM k replace⟩ ∧ sel = ⟨a, tournamentM k replace⟩) ∨
    ∃ a n hib, sel' = ⟨a, elitesM n hib⟩ ∧ sel = ⟨a, elitesM n hib⟩) c'.sels c.sels
  popSize : c'.popSize = c.popSize
  nElite : c'.nElite = c.nElite
  hib : c'.hib = c.hib
  evaluate : ∀ g, P g → c'.evaluate (f g) = c.evaluate g

/-- Two configurations that differ in the representation of genomes. -/
structure MCfg.Alike (f : G → H) (P : G → Prop) (CR : MM H (List Nat) → MM G (List Nat) → Prop) (OP : MOp H → MOp G → Prop)
    (c' : MCfg H) (c : MCfg G) : Prop where
  sub : MSub.Alike f P CR OP c'.sub c.sub
  nsga2Breeder : c'.nsga2Breeder = c.nsga2Breeder
  stream : c'.stream = c.stream
  maxGen : c'.maxGen = c.maxGen
  checker : c'.checker = c.checker
  sched : c'.sched = c.sched
  setOrder : c'.setOrder = c.setOrder

theorem MCfg.Alike.maps {CR : MM H (List Nat) → MM G (List Nat) → Prop} {OP : MOp H → MOp G → Prop} {c' : MCfg H} {c : MCfg G}
    (h : MCfg.Alike f P CR OP c' c) (hcr : ∀ x' x, CR x' x → MMaps f P x' x) (hop : ∀ o' o, OP o' o → MOp.Maps f P o' o) :
    MCfg.Maps f P c' c where
  sub :=
    { create := hcr _ _ h.sub.create
      ops := h.sub.ops.imp hop
      sels := h.sub.sels.imp fun sel' sel hsel => by
        rcases hsel with ⟨a, k, replace, rfl, rfl⟩ | ⟨a, n, hib, rfl, rfl⟩
        · exact ⟨rfl, tournamentM_maps k replace⟩
        · exact ⟨rfl, elitesM_maps n hib⟩
      popSize := h.sub.popSize
      nElite := h.sub.nElite
      hib := h.sub.hib
      evaluate := h.sub.evaluate }
  nsga2Breeder := h.nsga2Breeder
  stream := h.stream
  maxGen := h.maxGen
  checker := h.checker
  sched := h.sched
  setOrder := h.setOrder

/-- **C134** for any change of representation that every part of the configuration commutes with: the two runs raise the same or
return, and do the same in every respect, except that every genome is the image of the other. -/
theorem C134_represent {c' : MCfg H} {c : MCfg G} (hc : MCfg.Maps f P c' c) {s : MRun G} (hs : s.w.Fine P) :
    mevolve c' (s.mapped f) = ((mevolve c s).1, (mevolve c s).2.mapped f) := by
  have := (mevolve_maps hc s hs).1
  rwa [Evo.except_map_id] at this

/-! ## Programs -/

section programs
open Verif.GP
variable {R : Renaming}

/-- The operator is one of the library's tree operators, and the same in both runs. -/
inductive TreeOpKept : MOp GP.Ind → MOp GP.Ind → Prop
  | mk {o : MOp GP.Ind} (h : TreeOp o) : TreeOpKept o o

theorem TreeOp.maps {o : MOp GP.Ind} (h : TreeOp o) : MOp.Maps (Ind.renamed R) (fun _ => True) o o := by
  cases h with
  | crossover p arity attempts =>
    refine onGenomes_maps (fun gs _ => ?_) fun _ _ _ _ _ _ _ => trivial
    exact Sim.bind (ρ := List.map (Ind.renamed R)) (failableLoop_sim (crossoverAttempt_sim arity) _ _ gs) fun out => Sim.pure rfl
  | mutation p minDepth maxDepth attempts =>
    refine onGenomes_maps (fun gs _ => ?_) fun _ _ _ _ _ _ _ => trivial
    exact Sim.bind (ρ := List.map (Ind.renamed R)) (failableLoop_sim (mutationAttempt_sim minDepth maxDepth) _ _ gs) fun out => Sim.pure rfl
  | erc p arity mu sigma =>
    refine onGenomes_maps (fun gs _ => ?_) fun _ _ _ _ _ _ _ => trivial
    exact Sim.bind (ρ := List.map (Ind.renamed R)) (failableLoop_sim (ercAttempt_sim mu sigma) _ _ gs) fun out => Sim.pure rfl

/-- The same creator for the renamed sets. -/
inductive TreeCreatorRenamed (R : Renaming) : MM GP.Ind (List Nat) → MM GP.Ind (List Nat) → Prop
  | full (c : GP.Cfg) (maxDepth : Nat) (fit : Fit) (n : Nat) :
      TreeCreatorRenamed R (fullM (c.renamed R) maxDepth fit n) (fullM c maxDepth fit n)
  | grow (c : GP.Cfg) (pPrune : ℚ) (minDepth maxDepth : Nat) (fit : Fit) (n : Nat) :
      TreeCreatorRenamed R (growM (c.renamed R) pPrune minDepth maxDepth fit n) (growM c pPrune minDepth maxDepth fit n)
  | half (c : GP.Cfg) (pPrune : ℚ) (minDepth maxDepth : Nat) (fit : Fit) (n : Nat) :
      TreeCreatorRenamed R (halfAndHalfM (c.renamed R) pPrune minDepth maxDepth fit n) (halfAndHalfM c pPrune minDepth maxDepth fit n)

theorem treeCreatorM_maps (c : GP.Cfg) {create' create : Option Ty → Rand (List Node)}
    (h : ∀ ty, Sim id (List.map (Node.renamed R)) (create' ty) (create ty)) (fit : Fit) (n : Nat) :
    MMaps (Ind.renamed R) (fun _ => True) (treeCreatorM (c.renamed R) create' fit n) (treeCreatorM c create fit n) :=
  createM_maps (f := Ind.renamed R) (empty := ⟨c, []⟩) trivial (Sim.bind (h _) fun _ => Sim.pure rfl) (fun _ _ _ => trivial) fit n

theorem TreeCreatorRenamed.maps {create' create : MM GP.Ind (List Nat)} (h : TreeCreatorRenamed R create' create) :
    MMaps (Ind.renamed R) (fun _ => True) create' create := by
  cases h with
  | full c d fit n => exact treeCreatorM_maps c (fullTree_sim c d) fit n
  | grow c p a b fit n => exact treeCreatorM_maps c (growTree_sim c p _ a b) fit n
  | half c p a b fit n =>
    exact halfM_maps (fun d k => treeCreatorM_maps c (growTree_sim c p _ a d) fit k)
      (fun d k => treeCreatorM_maps c (fullTree_sim c d) fit k) _ _ n

/-- **C134** for programs: let two runs differ in the names of variables and in the functions (of the same signatures): in the sets
the creators are given, and in the evaluator, which gives renamed programs the scores of the original ones.  Then they raise the
same or return, and every individual ever made differs from the one of the other run only in the names; its fitness, rank and
crowding, the fronts, the best and everything the events showed are the same. -/
theorem C134_programs {c' c : MCfg GP.Ind} (hc : MCfg.Alike (Ind.renamed R) (fun _ => True) (TreeCreatorRenamed R) TreeOpKept c' c)
    (s : MRun GP.Ind) : mevolve c' (s.mapped (Ind.renamed R)) = ((mevolve c s).1, (mevolve c s).2.mapped (Ind.renamed R)) :=
  C134_represent (hc.maps (fun _ _ h => h.maps) fun _ _ h => by cases h with | mk h => exact h.maps) fun _ => trivial

/-- The sample run over `v_x`, `v_y` with the other functions. -/
def exProgPrefixed : MCfg GP.Ind :=
  { exProg with sub := { exProg.sub with
      create := halfAndHalfM (Sample.cfg.renamed Sample.prefixed) (1 / 2) 1 2 (.new none (.same false) false false) 4 } }

theorem exProg_alike : MCfg.Alike (Ind.renamed Sample.prefixed) (fun _ => True) (TreeCreatorRenamed Sample.prefixed) TreeOpKept
    exProgPrefixed exProg where
  sub :=
    { create := .half Sample.cfg (1 / 2) 1 2 (.new none (.same false) false false) 4
      ops := .cons (.mk (.crossover _ _ _)) (.cons (.mk (.mutation _ _ _ _)) (.cons (.mk (.erc _ _ _ _)) .nil))
      sels := .cons (.inl ⟨1, 2, false, rfl, rfl⟩) .nil
      popSize := rfl
      nElite := rfl
      hib := rfl
      evaluate := fun g _ => by
        show (PyM.pure [((g.tree.map (Node.renamed Sample.prefixed)).length : ℚ), -((g.tree.map (Node.renamed Sample.prefixed)).length : ℚ)] : Rand (List ℚ)) = _
        rw [List.length_map]
        rfl }
  nsga2Breeder := rfl
  stream := rfl
  maxGen := rfl
  checker := rfl
  sched := rfl
  setOrder := rfl

/-- Both runs return. -/
example : ∃ s' : MRun GP.Ind, mevolve exProgPrefixed (exProgRun.mapped (Ind.renamed Sample.prefixed)) =
      (.ok (), s'.mapped (Ind.renamed Sample.prefixed)) ∧ MCompleted (Legal Sample.cfg) 4 2 s' := by
  obtain ⟨s', h1, h2⟩ := C82_programs exPlain exProg_assembled (s := exProgRun) ⟨rfl, fun r hr => absurd hr (Nat.not_lt_zero r), rfl, rfl⟩
    (fun r hr => absurd hr (Nat.not_lt_zero r))
  refine ⟨s', ?_, h2⟩
  have := C134_programs exProg_alike exProgRun
  rwa [h1] at this

end programs

/-! ## Vectors -/

section vectors
open Verif.GA
variable {A : GA.Units} {k : Kind}

theorem gaussFail_sim (hA : A.Fits k) (n : Nat) (p mu sigma mu' sigma' : ℚ) (a : Nat) (l : List Vec) (hl : AllKind k l) :
    Sim id (Option.map (List.map (Vec.moved A))) ((gaussNPoint n p mu' sigma' a).onFail (l.map (Vec.moved A)))
      ((gaussNPoint n p mu sigma a).onFail l) := by
  refine Sim.bind (ρ := List.map (Vec.moved A)) ?_ fun r => Sim.pure rfl
  unfold GA.applyOperator
  refine Sim.bind (Sim.refl _) fun u => Sim.ite Iff.rfl (fun _ => ?_) fun _ => Sim.pure rfl
  refine Sim.bind (npApply_sim (uniformNPoint_moves hA n) rfl rfl l hl) fun r => ?_
  cases r with
  | none => exact Sim.raise
  | some l => exact Sim.pure rfl

theorem gaussFail_kind (n : Nat) (p mu sigma : ℚ) (a : Nat) (l : List Vec) (hl : AllKind k l) :
    Post ((gaussNPoint n p mu sigma a).onFail l) (OptKind k) := by
  refine Post.bind (Q := AllKind k) ?_ fun r hr => Post.pure hr
  unfold GA.applyOperator
  refine Post.bind Post.trivial fun u _ => Post.ite (fun _ => ?_) fun _ => Post.pure hl
  refine Post.bind (npApply_kind (uniformNPoint n) rfl l hl) fun r hr => ?_
  cases r with
  | none => exact Post.raise
  | some l => exact Post.pure hr

theorem npApply_simF {m' m : NPoint} (hm : NPoint.Moves A k m' m)
    (hf : ∀ l, AllKind k l → Sim id (Option.map (List.map (Vec.moved A))) (m'.onFail (l.map (Vec.moved A))) (m.onFail l))
    (l : List Vec) (hl : AllKind k l) :
    Sim id (Option.map (List.map (Vec.moved A))) (npApply m' (l.map (Vec.moved A))) (npApply m l) := by
  unfold npApply failableApply
  rw [hm.attempts]
  refine failableLoop_simQ (ρ := Option.map (List.map (Vec.moved A))) (Q := OptKind k) (fun p i hp => ?_) (fun p i hp => ?_) (fun p hp => ?_)
    m.attempts 0 (some l) hl
  · cases p with
    | none => exact Sim.raise
    | some l => exact Sim.bind (attemptOperator_sim hm l hp) fun r => Sim.pure rfl
  · cases p with
    | none => exact Post.raise
    | some l => exact Post.bind (attemptOperator_kind m l hp) fun r hr => Post.pure hr
  · cases p with
    | none => exact Sim.raise
    | some l => exact hf l hp

theorem npApply_kindF (m : NPoint) (hf : ∀ l, AllKind k l → Post (m.onFail l) (OptKind k)) (l : List Vec) (hl : AllKind k l) :
    Post (npApply m l) (OptKind k) := by
  unfold npApply failableApply
  refine GA.failableLoop_post (Q := OptKind k) (fun p i hp => ?_) (fun p hp => ?_) m.attempts 0 (some l) hl
  · cases p with
    | none => exact Post.raise
    | some l => exact Post.bind (attemptOperator_kind m l hp) fun r hr => Post.pure hr
  · cases p with
    | none => exact Post.raise
    | some l => exact hf l hp

/-- The same operator for the other units. -/
inductive VecOpMoved (A : GA.Units) : MOp Vec → MOp Vec → Prop
  | crossover (p : ℚ) (arity n : Nat) : VecOpMoved A (vecCrossover p arity n) (vecCrossover p arity n)
  | mutation (c : MutationClass) (p : ℚ) (arity : Nat) :
      VecOpMoved A (vecMutation p arity ((c.moved A).op p)) (vecMutation p arity (c.op p))

theorem vecMutation_maps {m' m : NPoint} (hm : NPoint.Moves A k m' m)
    (hf : ∀ l, AllKind k l → Sim id (Option.map (List.map (Vec.moved A))) (m'.onFail (l.map (Vec.moved A))) (m.onFail l))
    (hq : ∀ l, AllKind k l → Post (m.onFail l) (OptKind k)) (p : ℚ) (arity : Nat) :
    MOp.Maps (Vec.moved A) (fun v => v.kind = k) (vecMutation p arity m') (vecMutation p arity m) := by
  refine onGenomes_maps (fun gs hgs => npApply_simF hm hf gs hgs) fun gs hgs t gs' h => ?_
  exact npApply_kindF m hq gs hgs t (some gs') _ (Prod.ext h rfl)

theorem defaultFail_sim (l : List Vec) :
    Sim id (Option.map (List.map (Vec.moved A))) (defaultOnFail (l.map (Vec.moved A))) (defaultOnFail l) := Sim.pure rfl

theorem defaultFail_kind (l : List Vec) : Post (defaultOnFail l) (OptKind k) := Post.pure trivial

theorem VecOpMoved.maps (hA : A.Fits k) {o' o : MOp Vec} (h : VecOpMoved A o' o) :
    MOp.Maps (Vec.moved A) (fun v => v.kind = k) o' o := by
  cases h with
  | crossover p arity n =>
    refine onGenomes_maps (fun gs _ => Sim.bind (kPointApply_sim n gs) fun out => Sim.pure rfl) fun gs hgs t gs' h => ?_
    have : Post (kPointApply n gs >>= fun out => pure (some out)) (OptKind k) := by
      refine Post.bind (Q := AllKind k) ?_ fun out ho => Post.pure ho
      unfold kPointApply
      rcases gs with _ | ⟨a, _ | ⟨b, others⟩⟩
      · exact Post.raise
      · exact Post.bind Post.trivial fun _ _ => Post.raise
      · refine Post.bind Post.trivial fun s _ => Post.bind Post.trivial fun w _ => Post.pure ?_
        intro v hv
        rcases List.mem_cons.1 hv with rfl | hv
        · exact hgs a (by simp)
        · rcases List.mem_cons.1 hv with rfl | hv
          · exact hgs b (by simp)
          · exact hgs v (by simp [hv])
    exact this t (some gs') _ (Prod.ext h rfl)
  | mutation c p arity =>
    cases c with
    | floatUniformOne => exact vecMutation_maps (uniformNPoint_moves hA 1) (fun l _ => defaultFail_sim l) (fun l _ => defaultFail_kind l) _ _
    | floatUniformN n => exact vecMutation_maps (uniformNPoint_moves hA n) (fun l _ => defaultFail_sim l) (fun l _ => defaultFail_kind l) _ _
    | floatGaussOne mu sigma a =>
      exact vecMutation_maps (gaussNPoint_moves 1 p mu sigma a) (gaussFail_sim hA 1 p _ _ _ _ a) (gaussFail_kind 1 p _ _ a) _ _
    | floatGaussN n mu sigma a =>
      exact vecMutation_maps (gaussNPoint_moves n p mu sigma a) (gaussFail_sim hA n p _ _ _ _ a) (gaussFail_kind n p _ _ a) _ _
    | intOne q => exact vecMutation_maps (intOnePoint_moves hA q) (fun l _ => defaultFail_sim l) (fun l _ => defaultFail_kind l) _ _
    | intN n => exact vecMutation_maps (uniformNPoint_moves hA n) (fun l _ => defaultFail_sim l) (fun l _ => defaultFail_kind l) _ _
    | bitFlip => exact vecMutation_maps bitFlipOne_moves (fun l _ => defaultFail_sim l) (fun l _ => defaultFail_kind l) _ _
    | bitNFlip n q => exact vecMutation_maps (bitNFlip_moves n q) (fun l _ => defaultFail_sim l) (fun l _ => defaultFail_kind l) _ _

/-- The same creator for the converted bounds. -/
inductive VecCreatorMoved (A : GA.Units) (k : Kind) : MM Vec (List Nat) → MM Vec (List Nat) → Prop
  | mk (length : Nat) (bounds : Bounds) (fit : Fit) (n : Nat) :
      VecCreatorMoved A k (vecCreator k length (bounds.moved A) fit n) (vecCreator k length bounds fit n)

theorem VecCreatorMoved.maps (hA : A.Fits k) {create' create : MM Vec (List Nat)} (h : VecCreatorMoved A k create' create) :
    MMaps (Vec.moved A) (fun v => v.kind = k) create' create := by
  cases h with
  | mk length bounds fit n =>
    unfold vecCreator
    rw [accepted_moved]
    refine SimOn.ite Iff.rfl (fun _ => SimOn.raise) fun _ => ?_
    refine createM_maps (f := Vec.moved A) (P := fun v => v.kind = k) (empty := ⟨k, bounds, length, []⟩) rfl
      (createVector_sim hA length ⟨k, bounds, length, []⟩ rfl) (fun t g h => ?_) fit n
    exact createVector_kind length ⟨k, bounds, length, []⟩ t g _ (Prod.ext h rfl)

/-- **C134** for vectors: let two runs over vectors of the class `k` differ in the units of the cells: bounds and Gaussian noise are
converted, and the evaluator gives converted vectors the scores of the original ones.  Then they raise the same or return, and every
vector ever made is the conversion of the one of the other run; fitness, ranks, crowding, fronts and events are the same. -/
theorem C134_vectors (hA : A.Fits k) {c' c : MCfg Vec}
    (hc : MCfg.Alike (Vec.moved A) (fun v => v.kind = k) (VecCreatorMoved A k) (VecOpMoved A) c' c) {s : MRun Vec}
    (hs : s.w.Fine fun v => v.kind = k) : mevolve c' (s.mapped (Vec.moved A)) = ((mevolve c s).1, (mevolve c s).2.mapped (Vec.moved A)) :=
  C134_represent (hc.maps (fun _ _ h => h.maps hA) fun _ _ h => h.maps hA) hs

/-- The sample run with floats from 5 to 7 instead of 0 to 1. -/
def exVectorMoved : MCfg Vec :=
  { exVector with sub := { exVector.sub with
      create := vecCreator .float 3 (.tup [5, 7]) (.new none (.each [false, true]) false false) 4
      ops := [vecCrossover 1 2 2, vecMutation 1 1 ((MutationClass.floatGaussN 2 0 2 3).op 1)]
      evaluate := fun v => PyM.pure [(v.vector.headD 5 - 5) / 2, (v.vector.tail.headD 5 - 5) / 2] } }

theorem exVector_alike : MCfg.Alike (Vec.moved exUnits) (fun v => v.kind = .float) (VecCreatorMoved exUnits .float) (VecOpMoved exUnits)
    exVectorMoved exVector where
  sub :=
    { create := by
        have := VecCreatorMoved.mk (A := exUnits) (k := .float) 3 (.tup [0, 1]) (.new none (.each [false, true]) false false) 4
        have e : Bounds.moved exUnits (.tup [0, 1]) = .tup [5, 7] := by simp [Bounds.moved, Units.cell, exUnits]; norm_num
        rwa [e] at this
      ops := by
        refine .cons (.crossover _ _ _) (.cons ?_ .nil)
        have := VecOpMoved.mutation (A := exUnits) (.floatGaussN 2 0 1 3) 1 1
        have e : MutationClass.moved exUnits (.floatGaussN 2 0 1 3) = .floatGaussN 2 0 2 3 := by simp [MutationClass.moved, exUnits]
        rwa [e] at this
      sels := .cons (.inl ⟨1, 2, true, rfl, rfl⟩) .nil
      popSize := rfl
      nElite := rfl
      hib := rfl
      evaluate := fun v _ => by
        show (PyM.pure [((v.vector.map exUnits.cell).headD 5 - 5) / 2, ((v.vector.map exUnits.cell).tail.headD 5 - 5) / 2] : Rand (List ℚ)) =
          PyM.pure [v.vector.headD 0, v.vector.tail.headD 0]
        congr 1
        rcases v.vector with _ | ⟨x, _ | ⟨y, l⟩⟩ <;> simp [exUnits, Units.cell] }
  nsga2Breeder := rfl
  stream := rfl
  maxGen := rfl
  checker := rfl
  sched := rfl
  setOrder := rfl

/-- Both runs return. -/
example : ∃ s' : MRun Vec, mevolve exVectorMoved (exVectorRun.mapped (Vec.moved exUnits)) = (.ok (), s'.mapped (Vec.moved exUnits)) ∧
      MCompleted (Legal .float (.tup [0, 1]) 3) 4 2 s' := by
  obtain ⟨s', h1, h2⟩ := C82_vectors exLib_proper exVector_assembled (s := exVectorRun)
    ⟨rfl, fun r hr => absurd hr (Nat.not_lt_zero r), rfl, rfl⟩ (fun r hr => absurd hr (Nat.not_lt_zero r))
  refine ⟨s', ?_, h2⟩
  have := C134_vectors (.inl rfl) exVector_alike (s := exVectorRun) (fun r => rfl)
  rwa [h1] at this

end vectors

end Verif.Moo
