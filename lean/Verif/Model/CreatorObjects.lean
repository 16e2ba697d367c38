import Verif.Model.Library

/-! # Creator objects: what their constructors are given, and what reaches the individuals -/

namespace Verif.GP
open PyM

/-- The library's classes of fitness objects. -/
inductive FitnessClass
  | simple
  | gp
  | nsga2
deriving DecidableEq, Repr

/-- The class of a (single-objective) fitness object. -/
def fitnessClass (f : Evo.Fit) : FitnessClass := if f.bloat = none then .simple else .gp

/-- The keyword arguments of the tree creators' constructors (`none`: not given). -/
structure CreatorArgs where
  initDepth : Option (Nat × Nat) := none
  functionSet : Option (List Fn) := none
  terminalSet : Option TermInput := none
  erc : Option Erc := none
  fitnessType : FitnessClass := .simple
  bloatWeight : ℚ := 0
  rootType : Option Ty := none
  updateParents : Bool := false

/-- The attributes of a tree creator. -/
structure CreatorObj where
  initDepth : Nat × Nat
  functionSet : List Fn
  terminalSet : TermInput
  erc : Option Erc
  fitnessType : FitnessClass
  bloatWeight : ℚ
  rootType : Option Ty
  updateParents : Bool

/-- `GPTreeCreator.__init__` — tree_creator.py:19-50. -/
def treeCreatorInit (a : CreatorArgs) : Except Err CreatorObj :=
  match a.functionSet, a.terminalSet with
  | none, _ => .error .valueError
  | _, none => .error .valueError
  | some fs, some ts =>
    .ok ⟨a.initDepth.getD (2, 4), fs, ts, a.erc, a.fitnessType, a.bloatWeight, a.rootType, a.updateParents⟩

/-- `FullCreator.__init__` — full.py:14-54: there is no parameter `fitness_type`. -/
def fullInit (a : CreatorArgs) : Except Err CreatorObj := treeCreatorInit { a with fitnessType := .simple }

/-- `GrowCreator.__init__` — grow.py:15-60: there is no parameter `fitness_type`. -/
def growInit (a : CreatorArgs) : Except Err CreatorObj := treeCreatorInit { a with fitnessType := .simple }

/-- A fresh `GPFitness(bloat_weight=…, higher_is_better=…)` — gp_fitness.py:35-49. -/
def gpFit (bloatWeight : ℚ) (hib : Bool) : Evo.Fit := ⟨.none, false, hib, false, false, some bloatWeight⟩

/-- `GPTreeCreator.create_individuals` — tree_creator.py:53-78: every individual gets a `GPFitness` object, whatever
`fitness_type` is.  If the `Tree` constructor rejects the sets, the first individual has taken its id already
(tree_individual.py:69-76). -/
def CreatorObj.create (o : CreatorObj) (mk : Cfg → Option Ty → Rand (List Node)) :
    Nat → Bool → Evo.WM Ind (List Nat) := fun n hib =>
  match handleInputTypes (some o.functionSet) (some o.terminalSet) o.rootType o.erc with
  | .error e =>
    if n = 0 then pure []
    else do
      PyM.modify fun s => { s with nextId := s.nextId + 1 }
      raise e
  | .ok cfg => treeCreator cfg (mk cfg) (gpFit o.bloatWeight) o.updateParents n hib

/-- `FullCreator.create_individuals` — full.py, tree_creator.py:53-78. -/
def fullObjCreate (o : CreatorObj) : Nat → Bool → Evo.WM Ind (List Nat) :=
  o.create fun c => fullCreate c o.initDepth.2

/-- `GrowCreator.create_individuals` — grow.py, tree_creator.py:53-78. -/
def growObjCreate (o : CreatorObj) (pPrune : ℚ) : Nat → Bool → Evo.WM Ind (List Nat) :=
  o.create fun c => growCreate c pPrune o.initDepth.1 o.initDepth.2

/-- A `HalfCreator`: its own attributes and its two sub-creators. -/
structure HalfObj where
  own : CreatorObj
  grow : CreatorObj × ℚ
  full : CreatorObj

/-- `HalfCreator.__init__` — half.py:12-82.  There are no parameters `fitness_type` and `update_parents`; the default
sub-creators are given neither of these nor `bloat_weight`, and the default `p_prune` (1/2). -/
def halfInit (grow : Option (CreatorObj × ℚ)) (full : Option CreatorObj) (a : CreatorArgs) : Except Err HalfObj := do
  let own ← treeCreatorInit { a with fitnessType := .simple, updateParents := false }
  let sub : CreatorArgs := ⟨some own.initDepth, some own.functionSet, some own.terminalSet, own.erc, .simple, 0, a.rootType, false⟩
  let g ← match grow with
    | some g => .ok g
    | none => do
      let g ← growInit sub
      .ok (g, 1 / 2)
  let f ← match full with
    | some f => .ok f
    | none => fullInit sub
  .ok ⟨own, g, f⟩

/-- `HalfCreator.create_individuals` — half.py:84-141.  `init_depth` of the sub-creators is overwritten. -/
def HalfObj.create (o : HalfObj) : Nat → Bool → Evo.WM Ind (List Nat) :=
  Evo.halfCreate (fun d => growObjCreate { o.grow.1 with initDepth := (o.own.initDepth.1, d) } o.grow.2)
    (fun d => fullObjCreate { o.full with initDepth := (o.own.initDepth.1, d) })
    o.own.initDepth.1 (o.own.initDepth.2 + 1 - o.own.initDepth.1)

end Verif.GP
