import Verif.Model.NSGA2Evolution
import Verif.Model.Library

/-! # The library's creators and operators as components of an NSGA-II run

As `Model/Library.lean`, for the individuals of `Model/NSGA2Evolution.lean`, whose fitness objects have several
objectives. -/

namespace Verif.Moo
open PyM
variable {G : Type}

/-- Give the individuals new genomes. -/
def putGenomesM (refs : List Nat) (gs : List G) : MM G Unit :=
  forL (fun (p : Nat × G) => modify fun w => { w with genome := fun x => if x = p.1 then p.2 else w.genome x })
    (refs.zip gs)

/-- An operator that modifies the genomes of its arguments in place and returns the individuals it was given, as
all crossovers and mutations of the library do. -/
def MOp.onGenomes (probability : ℚ) (arity : Nat) (f : List G → Rand (Option (List G))) : MOp G where
  probability := probability
  arity := arity
  apply := fun refs => do
    let w ← PyM.get
    match ← mrand (f (refs.map w.genome)) with
    | none => PyM.pure none
    | some gs => do
      putGenomesM refs gs
      PyM.pure (some refs)

/-- The constructor of an individual with the fitness object `fit`. -/
def newM (empty : G) (fit : Fit) : MM G Nat := do
  let w ← PyM.get
  PyM.set { w with
    fits := fun x => if x = w.next then fit else w.fits x
    genome := fun x => if x = w.next then empty else w.genome x
    next := w.next + 1 }
  PyM.pure w.next

/-- `create_individuals` — simple_vector_creator.py:27-44 and tree_creator.py:53-78: all individuals are
constructed, then one genome after the other is drawn. -/
def createM (empty : G) (genome : Rand G) (fit : Fit) (n : Nat) : MM G (List Nat) := do
  let refs ← mapL (fun (_ : Nat) => newM empty fit) (List.range n)
  forL (fun r => do
    let g ← mrand genome
    modify fun w => { w with genome := fun x => if x = r then g else w.genome x }) refs
  PyM.pure refs

/-- The groups of `HalfCreator.create_individuals` — half.py:108-126. -/
def halfGroupsM (grow full : Nat → Nat → MM G (List Nat)) (group : Nat) : List Nat → MM G (List Nat)
  | [] => PyM.pure []
  | depth :: ds => do
    let grown ← grow depth group
    let filled ← full depth group
    let rest ← halfGroupsM grow full group ds
    PyM.pure ((grown ++ filled) ++ rest)

/-- `HalfCreator.create_individuals` — half.py:84-137; only ranges with at least one depth are modelled. -/
def halfM (grow full : Nat → Nat → MM G (List Nat)) (minDepth depths n : Nat) : MM G (List Nat) :=
  let group := n / (2 * depths)
  if group = 0 then raise .valueError
  else do
    let inds ← halfGroupsM grow full group ((List.range depths).map (minDepth + ·))
    if 0 < n - inds.length then do
      let more ← full (minDepth + depths - 1) (n - inds.length)
      PyM.pure (inds ++ more)
    else PyM.pure inds

/-- `VectorKPointsCrossover` — vector_k_point_crossover.py:9-34. -/
def vecCrossover (probability : ℚ) (arity k : Nat) : MOp GA.Vec :=
  MOp.onGenomes probability arity fun inds => do
    let out ← GA.kPointApply k inds
    PyM.pure (some out)

/-- The n-point mutations — vector_n_point_mutation.py:39-68.  The fallback of the Gaussian classes is the nested
call's effect on the genomes (`npApply`); individuals of this model carry no `applied_operators` and `parents`,
and their fitness is reset already when the fallback is called. -/
def vecMutation (probability : ℚ) (arity : Nat) (m : GA.NPoint) : MOp GA.Vec :=
  MOp.onGenomes probability arity (GA.npApply m)

/-- `GAVectorCreator.create_individuals` with the default gene creator — simple_vector_creator.py:30-53. -/
def vecCreator (kind : GA.Kind) (length : Nat) (bounds : GA.Bounds) (fit : Fit) (n : Nat) : MM GA.Vec (List Nat) :=
  if 0 < n && !bounds.accepted length then raise .valueError
  else createM ⟨kind, bounds, length, []⟩
    (GA.createVector length GA.defaultGeneCreator ⟨kind, bounds, length, []⟩) fit n

/-- `SubtreeCrossover` — subtree_crossover.py:10-19. -/
def treeCrossover (probability : ℚ) (arity attempts : Nat) : MOp GP.Ind :=
  MOp.onGenomes probability arity fun inds => do
    let out ← GP.subtreeCrossover arity attempts inds
    PyM.pure (some out)

/-- `SubtreeMutation` — subtree_mutation.py:10-23. -/
def treeMutation (probability : ℚ) (minDepth maxDepth attempts : Nat) : MOp GP.Ind :=
  MOp.onGenomes probability 1 fun inds => do
    let out ← GP.subtreeMutation minDepth maxDepth attempts inds
    PyM.pure (some out)

/-- `ERCMutation` — erc_mutation.py:10-21. -/
def ercMutationM (probability : ℚ) (arity : Nat) (mu sigma : ℚ) : MOp GP.Ind :=
  MOp.onGenomes probability arity fun inds => do
    let out ← GP.ercMutation mu sigma inds
    PyM.pure (some out)

/-- `create_individuals` of a tree creator — tree_creator.py:53-78 — that gives its trees the fitness `fit`.  The library's
own tree creators always give a `GPFitness` (`GP.C98_always_gp_partial`), so in a run of NSGA-II this and the following
three are creators of the user's that override this. -/
def treeCreatorM (c : GP.Cfg) (create : Option GP.Ty → Rand (List GP.Node)) (fit : Fit) : Nat → MM GP.Ind (List Nat) :=
  createM ⟨c, []⟩ (do
    let t ← create c.rootType
    PyM.pure ⟨c, t⟩) fit

/-- As `FullCreator` — full.py:13-96 —, but with the fitness `fit`. -/
def fullM (c : GP.Cfg) (maxDepth : Nat) (fit : Fit) : Nat → MM GP.Ind (List Nat) :=
  treeCreatorM c (GP.fullCreate c maxDepth) fit

/-- As `GrowCreator` — grow.py:14-121 —, but with the fitness `fit`. -/
def growM (c : GP.Cfg) (pPrune : ℚ) (minDepth maxDepth : Nat) (fit : Fit) : Nat → MM GP.Ind (List Nat) :=
  treeCreatorM c (GP.growCreate c pPrune minDepth maxDepth) fit

/-- As `HalfCreator` — half.py:11-141 —, with two sub-creators that give the fitness `fit`. -/
def halfAndHalfM (c : GP.Cfg) (pPrune : ℚ) (minDepth maxDepth : Nat) (fit : Fit) (n : Nat) : MM GP.Ind (List Nat) :=
  halfM (fun d => growM c pPrune minDepth d fit) (fun d => fullM c d fit) minDepth (maxDepth + 1 - minDepth) n

end Verif.Moo
