import Verif.Model.Creation
import Verif.Model.Vector

/-! # The library's creators and operators as components of a run

`Model.GPOperators` and `Model.Vector` model what creators and operators do to genomes; here they become
the creators and operators of a sub-population. -/

namespace Verif.GP
open PyM

/-- A `SubtreeCrossover` object — subtree_crossover.py:10-19. -/
def crossoverOp (probability : ℚ) (arity attempts : Nat) : Evo.Op Ind :=
  Evo.Op.inPlace "SubtreeCrossover" probability arity fun inds => do
    let out ← subtreeCrossover arity attempts inds
    pure (some out)

/-- A `SubtreeMutation` object — subtree_mutation.py:10-23 (its arity is always 1). -/
def mutationOp (probability : ℚ) (minDepth maxDepth attempts : Nat) : Evo.Op Ind :=
  Evo.Op.inPlace "SubtreeMutation" probability 1 fun inds => do
    let out ← subtreeMutation minDepth maxDepth attempts inds
    pure (some out)

/-- An `ERCMutation` object — erc_mutation.py:10-21. -/
def ercOp (probability : ℚ) (arity : Nat) (mu sigma : ℚ) : Evo.Op Ind :=
  Evo.Op.inPlace "ERCMutation" probability arity fun inds => do
    let out ← ercMutation mu sigma inds
    pure (some out)

/-- `create_individuals` of a tree creator whose `create_tree` is `create` — tree_creator.py:53-78: the
individuals are constructed with an empty tree, then the trees are made, of type `root_type`.  Assumed: the `Tree`
constructor accepts the sets (`handleInputTypes`). -/
def treeCreator (c : Cfg) (create : Option Ty → Rand (List Node)) (fit : Bool → Evo.Fit) (up : Bool) :
    Nat → Bool → Evo.WM Ind (List Nat) :=
  Evo.createIndividuals ⟨c, []⟩ (do
    let t ← create c.rootType
    pure ⟨c, t⟩) fit up

/-- A `FullCreator` object — full.py:13-96. -/
def fullCreator (c : Cfg) (maxDepth : Nat) (fit : Bool → Evo.Fit) (up : Bool) :
    Nat → Bool → Evo.WM Ind (List Nat) :=
  treeCreator c (fullCreate c maxDepth) fit up

/-- A `GrowCreator` object — grow.py:14-121. -/
def growCreator (c : Cfg) (pPrune : ℚ) (minDepth maxDepth : Nat) (fit : Bool → Evo.Fit) (up : Bool) :
    Nat → Bool → Evo.WM Ind (List Nat) :=
  treeCreator c (growCreate c pPrune minDepth maxDepth) fit up

/-- A `HalfCreator` object — half.py:11-141 — whose two sub-creators are configured alike; that its default sub-creators
drop its bloat weight is in `Model.CreatorObjects`. -/
def halfCreator (c : Cfg) (pPrune : ℚ) (minDepth maxDepth : Nat) (fit : Bool → Evo.Fit) (up : Bool) :
    Nat → Bool → Evo.WM Ind (List Nat) :=
  Evo.halfCreate (fun d => growCreator c pPrune minDepth d fit up) (fun d => fullCreator c d fit up)
    minDepth (maxDepth + 1 - minDepth)

end Verif.GP

namespace Verif.GA
open PyM

/-- A `VectorKPointsCrossover` object — vector_k_point_crossover.py:9-34. -/
def crossoverOp (probability : ℚ) (arity k : Nat) : Evo.Op Vec :=
  Evo.Op.inPlace "VectorKPointsCrossover" probability arity fun inds => do
    let out ← kPointApply k inds
    pure (some out)

/-- An n-point mutation object whose `on_fail` is the inherited one — vector_n_point_mutation.py:39-68.
Simplification: the clones that `attempt_operator` makes to revert to (line 105) are not put on the heap and use up
no ids; `Model/MutationSteps` is without this simplification, and `Props/Labels` shows that runs are the same. -/
def mutationOp (name : String) (probability : ℚ) (arity : Nat) (m : NPoint) : Evo.Op Vec :=
  Evo.Op.inPlace name probability arity (npApply m)

/-- `FloatVectorGaussOnePointMutation` — vector_random_mutation.py:82-136. -/
def gaussOneOp (probability : ℚ) (arity : Nat) (mu sigma : ℚ) (attempts : Nat) : Evo.Op Vec :=
  Evo.Op.withFallback "FloatVectorGaussOnePointMutation" probability arity
    (npTry (gaussNPoint 1 probability mu sigma attempts))
    (mutationOp "FloatVectorUniformOnePointMutation" probability arity (uniformNPoint 1))

/-- `FloatVectorGaussNPointMutation` — vector_random_mutation.py:139-194. -/
def gaussNOp (n : Nat) (probability : ℚ) (arity : Nat) (mu sigma : ℚ) (attempts : Nat) : Evo.Op Vec :=
  Evo.Op.withFallback "FloatVectorGaussNPointMutation" probability arity
    (npTry (gaussNPoint n probability mu sigma attempts))
    (mutationOp "FloatVectorUniformNPointMutation" probability arity (uniformNPoint n))

/-- `GAVectorCreator.create_individuals` for a vector class with the default gene creator —
simple_vector_creator.py:30-53; the constructor of the vector class rejects malformed bounds
(vector_individual.py:36-41). -/
def vectorCreator (kind : Kind) (length : Nat) (bounds : Bounds) (fit : Bool → Evo.Fit) (up : Bool) :
    Nat → Bool → Evo.WM Vec (List Nat) := fun n hib =>
  if 0 < n && !bounds.accepted length then raise .valueError
  else Evo.createIndividuals ⟨kind, bounds, length, []⟩
    (createVector length defaultGeneCreator ⟨kind, bounds, length, []⟩) fit up n hib

end Verif.GA
