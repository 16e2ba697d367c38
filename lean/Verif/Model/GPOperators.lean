import Verif.Model.Tree
import Verif.Py.List

/-!
# GP creators and GP genetic operators
Models `eckity/creators/gp_creators/*.py`, `eckity/genetic_operators/crossovers/subtree_crossover.py`,
`eckity/genetic_operators/mutations/subtree_mutation.py`, `.../erc_mutation.py` and
`eckity/genetic_operators/failable_operator.py`.

The individuals of a payload are distinct objects; the operators modify them in place, which is
rendered as returning the new list of individuals.
-/

namespace Verif

/-- `FailableOperator.apply`, the loop — eckity/genetic_operators/failable_operator.py:61-69.
`i` counts the attempts already made, `n` the attempts left.  A failed attempt may have modified the
individuals in place, so the payload is threaded through. -/
def failableLoop {σ α : Type} (attempt : α → Nat → PyM σ (Bool × α)) (onFail : α → PyM σ α) :
    (n i : Nat) → α → PyM σ α
  | 0, _, payload => onFail payload
  | n + 1, i, payload => do
    let (succeeded, result) ← attempt payload i
    if succeeded then pure result
    else failableLoop attempt onFail n (i + 1) result

/-- `FailableOperator.apply` — eckity/genetic_operators/failable_operator.py:43-69. -/
def failableApply {σ α : Type} (attempts : Nat) (attempt : α → Nat → PyM σ (Bool × α))
    (onFail : α → PyM σ α) (payload : α) : PyM σ α :=
  failableLoop attempt onFail attempts 0 payload

namespace GP
open PyM

/-- A GP individual: configuration and node list (the fitness part is modelled elsewhere). -/
structure Ind where
  cfg : Cfg
  tree : List Node

/-- `SubtreeCrossover._pick_subtrees` — subtree_crossover.py:65-87 -/
def pickSubtrees (inds : List Ind) : Rand (Option (List (List Node))) :=
  match inds with
  | [] => raise .indexError
  | i :: rest => do
    let first ← randomSubtree i.cfg.functionSet i.tree none
    match first with
    | none => pure none
    | some [] => raise .indexError
    | some (r :: tl) => do
      let mType := r.type
      let others ← mapL (fun ind => randomSubtree ind.cfg.functionSet ind.tree mType) rest
      if none ∈ others then pure none
      else pure (some ((r :: tl) :: others.filterMap id))

/-- `SubtreeCrossover._swap_subtrees` — subtree_crossover.py:89-105: `n` is the number of individuals
still to be treated, from the last one down; `subtrees[i - 1]` uses Python's negative index for
`i = 0`. -/
def swapSubtrees (subtrees : List (List Node)) : Nat → List Ind → Except Err (List Ind)
  | 0, inds => .ok inds
  | i + 1, inds =>
    match inds[i]? with
    | none => .error .indexError
    | some ind => do
      let old ← Py.get subtrees i
      let new ← Py.get subtrees ((i : Int) - 1)
      let t ← replaceSubtree ind.tree old new
      swapSubtrees subtrees i (inds.set i { ind with tree := t })

/-- `SubtreeCrossover.attempt_operator` — subtree_crossover.py:21-63 -/
def crossoverAttempt (arity : Nat) (inds : List Ind) (_attempt : Nat) : Rand (Bool × List Ind) := do
  if inds.length ≠ arity then raise .valueError
  else do
    let subtrees ← pickSubtrees inds
    match subtrees with
    | none => pure (false, inds)
    | some sts => do
      let out ← ofExcept (swapSubtrees sts inds.length inds)
      pure (true, out)

/-- `SubtreeCrossover.apply` (inherited `FailableOperator.apply`; the default `on_fail` returns the
payload). -/
def subtreeCrossover (arity attempts : Nat) (inds : List Ind) : Rand (List Ind) :=
  failableApply attempts (crossoverAttempt arity) pure inds

/-- `_assert_node_created` — tree_creator.py:135-173 -/
def assertNode (n : Option Node) : Rand Node :=
  match n with
  | none => raise .valueError
  | some n => pure n

/-- A loop over the argument types of a function, creating one argument tree for each and
concatenating the nodes (the Python code appends to one list). -/
def createArgs (create : Option Ty → Rand (List Node)) : List (Option Ty) → Rand (List Node)
  | [] => pure []
  | t :: ts => do
    let a ← create t
    let as ← createArgs create ts
    pure (a ++ as)

/-- `FullCreator.create_tree` — full.py:56-102.  `rem` is `max_depth - depth` (truncated at 0), so
`rem = 0` is `depth >= max_depth`.  The created nodes are returned instead of appended. -/
def fullTree (c : Cfg) : (rem : Nat) → Option Ty → Rand (List Node)
  | 0, ty => do
    let n ← randomTerminal c ty
    let n ← assertNode n
    pure [n]
  | rem + 1, ty => do
    let n ← randomFunction c ty
    let n ← assertNode n
    match n with
    | .func f => do
      let as ← createArgs (fullTree c rem) ((getFuncTypes f).dropLast)
      pure (.func f :: as)
    | .term _ _ => raise .attributeError

/-- `GPTreeCreator._add_children`: the types of the arguments — tree_creator.py:125-133,
`func_types[i]` for `i in range(arity(f))`. -/
def childTypes (f : Fn) : List (Option Ty) := (getFuncTypes f).take f.arity

/-- `GrowCreator.create_tree` — grow.py:62-118.  `need` is `min_depth - depth` and `rem` is
`max_depth - depth`, both truncated at 0; so `need > 0` is `depth < min_depth` and `rem = 0` is
`depth >= max_depth`.  (When `min_depth > max_depth` the first test wins, as in the code.)
The recursion is on `max need rem`, passed as fuel. -/
def growTree (c : Cfg) (pPrune : ℚ) : (fuel need rem : Nat) → Option Ty → Rand (List Node)
  | 0, _, _, ty => do
    let n ← randomTerminal c ty
    let n ← assertNode n
    pure [n]
  | fuel + 1, need, rem, ty => do
    let isFunc ← (if 0 < need then pure true
      else if rem = 0 then pure false
      else do
        let r ← Rand.random
        pure (!decide (r < pPrune)))
    if isFunc then do
      let n ← randomFunction c ty
      let n ← assertNode n
      match n with
      | .func f => do
        let as ← createArgs (growTree c pPrune fuel (need - 1) (rem - 1)) (childTypes f)
        pure (.func f :: as)
      | .term _ _ => raise .attributeError
    else do
      let n ← randomTerminal c ty
      let n ← assertNode n
      pure [n]

/-- `GrowCreator(init_depth=(min_depth, max_depth)).create_tree(..., depth=0, node_type=ty)`. -/
def growCreate (c : Cfg) (pPrune : ℚ) (minDepth maxDepth : Nat) (ty : Option Ty) : Rand (List Node) :=
  growTree c pPrune (max minDepth maxDepth) minDepth maxDepth ty

/-- `FullCreator(init_depth=(_, max_depth)).create_tree(..., depth=0, node_type=ty)`. -/
def fullCreate (c : Cfg) (maxDepth : Nat) (ty : Option Ty) : Rand (List Node) :=
  fullTree c maxDepth ty

/-- `GPTreeCreator.create_individuals` — tree_creator.py:52-78 (with the `create_tree` of the
subclass). -/
def createIndividuals (c : Cfg) (create : Rand (List Node)) (n : Nat) : Rand (List Ind) :=
  replicateM n (do
    let t ← create
    pure ⟨c, t⟩)

/-- The ramp loop of `HalfCreator.create_individuals` — half.py:117-130: `depths` are the depths
still to do. -/
def halfLoop (c : Cfg) (pPrune : ℚ) (minDepth groupSize : Nat) : List Nat → Rand (List Ind)
  | [] => pure []
  | d :: ds => do
    let grown ← createIndividuals c (growCreate c pPrune minDepth d c.rootType) groupSize
    let full ← createIndividuals c (fullCreate c d c.rootType) groupSize
    let rest ← halfLoop c pPrune minDepth groupSize ds
    pure (grown ++ full ++ rest)

/-- `HalfCreator.create_individuals` — half.py:83-141.  `max_depth + 1 - min_depth = 0` makes the
division raise `ZeroDivisionError`; a negative number of depths gives a non-positive group size.
Simplification: `int(n / k)` is truncated exact division (no float rounding). -/
def halfCreate (c : Cfg) (pPrune : ℚ) (minDepth maxDepth n : Nat) : Rand (List Ind) := do
  let depths : Int := 2 * ((maxDepth : Int) + 1 - minDepth)
  if depths = 0 then raise .zeroDivisionError
  else do
    let groupSize : Int := Int.tdiv n depths
    if groupSize = 0 then raise .valueError
    else do
      -- `range(min_depth, max_depth + 1)`; `create_individuals` with a negative size creates none
      let inds ← halfLoop c pPrune minDepth groupSize.toNat
        (List.range' minDepth (maxDepth + 1 - minDepth))
      let nMissing : Int := (n : Int) - inds.length
      if 0 < nMissing then do
        -- the full creator still has the init_depth of the last iteration (the configured one if
        -- there was none; both have the same maximum)
        let missing ← createIndividuals c (fullCreate c maxDepth c.rootType) nMissing.toNat
        pure (inds ++ missing)
      else pure inds

/-- The individual-by-individual part of `SubtreeMutation._swap_subtrees` — subtree_mutation.py:64-80.
The creator is a `GrowCreator` with its default `p_prune = 0.5`. -/
def mutateSubtrees (minDepth maxDepth : Nat) : List (Ind × List Node) → Rand (List Ind)
  | [] => pure []
  | (ind, old) :: rest => do
    match old with
    | [] => raise .indexError
    | r :: _ => do
      let new ← growCreate ind.cfg (1 / 2) minDepth maxDepth r.type
      let t ← ofExcept (replaceSubtree ind.tree old new)
      let rest' ← mutateSubtrees minDepth maxDepth rest
      pure ({ ind with tree := t } :: rest')

/-- `SubtreeMutation.attempt_operator` — subtree_mutation.py:25-51 -/
def mutationAttempt (minDepth maxDepth : Nat) (inds : List Ind) (_attempt : Nat) :
    Rand (Bool × List Ind) := do
  let olds ← mapL (fun ind => randomSubtree ind.cfg.functionSet ind.tree none) inds
  if none ∈ olds then pure (false, inds)
  else do
    let out ← mutateSubtrees minDepth maxDepth (inds.zip (olds.filterMap id))
    pure (true, out)

/-- `SubtreeMutation.apply` -/
def subtreeMutation (minDepth maxDepth attempts : Nat) (inds : List Ind) : Rand (List Ind) :=
  failableApply attempts (mutationAttempt minDepth maxDepth) pure inds

/-- `terminal.value + random.gauss(mu, sigma)`: a float (the numeric value of an int, float or bool
plus the noise); a user-defined numeric class is left abstract and raises here. -/
def addNoise (v : Val) (noise : ℚ) (ref : Nat) : Except Err Val :=
  match v.data.num? with
  | some q => .ok ⟨ref, .float (q + noise)⟩
  | none => .error .typeError

/-- The loop of `ERCMutation.attempt_operator` — erc_mutation.py:42-44.  The node object is the one at
position `i`; its type annotation is not changed. -/
def noiseLoop (mu sigma : ℚ) : List (Ind × Nat) → Rand (List Ind)
  | [] => pure []
  | (ind, i) :: rest => do
    match ind.tree[i]? with
    | some (.term v ty) => do
      let g ← Rand.gauss mu sigma
      let r ← Rand.next
      let v' ← ofExcept (addNoise v g r)
      let rest' ← noiseLoop mu sigma rest
      pure ({ ind with tree := ind.tree.set i (.term v' ty) } :: rest')
    | _ => raise .attributeError

/-- `ERCMutation.attempt_operator` — erc_mutation.py:23-47 -/
def ercAttempt (mu sigma : ℚ) (inds : List Ind) (_attempt : Nat) : Rand (Bool × List Ind) := do
  let leaves ← mapL (fun ind => randomNumericNode ind.tree) inds
  if none ∈ leaves then pure (false, inds)
  else do
    let out ← noiseLoop mu sigma (inds.zip (leaves.filterMap id))
    pure (true, out)

/-- `ERCMutation.apply` (one attempt: the constructor does not forward `attempts`). -/
def ercMutation (mu sigma : ℚ) (inds : List Ind) : Rand (List Ind) :=
  failableApply 1 (ercAttempt mu sigma) pure inds

end GP
end Verif
