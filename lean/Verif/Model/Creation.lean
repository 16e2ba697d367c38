import Verif.Model.Evolution

/-! # Creators as seen by a population: new individuals, then genomes -/

namespace Verif.Evo
open PyM
variable {G : Type}

/-- `create_individuals(n_individuals, higher_is_better)` — simple_vector_creator.py:27-44 and
tree_creator.py:53-78: first all individuals are constructed (with an empty genome `empty` and a fresh
fitness object), then one genome after the other is drawn.  `genome` is the random generator of a genome
(`create_vector`, `create_tree`); it is modelled in detail in `Model.Vector` and `Model.GPOperators`. -/
def createIndividuals (empty : G) (genome : Rand G) (fit : Bool → Fit) (updateParents : Bool)
    (n : Nat) (hib : Bool) : WM G (List Nat) := do
  let refs ← mapL (fun (_ : Nat) => newInd empty (fit hib) updateParents) (List.range n)
  forL (fun r => do
    let g ← rand genome
    update r fun i => { i with genome := g }) refs
  pure refs

/-- The groups of `HalfCreator.create_individuals` — half.py:108-126: for every depth, `group` grown
trees, then `group` full trees. -/
def halfGroups (grow full : Nat → Nat → Bool → WM G (List Nat)) (group : Nat) (hib : Bool) :
    List Nat → WM G (List Nat)
  | [] => pure []
  | depth :: ds => do
    let grown ← grow depth group hib
    let filled ← full depth group hib
    let rest ← halfGroups grow full group hib ds
    pure ((grown ++ filled) ++ rest)

/-- `HalfCreator.create_individuals` — half.py:84-137.  `grow d`, `full d` are the `create_individuals`
of the two sub-creators after `init_depth = (min_depth, d)`.  With no depth in the range the creator
raises `ZeroDivisionError` or (if `max_depth + 1 < min_depth`) goes on with a negative group size; only
ranges with at least one depth are modelled. -/
def halfCreate (grow full : Nat → Nat → Bool → WM G (List Nat)) (minDepth depths : Nat) (n : Nat)
    (hib : Bool) : WM G (List Nat) :=
  let group := n / (2 * depths)
  if group = 0 then raise .valueError
  else do
    let inds ← halfGroups grow full group hib ((List.range depths).map (minDepth + ·))
    if 0 < n - inds.length then do
      let more ← full (minDepth + depths - 1) (n - inds.length) hib
      pure (inds ++ more)
    else pure inds

end Verif.Evo
