import Verif.Model.Failable
import Verif.Model.Library

/-!
# N-point mutations, statement by statement

`Model/Library` has the n-point mutations as functions of the genomes of their arguments.  Here they work on the individuals
themselves, as the Python code does: cells are assigned one by one, every attempt clones every individual it gets to (which
uses up an id), and an individual whose mutation failed gets its old cells back.  `Props/Labels` shows that this makes no
difference to a run.
-/

namespace Verif.GA
open PyM Evo

/-- `old_individual = individual.clone()` — vector_n_point_mutation.py:105, individual.py:62-68.  Simplification: the clone
is returned as a value and not put on the heap (it is dropped at the end of the loop body); the id it gets is used up. -/
def oldCopy (r : Nat) : WM Vec Vec := do
  let i ← deref r
  let _ ← takeId
  pure i.genome

/-- `individual.set_cell_value(m_point, mut_val)` for all points in turn — vector_n_point_mutation.py:115-117. -/
def setCellsAt (r : Nat) : List (Int × ℚ) → WM Vec Unit
  | [] => pure ()
  | (p, x) :: rest => do
    let i ← deref r
    let v ← PyM.ofExcept (i.genome.setCellValue p x)
    update r fun i => { i with genome := v }
    setCellsAt r rest

/-- The body of the loop of `attempt_operator` — vector_n_point_mutation.py:103-122: whether the individual was mutated. -/
def mutateAt (m : NPoint) (r : Nat) : WM Vec Bool := do
  let old ← oldCopy r
  let i ← deref r
  let pts ← rand (m.cellSelector i.genome)
  let vals ← mapL (fun p => do let i ← deref r; rand (m.mutVal i.genome p)) pts
  setCellsAt r (pts.zip vals)
  let new ← deref r
  let ok ← rand (m.checker old new.genome)
  if ok then pure true
  else do
    update r fun i => { i with genome := i.genome.setVector old.vector }
    pure false

/-- The loop of `attempt_operator` — vector_n_point_mutation.py:102-122. -/
def attemptAt (m : NPoint) : List Nat → WM Vec Bool
  | [] => pure true
  | r :: rs => do
    let ok ← mutateAt m r
    if ok then attemptAt m rs else pure false

/-- `VectorNPointMutation.attempt_operator` — vector_n_point_mutation.py:82-125. -/
def attemptSteps (m : NPoint) (refs : List Nat) (_attempt : Nat) : WM Vec (Bool × Option (List Nat)) := do
  let succeeded ← attemptAt m refs
  pure (succeeded, some refs)

/-- An n-point mutation object whose `on_fail` is the inherited one — vector_n_point_mutation.py:39-68, 127-136; `apply` is
`FailableOperator.apply` (failable_operator.py:43-69).  The arguments are individuals (first line: dangling references do
not exist in Python). -/
def mutationSteps (name : String) (probability : ℚ) (arity : Nat) (m : NPoint) : Evo.Op Vec where
  name := name
  probability := probability
  arity := arity
  apply := fun refs => do
    let _ ← genomes refs
    Failable.loop (attemptSteps m) (fun _ => pure none) refs m.attempts 0

/-- A Gaussian mutation object: `on_fail` hands the individuals to `apply_operator` of a uniform mutation —
vector_random_mutation.py:109-136, 166-194. -/
def gaussSteps (name inner : String) (n : Nat) (probability : ℚ) (arity : Nat) (mu sigma : ℚ) (attempts : Nat) : Evo.Op Vec where
  name := name
  probability := probability
  arity := arity
  apply := fun refs => do
    let _ ← genomes refs
    Failable.loop (attemptSteps (gaussNPoint n probability mu sigma attempts))
      (fun refs => do
        let l ← Evo.applyOperator (mutationSteps inner probability arity (uniformNPoint n)) refs
        pure (some l)) refs attempts 0

end Verif.GA
