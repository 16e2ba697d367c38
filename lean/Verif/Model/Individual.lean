import Verif.Py.Random
import Verif.Py.Wp

/-! # Fitness objects and individuals

Individuals are Python objects: they live in a heap and are handled through references (positions in
the heap).  The genome type `G` is a parameter; nothing here depends on the encoding except the
`size()` method, which is passed as a function. -/

namespace Verif.Evo
open PyM

/-- The value stored in a `SimpleFitness`: `None`, a number, or (through the `submit` path of the
population evaluator) an individual.  Simplification: floats are exact rationals, no NaN. -/
inductive FVal
  | none
  | num (q : ℚ)
  | obj (r : Nat)
deriving DecidableEq, Repr

/-- A `SimpleFitness` (`bloat = none`) or `GPFitness` (`bloat = some weight`) object —
fitness.py:27-40, simple_fitness.py:28-42, gp_fitness.py:35-49. -/
structure Fit where
  value : FVal
  evaluated : Bool
  hib : Bool
  relative : Bool
  cache : Bool
  bloat : Option ℚ
deriving DecidableEq, Repr

/-- `SimpleFitness.__init__` / `GPFitness.__init__` — fitness.py:27-40 (`cache` is forced to `False`
for relative fitness, `higher_is_better=None` is a `ValueError`), simple_fitness.py:28-42,
gp_fitness.py:35-49. -/
def newFit (value : FVal) (hib : Option Bool) (cache relative : Bool) (bloat : Option ℚ) :
    Except Err Fit :=
  match hib with
  | none => .error .valueError
  | some h => .ok
      { value := value
        evaluated := value ≠ .none
        hib := h
        relative := relative
        cache := if relative then false else cache
        bloat := bloat }

namespace Fit

/-- `SimpleFitness.set_fitness` — simple_fitness.py:44-54. -/
def setFitness (f : Fit) (v : FVal) : Fit := { f with value := v, evaluated := true }

/-- `SimpleFitness.get_pure_fitness` — simple_fitness.py:56-68. -/
def getPure (f : Fit) : Except Err FVal :=
  if f.evaluated then .ok f.value else .error .valueError

/-- `SimpleFitness.set_not_evaluated` — simple_fitness.py:70-76, fitness.py:112-116. -/
def setNotEvaluated (f : Fit) : Fit := { f with evaluated := false, value := .none }

/-- `Fitness.is_fitness_evaluated` — fitness.py:118-129. -/
def isEvaluated (f : Fit) : Bool := f.relative || f.evaluated

/-- `get_augmented_fitness(individual)`, with `size = individual.size()` — fitness.py:49-64 (simple:
the pure fitness), gp_fitness.py:51-78 (bloat control).  Arithmetic on a non-number is a
`TypeError`. -/
def augmented (f : Fit) (size : Nat) : Except Err FVal :=
  match f.getPure with
  | .error e => .error e
  | .ok score =>
    match f.bloat with
    | none => .ok score
    | some w =>
      if w = 0 then .ok score
      else
        match score with
        | .num q => .ok (.num (if f.hib then q - w * size else q + w * size))
        | _ => .error .typeError

/-- Python's `<` on fitness values: only numbers are ordered. -/
def lt : FVal → FVal → Except Err Bool
  | .num a, .num b => .ok (decide (a < b))
  | _, _ => .error .typeError

/-- `SimpleFitness.check_comparable_fitness_scores` — simple_fitness.py:78-92 (both objects are
`SimpleFitness` instances here). -/
def checkComparable (f g : Fit) : Except Err Unit :=
  if !f.isEvaluated || !g.isEvaluated then .error .valueError else .ok ()

/-- `SimpleFitness.better_than(ind, other_fitness, other_ind)`, with the sizes of the two individuals —
simple_fitness.py:94-123. -/
def betterThan (f : Fit) (size : Nat) (g : Fit) (gsize : Nat) : Except Err Bool :=
  match checkComparable f g with
  | .error e => .error e
  | .ok _ =>
    match f.augmented size with
    | .error e => .error e
    | .ok a =>
      match g.augmented gsize with
      | .error e => .error e
      | .ok b => if f.hib then lt b a else lt a b

/-- `SimpleFitness.equal_to` — simple_fitness.py:125-150.  Individuals (which define no `__eq__`)
compare by identity. -/
def equalTo (f : Fit) (size : Nat) (g : Fit) (gsize : Nat) : Except Err Bool :=
  match checkComparable f g with
  | .error e => .error e
  | .ok _ =>
    match f.augmented size with
    | .error e => .error e
    | .ok a =>
      match g.augmented gsize with
      | .error e => .error e
      | .ok b => .ok (decide (a = b))

/-- `SimpleFitness.__getstate__` — simple_fitness.py:152-157: what `deepcopy` copies. -/
def getstate (f : Fit) : Fit :=
  if f.cache then f else { f with evaluated := false, value := .none }

end Fit

/-- An `Individual` — individual.py:39-53.  `parents` is only used if `updateParents`. -/
structure Ind (G : Type) where
  id : Nat
  gen : Nat
  genome : G
  fit : Fit
  clonedFrom : Int
  selectedBy : List String
  appliedOps : List String
  updateParents : Bool
  parents : List Nat
deriving Repr

/-- The mutable world: all individuals ever created, the class attribute `Individual.id` and the
random generator. -/
structure World (G : Type) where
  heap : List (Ind G)
  nextId : Nat
  tape : Tape

/-- Computations on the world. -/
abbrev WM (G : Type) := PyM (World G)

variable {G : Type}

/-- Draw from the random generator. -/
def rand {α : Type} (m : Rand α) : WM G α :=
  zoom (fun w => w.tape) (fun t w => { w with tape := t }) m

/-- Dereference.  (A dangling reference cannot occur in Python; it is an error here.) -/
def deref (r : Nat) : WM G (Ind G) := do
  let w ← PyM.get
  match w.heap[r]? with
  | some i => pure i
  | none => raise .attributeError

/-- Assign to attributes of the individual at `r`. -/
def update (r : Nat) (f : Ind G → Ind G) : WM G Unit :=
  modify fun w => { w with heap := w.heap.modify r f }

/-- Put an object on the heap. -/
def alloc (i : Ind G) : WM G Nat := do
  let w ← PyM.get
  PyM.set { w with heap := w.heap ++ [i] }
  pure w.heap.length

/-- The next value of `Individual.id` — `update_id`, individual.py:55-57. -/
def takeId : WM G Nat := do
  let w ← PyM.get
  PyM.set { w with nextId := w.nextId + 1 }
  pure w.nextId

/-- `Individual.__init__` — individual.py:41-53. -/
def newInd (g : G) (fit : Fit) (updateParents : Bool) : WM G Nat := do
  let i ← takeId
  alloc { id := i, gen := 0, genome := g, fit := fit, clonedFrom := -1, selectedBy := [],
          appliedOps := [], updateParents := updateParents, parents := [] }

/-- `Individual.clone` — individual.py:62-68.  `deepcopy` copies every attribute; the fitness object is
copied through its `__getstate__`. -/
def clone (r : Nat) : WM G Nat := do
  let i ← deref r
  let n ← takeId
  alloc { i with
    fit := i.fit.getstate
    clonedFrom := i.id
    parents := if i.updateParents then [] else i.parents
    id := n }

/-- `Individual.set_fitness_not_evaluated` — individual.py:59-60. -/
def setNotEvaluated (r : Nat) : WM G Unit := update r fun i => { i with fit := i.fit.setNotEvaluated }

/-- `ind.fitness.set_fitness(v)`. -/
def setFitness (r : Nat) (v : FVal) : WM G Unit := update r fun i => { i with fit := i.fit.setFitness v }

/-- `Individual.get_pure_fitness` — individual.py:70-71, of the individual at `r`. -/
def pureOf (h : List (Ind G)) (r : Nat) : Except Err FVal :=
  match h[r]? with
  | none => .error .attributeError
  | some i => i.fit.getPure

/-- `Individual.get_augmented_fitness` — individual.py:73-74, of the individual at `r`. -/
def augOf (size : G → Nat) (h : List (Ind G)) (r : Nat) : Except Err FVal :=
  match h[r]? with
  | none => .error .attributeError
  | some i => i.fit.augmented (size i.genome)

/-- `Individual.better_than(other)` — individual.py:76-80; `none` is Python's `None`. -/
def betterOf (size : G → Nat) (h : List (Ind G)) (r : Nat) (other : Option Nat) : Except Err Bool :=
  match other with
  | none => .ok true
  | some o =>
    match h[r]?, h[o]? with
    | some i, some j => i.fit.betterThan (size i.genome) j.fit (size j.genome)
    | _, _ => .error .attributeError

/-- Evaluate something that only reads the heap. -/
def reading {α : Type} (f : List (Ind G) → Except Err α) : WM G α := do
  let w ← PyM.get
  ofExcept (f w.heap)

end Verif.Evo
