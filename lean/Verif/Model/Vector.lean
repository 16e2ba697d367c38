import Verif.Model.GPOperators
import Verif.Py.Sort

/-!
# GA vectors, their creators, crossover and mutations
Models `eckity/genetic_encodings/ga/*.py`, `eckity/creators/ga_creators/*.py`,
`eckity/genetic_operators/crossovers/vector_k_point_crossover.py`,
`eckity/genetic_operators/mutations/vector_n_point_mutation.py` and `vector_random_mutation.py`.

Simplifications: cells and bounds are rationals (Python ints are the integral ones, floats are not
rounded); the individuals of a payload are distinct objects, in-place modification is rendered as
returning the new individuals; user-supplied callables (cell selectors, value getters, success
checkers, gene creators) may draw random numbers and raise but do not modify the individual.
-/

namespace Verif.GA
open PyM

/-- The `bounds` argument: a tuple of numbers, or a list of `(min, max)` pairs —
eckity/genetic_encodings/ga/vector_individual.py:27-28,36-38. -/
inductive Bounds
  | tup (xs : List ℚ)
  | lst (xs : List (ℚ × ℚ))
deriving DecidableEq

/-- The three vector classes: int_vector.py, float_vector.py, bit_string_vector.py. -/
inductive Kind
  | int | float | bit
deriving DecidableEq

/-- The genome part of a `Vector` individual — vector_individual.py:31-58. -/
structure Vec where
  kind : Kind
  bounds : Bounds
  length : Nat
  vector : List ℚ
deriving DecidableEq

/-- The bounds test of `Vector.__init__` — vector_individual.py:36-41. -/
def Bounds.accepted (b : Bounds) (length : Nat) : Bool :=
  match b with
  | .tup xs => xs.length = 2
  | .lst xs => xs.length = length

/-- `Vector.__init__` — vector_individual.py:31-58. -/
def mkVec (kind : Kind) (bounds : Bounds) (length : Nat) (vector : Option (List ℚ)) :
    Except Err Vec :=
  if !bounds.accepted length then .error .valueError
  else match vector with
    | none => .ok ⟨kind, bounds, length, []⟩
    | some v => if v.length ≠ length then .error .valueError else .ok ⟨kind, bounds, length, v⟩

/-- Default `bounds` argument of `IntVector` — int_vector.py:9-10,34 (`MIN_BOUND`, `MAX_BOUND`). -/
def intDefaultBounds : Bounds := .tup [2 ^ 31 - 1, -(2 ^ 31)]

/-- Default `bounds` argument of `FloatVector` — float_vector.py:31. -/
def floatDefaultBounds : Bounds := .tup [0, 1]

/-- Default `bounds` argument of `BitStringVector` — bit_string_vector.py:32. -/
def bitDefaultBounds : Bounds := .tup [0, 1]

/-- `Vector.size` — vector_individual.py:60-69. -/
def Vec.size (v : Vec) : Nat := v.vector.length

/-- One round of the loop of `Vector.check_if_in_bounds` — vector_individual.py:92-101.  Comparing a
number with the pair `bounds[0]` (a list of two pairs) is a `TypeError`, and so is subscripting a
number. -/
def checkCell (b : Bounds) (i : Nat) (x : ℚ) : Except Err Bool :=
  match b with
  | .tup [lo, hi] => .ok (!(x < lo ∨ x > hi))
  | .tup _ => .error .typeError
  | .lst bs =>
    if bs.length = 2 then .error .typeError
    else match bs[i]? with
      | none => .error .indexError
      | some (lo, hi) => .ok (!(x < lo ∨ x > hi))

/-- The loop of `Vector.check_if_in_bounds`, from cell `i` on — vector_individual.py:91-102. -/
def checkFrom (b : Bounds) : Nat → List ℚ → Except Err Bool
  | _, [] => .ok true
  | i, x :: xs =>
    match checkCell b i x with
    | .error e => .error e
    | .ok false => .ok false
    | .ok true => checkFrom b (i + 1) xs

/-- `Vector.check_if_in_bounds` — vector_individual.py:82-102. -/
def Vec.checkIfInBounds (v : Vec) : Except Err Bool := checkFrom v.bounds 0 v.vector

/-- `Vector.add_cell` — vector_individual.py:104-113. -/
def Vec.addCell (v : Vec) (x : ℚ) : Vec := { v with vector := v.vector ++ [x], length := v.length + 1 }

/-- `Vector.empty_vector` — vector_individual.py:115-124. -/
def Vec.emptyVector (v : Vec) : Vec := { v with vector := [], length := 0 }

/-- `Vector.set_vector` — vector_individual.py:126-140. -/
def Vec.setVector (v : Vec) (xs : List ℚ) : Vec := { v with vector := xs, length := xs.length }

/-- `Vector.random_vector_part` — vector_individual.py:153-165. -/
def Vec.randomVectorPart (v : Vec) : Rand (List ℚ) := do
  let i ← Rand.randint 0 ((v.size : ℚ) - 1)
  let j ← Rand.randint (i : ℚ) ((v.size : ℚ) - 1)
  pure (Py.slice v.vector i (j + 1))

/-- `Vector.replace_vector_part` — vector_individual.py:189-211: the removed part and the new
vector. -/
def Vec.replaceVectorPart (v : Vec) (part : List ℚ) (start : Int) : List ℚ × Vec :=
  let endI := start + part.length
  (Py.slice v.vector start endI,
    { v with vector :=
        Py.slice v.vector 0 start ++ part ++ v.vector.drop (Py.clamp v.vector.length endI) })

/-- `Vector.replace_vector_part_random` — vector_individual.py:167-187. -/
def Vec.replaceVectorPartRandom (v : Vec) (part : List ℚ) : Rand (List ℚ × Vec) := do
  let index ← Rand.randint 0 ((v.size : ℚ) - (part.length : ℚ))
  let endI := index + part.length
  pure (Py.slice v.vector index endI,
    { v with vector :=
        Py.slice v.vector 0 index ++ part ++ v.vector.drop (Py.clamp v.vector.length endI) })

/-- `Vector.get_vector_part` — vector_individual.py:213-230. -/
def Vec.getVectorPart (v : Vec) (a b : Int) : List ℚ := Py.slice v.vector a b

/-- `Vector.cell_value` — vector_individual.py:232-246. -/
def Vec.cellValue (v : Vec) (i : Int) : Except Err ℚ := Py.get v.vector i

/-- `Vector.set_cell_value` — vector_individual.py:248-264. -/
def Vec.setCellValue (v : Vec) (i : Int) (x : ℚ) : Except Err Vec :=
  match Py.index? v.vector.length i with
  | none => .error .indexError
  | some k => .ok { v with vector := v.vector.set k x }

/-- `random.randint` used for a cell, the result seen as a number. -/
def randCell (lo hi : ℚ) : Rand ℚ := do
  let z ← Rand.randint lo hi
  pure (z : ℚ)

/-- `get_random_number_in_bounds` of the three classes — int_vector.py:46-62, float_vector.py:43-59,
bit_string_vector.py:41-56.  `BitStringVector` does not look at the kind of bounds: with a list,
`randint` receives pairs, a `TypeError` (`IndexError` if the list is too short). -/
def Vec.getRandomNumberInBounds (v : Vec) (i : Int) : Rand ℚ :=
  match v.kind, v.bounds with
  | .int, .tup [lo, hi] => randCell lo hi
  | .int, .tup _ => raise .indexError
  | .int, .lst bs => do
    let (lo, hi) ← ofExcept (Py.get bs i)
    randCell lo hi
  | .float, .tup [lo, hi] => Rand.uniform lo hi
  | .float, .tup _ => raise .indexError
  | .float, .lst bs => do
    let (lo, hi) ← ofExcept (Py.get bs i)
    Rand.uniform lo hi
  | .bit, .tup [lo, hi] => randCell lo hi
  | .bit, .tup _ => raise .indexError
  | .bit, .lst (_ :: _ :: _) => raise .typeError
  | .bit, .lst _ => raise .indexError

/-- `FloatVector.get_random_number_with_gauss` — float_vector.py:61-79; the other classes have no such
method. -/
def Vec.getRandomNumberWithGauss (v : Vec) (i : Int) (mu sigma : ℚ) : Rand ℚ :=
  match v.kind with
  | .float => do
    let x ← ofExcept (v.cellValue i)
    let g ← Rand.gauss mu sigma
    pure (x + g)
  | _ => raise .attributeError

/-- `BitStringVector.bit_flip` — bit_string_vector.py:58-63; the other classes have no such method.
With a list of bounds the cell would become a pair, which the model does not represent: it is
rendered as the `TypeError` of the bounds check that follows. -/
def Vec.bitFlip (v : Vec) (i : Int) : Rand ℚ :=
  match v.kind, v.bounds with
  | .bit, .tup [lo, hi] => do
    let x ← ofExcept (v.cellValue i)
    pure (if x = lo then hi else lo)
  | .bit, _ => raise .typeError
  | _, _ => raise .attributeError

/-! ## Creation -/

/-- `GAVectorCreator.create_vector` — simple_vector_creator.py:46-49. -/
def createVector (length : Nat) (gene : Vec → Int → Rand ℚ) (v : Vec) : Rand Vec := do
  let xs ← mapL (fun (i : Nat) => gene v i) (List.range length)
  pure (v.setVector xs)

/-- `GAVectorCreator.create_individuals` — simple_vector_creator.py:30-44; the vector class is that of
the creator subclass (int_vector_creator.py, float_vector_creator.py, bit_string_vector_creator.py). -/
def createIndividuals (kind : Kind) (length : Nat) (bounds : Bounds) (gene : Vec → Int → Rand ℚ)
    (n : Nat) : Rand (List Vec) := do
  let inds ← replicateM n (ofExcept (mkVec kind bounds length none))
  mapL (createVector length gene) inds

/-- `GAVectorCreator.default_gene_creator` — simple_vector_creator.py:51-53. -/
def defaultGeneCreator (v : Vec) (i : Int) : Rand ℚ := v.getRandomNumberInBounds i

/-! ## K-point crossover -/

/-- One exchange of the slice `[a:b]` between two lists — vector_k_point_crossover.py:85-87. -/
def swapSlice (a b : Int) (v1 v2 : List ℚ) : List ℚ × List ℚ :=
  let replaced := Py.slice v1 a b
  let v1' := Py.setSlice v1 a b (Py.slice v2 a b)
  (v1', Py.setSlice v2 a b replaced)

/-- The loop of `VectorKPointsCrossover._swap_vector_parts` — vector_k_point_crossover.py:82-88.
`xs` is the part of `xo_points` not yet passed (the loop takes every second point), `m` the length of
`xo_points`.  `xo_points[i + 1]` is only evaluated if `end_idx < len(xo_points)`. -/
def swapLoop (m : Nat) : Int → List Nat → List ℚ → List ℚ → Except Err (List ℚ × List ℚ)
  | _, [], v1, v2 => .ok (v1, v2)
  | start, [e], v1, v2 =>
    let (w1, w2) := swapSlice start e v1 v2
    if e < m then .error .indexError else .ok (w1, w2)
  | start, e :: nxt :: rest, v1, v2 =>
    let (w1, w2) := swapSlice start e v1 v2
    swapLoop m (if e < m then (nxt : Int) else -1) rest w1 w2

/-- `VectorKPointsCrossover._swap_vector_parts` — vector_k_point_crossover.py:59-88. -/
def swapVectorParts (k : Nat) (v1 v2 : List ℚ) (points : List Nat) :
    Except Err (List ℚ × List ℚ) :=
  let pts := if points.length = k then points ++ [v1.length] else points
  swapLoop pts.length 0 pts v1 v2

/-- `VectorKPointsCrossover.apply` — vector_k_point_crossover.py:36-57. -/
def kPointApply (k : Nat) (inds : List Vec) : Rand (List Vec) :=
  match inds with
  | [] => raise .indexError
  | a :: rest => do
    let s ← Rand.sample k ((List.range (a.size - 1)).map (· + 1))
    let pts := Py.sorted s
    match rest with
    | [] => raise .indexError
    | b :: others => do
      let (w1, w2) ← ofExcept (swapVectorParts k a.vector b.vector pts)
      pure ({ a with vector := w1 } :: { b with vector := w2 } :: others)

/-! ## Mutations -/

/-- The parameters of a `VectorNPointMutation` — vector_n_point_mutation.py:39-68 (line numbers of the
file itself). -/
structure NPoint where
  attempts : Nat
  cellSelector : Vec → Rand (List Int)
  mutVal : Vec → Int → Rand ℚ
  checker : Vec → Vec → Rand Bool
  /-- `none` is Python's `None`. -/
  onFail : List Vec → Rand (Option (List Vec))

/-- `default_cell_selector` — vector_n_point_mutation.py:78-80. -/
def defaultCellSelector (n : Nat) (v : Vec) : Rand (List Int) := do
  let s ← Rand.sample n (List.range v.size)
  pure (s.map fun (i : Nat) => (i : Int))

/-- `default_success_checker` — vector_n_point_mutation.py:74-76. -/
def defaultSuccessChecker (_old new : Vec) : Rand Bool := ofExcept new.checkIfInBounds

/-- `default_mut_val_getter` — vector_n_point_mutation.py:70-72: one argument too many is passed. -/
def defaultMutValGetter (_v : Vec) (_i : Int) : Rand ℚ := raise .typeError

/-- `VectorNPointMutation.on_fail` — vector_n_point_mutation.py:127-136: returns `None`. -/
def defaultOnFail (_inds : List Vec) : Rand (Option (List Vec)) := pure none

/-- `for m_point, mut_val in zip(...): individual.set_cell_value(...)` —
vector_n_point_mutation.py:115-117. -/
def setCells (v : Vec) : List (Int × ℚ) → Except Err Vec
  | [] => .ok v
  | (i, x) :: rest =>
    match v.setCellValue i x with
    | .error e => .error e
    | .ok v' => setCells v' rest

/-- The body of the loop of `attempt_operator` for one individual — vector_n_point_mutation.py:103-122.
-/
def mutateOne (m : NPoint) (v : Vec) : Rand (Bool × Vec) := do
  let pts ← m.cellSelector v
  let vals ← mapL (m.mutVal v) pts
  let v' ← ofExcept (setCells v (pts.zip vals))
  let ok ← m.checker v v'
  if ok then pure (true, v')
  else pure (false, v'.setVector v.vector)

/-- `VectorNPointMutation.attempt_operator` — vector_n_point_mutation.py:82-125. -/
def attemptOperator (m : NPoint) : List Vec → Rand (Bool × List Vec)
  | [] => pure (true, [])
  | v :: rest => do
    let (ok, v') ← mutateOne m v
    if ok then do
      let (s, rest') ← attemptOperator m rest
      pure (s, v' :: rest')
    else pure (false, v' :: rest)

/-- `FailableOperator.apply` for an n-point mutation — failable_operator.py:43-69.  The result is
`None` if all attempts fail and `on_fail` is not overridden. -/
def npApply (m : NPoint) (inds : List Vec) : Rand (Option (List Vec)) :=
  failableApply m.attempts
    (fun p _ => match p with
      | none => raise .typeError
      | some l => do
        let (s, l') ← attemptOperator m l
        pure (s, some l'))
    (fun p => match p with
      | none => raise .typeError
      | some l => m.onFail l)
    (some inds)

/-- The attempts of `FailableOperator.apply` for an n-point mutation, without `on_fail` — failable_operator.py:58-67:
whether one of them succeeded, and the individuals after them. -/
def npTry (m : NPoint) (inds : List Vec) : Rand (Bool × List Vec) :=
  failableApply m.attempts
    (fun p _ => do
      let (s, l') ← attemptOperator m p.2
      pure (s, (s, l')))
    pure (false, inds)

/-- `GeneticOperator.apply_operator`, genomes only — genetic_operator.py:29-59.  Iterating over the
result `None` is a `TypeError`. -/
def applyOperator (p : ℚ) (apply : List Vec → Rand (Option (List Vec))) (inds : List Vec) :
    Rand (List Vec) := do
  let u ← Rand.random
  if u ≤ p then do
    let r ← apply inds
    match r with
    | none => raise .typeError
    | some l => pure l
  else pure inds

/-- `VectorNPointMutation` with default arguments — vector_n_point_mutation.py:39-68. -/
def plainNPoint (n attempts : Nat) : NPoint where
  attempts := attempts
  cellSelector := defaultCellSelector n
  mutVal := defaultMutValGetter
  checker := defaultSuccessChecker
  onFail := defaultOnFail

/-- `FloatVectorUniformOnePointMutation` (`n = 1`), `FloatVectorUniformNPointMutation` and
`IntVectorNPointMutation` — vector_random_mutation.py:41-50, 70-79, 240-249; `attempts` is the default
5 of `VectorNPointMutation`. -/
def uniformNPoint (n : Nat) : NPoint where
  attempts := 5
  cellSelector := defaultCellSelector n
  mutVal := fun v i => v.getRandomNumberInBounds i
  checker := defaultSuccessChecker
  onFail := defaultOnFail

/-- `FloatVectorGaussOnePointMutation` (`n = 1`) and `FloatVectorGaussNPointMutation` —
vector_random_mutation.py:109-136, 166-194. -/
def gaussNPoint (n : Nat) (p mu sigma : ℚ) (attempts : Nat) : NPoint where
  attempts := attempts
  cellSelector := defaultCellSelector n
  mutVal := fun v i => v.getRandomNumberWithGauss i mu sigma
  checker := defaultSuccessChecker
  onFail := fun inds => do
    let r ← applyOperator p (npApply (uniformNPoint n)) inds
    pure (some r)

/-- `IntVectorOnePointMutation` — vector_random_mutation.py:214-220. -/
def intOnePoint (pEach : ℚ) : NPoint where
  attempts := 5
  cellSelector := fun v => pure ((List.range v.size).map fun (i : Nat) => (i : Int))
  mutVal := fun v i => do
    let u ← Rand.random
    if u ≤ pEach then v.getRandomNumberInBounds i else ofExcept (v.cellValue i)
  checker := defaultSuccessChecker
  onFail := defaultOnFail

/-- `BitStringVectorFlipMutation` — vector_random_mutation.py:267-276. -/
def bitFlipOne : NPoint where
  attempts := 5
  cellSelector := defaultCellSelector 1
  mutVal := fun v i => v.bitFlip i
  checker := defaultSuccessChecker
  onFail := defaultOnFail

/-- `BitStringVectorNFlipMutation` — vector_random_mutation.py:299-318. -/
def bitNFlip (n : Nat) (pEach : ℚ) : NPoint where
  attempts := 5
  cellSelector := defaultCellSelector n
  mutVal := fun v i => do
    let u ← Rand.random
    if u ≤ pEach then v.bitFlip i else ofExcept (v.cellValue i)
  checker := defaultSuccessChecker
  onFail := defaultOnFail

end Verif.GA
