import Verif.Model.Tree

/-!
# Executing a tree on a data matrix
Models `create_terminal_set` and `generate_args`
(eckity/genetic_encodings/gp/tree/utils.py:12-66) and the array form of `Tree.execute`
(tree_individual.py:227-283).

Simplification: numpy arrays hold exact numbers; arrays of any dtype other than int behave like
exact rationals.
-/

namespace Verif.GP

/-- A two-dimensional array; `ty` is the Python type of its items. -/
structure Mat where
  nrows : Nat
  ncols : Nat
  ty : Ty
  entry : Nat → Nat → ℚ

/-- `X[:, i]` -/
def Mat.column (X : Mat) (i : Nat) : List ℚ := (List.range X.nrows).map fun r => X.entry r i

/-- The name of variable number `i`: `f"x{i}"` -/
def colName (i : Nat) : String := "x" ++ toString i

/-- `create_terminal_set(X)` — utils.py:37-39 -/
def createTerminalSet (X : Mat) : List String := (List.range X.ncols).map colName

/-- `create_terminal_set(X, typed=True)` — utils.py:41.  `X[0, i]` raises on an array without rows
(if there is a column). -/
def createTerminalSetTyped (X : Mat) : Except Err (List (String × Ty)) :=
  if X.nrows = 0 ∧ X.ncols ≠ 0 then .error .indexError
  else .ok ((List.range X.ncols).map fun i => (colName i, X.ty))

/-- Values during the execution on a matrix: numbers and columns. -/
inductive MVal
  | num (q : ℚ)
  | col (xs : List ℚ)
deriving DecidableEq

/-- `generate_args` — utils.py:66 -/
def generateArgs (X : Mat) : List (String × MVal) :=
  (List.range X.ncols).map fun i => (colName i, .col (X.column i))

/-- Conversion of a number to the item type of an integer array (truncation towards zero), as
`np.full_like` does; other item types keep the number. -/
def castTo (ty : Ty) (q : ℚ) : ℚ :=
  match ty with
  | .int => ((q.num.tdiv q.den : ℤ) : ℚ)
  | _ => q

/-- The reshaping of a scalar result — tree_individual.py:280-282.  `X[:, 0]` raises `IndexError` for
an array without columns. -/
def reshape (X : Mat) (r : MVal) : Except Err MVal :=
  match r with
  | .col xs => .ok (.col xs)
  | .num q =>
    if X.ncols = 0 then .error .indexError
    else .ok (.col (List.replicate X.nrows (castTo X.ty q)))

/-- `Tree.execute(X)` — tree_individual.py:249-283 (array form). -/
def executeMat (sem : Fn → List MVal → Except Err MVal) (lit : Val → MVal) (c : Cfg)
    (tree : List Node) (X : Mat) : Except Err MVal := do
  let r ← execute sem lit c tree (generateArgs X)
  reshape X r

end Verif.GP
