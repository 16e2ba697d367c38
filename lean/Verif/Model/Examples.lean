import Verif.Model.Library
import Verif.Model.Termination
import Verif.Model.Tree
import Mathlib.Data.Real.Sqrt
import Mathlib.Data.Int.Bitwise
import Mathlib.Analysis.SpecialFunctions.Trigonometric.Basic

/-!
# The examples that come with the library

`examples/vectorga/one_max`, `examples/vectorga/knapsack`, `examples/treegp/basic_mode/multiplexer.py`,
`examples/treegp/sklearn_mode/root_function_creator.py` and `examples/multi_objective`.
-/

namespace Verif.Examples
open PyM Evo

/-! ## OneMax -/

/-- `OneMaxEvaluator.evaluate_individual` — one_max_evaluator.py:5-19. -/
def oneMax (v : GA.Vec) : ℚ := v.vector.sum

/-- A fresh `SimpleFitness` — simple_fitness.py:28-42. -/
def simpleFit (hib : Bool) : Fit := ⟨.none, false, hib, false, false, none⟩

/-- The sub-population of one_max_problem.py:19-35.  There `n = 100`, `pop = 300`, `elite = round(300 / 300) = 1`,
`pCross = 0.5`, `pMut = 0.2`, `pEach = 0.05`, `tour = 3`; `BitStringVectorNFlipMutation` gets `n` mutation points. -/
def oneMaxSub (n pop tour : Nat) (elite : Int) (pCross pMut pEach : ℚ) : SubCfg GA.Vec where
  creators := [GA.vectorCreator .bit n (.tup [0, 1]) simpleFit false]
  pick := pure 0
  ops := [GA.crossoverOp pCross 2 1,
    GA.mutationOp "BitStringVectorNFlipMutation" pMut 1 (GA.bitNFlip n pEach)]
  sels := [tournament (fun v => v.vector.length) tour false]
  popSize := pop
  nElite := elite
  hib := true
  evaluate := fun v => pure (oneMax v)

/-- The algorithm of one_max_problem.py:18-42, with `ThresholdFromTargetTerminationChecker(optimal=n, threshold=0.0)`. -/
def oneMaxCfg (n pop tour : Nat) (elite : Int) (pCross pMut pEach : ℚ) (maxGen : Nat) (stream : Nat → Tape)
    (sched : Nat → Nat → List Nat) : Cfg GA.Vec Unit where
  size := fun v => v.vector.length
  subs := [oneMaxSub n pop tour elite pCross pMut pEach]
  stream := stream
  maxGen := maxGen
  checker := .one (threshold n 0)
  sched := sched
  submit := false

/-- The sub-population of one_max_problem_float.py:20-38.  There `n = 100`, `pop = 300`, `elite = round(300 / 300) = 1`,
`pCross = 0.7`, `pMut = 0.3`, `points = 50`, `tour = 3`.  Sums are exact here; Python rounds them. -/
def floatOneMaxSub (n pop tour points : Nat) (elite : Int) (pCross pMut : ℚ) : SubCfg GA.Vec where
  creators := [GA.vectorCreator .float n (.tup [0, 1]) simpleFit false]
  pick := pure 0
  ops := [GA.crossoverOp pCross 2 1,
    GA.mutationOp "FloatVectorUniformNPointMutation" pMut 1 (GA.uniformNPoint points)]
  sels := [tournament (fun v => v.vector.length) tour false]
  popSize := pop
  nElite := elite
  hib := true
  evaluate := fun v => pure (oneMax v)

/-- The algorithm of one_max_problem_float.py:19-45, with `ThresholdFromTargetTerminationChecker(optimal=n, threshold=0.0)`. -/
def floatOneMaxCfg (n pop tour points : Nat) (elite : Int) (pCross pMut : ℚ) (maxGen : Nat) (stream : Nat → Tape)
    (sched : Nat → Nat → List Nat) : Cfg GA.Vec Unit where
  size := fun v => v.vector.length
  subs := [floatOneMaxSub n pop tour points elite pCross pMut]
  stream := stream
  maxGen := maxGen
  checker := .one (threshold n 0)
  sched := sched
  submit := false

/-! ## Knapsack -/

/-- A Python value given as a field of an item: an `int` (or `bool`), a `float`, or something else. -/
inductive Field
  | int (z : ℤ)
  | float (q : ℚ)
  | other
deriving DecidableEq

/-- An element of the `items` list: a tuple with these fields, or something else. -/
inductive ItemArg
  | tup (fields : List Field)
  | other
deriving DecidableEq

/-- `isinstance(x, int)` -/
def Field.isInt : Field → Bool
  | .int _ => true
  | _ => false

/-- The condition in the loop of `KnapsackEvaluator.__init__` — knapsack_evaluator.py:31-35.  The last operand is
`type(item[1] not in [int, float])`, the class `bool`, which is true like every class. -/
def rejects : ItemArg → Except Err Bool
  | .other => .ok true
  | .tup [] => .error .indexError
  | .tup (w :: rest) =>
    if !w.isInt then .ok true
    else match rest with
      | [] => .error .indexError
      | _ :: _ => .ok true

/-- The loop — knapsack_evaluator.py:30-39. -/
def checkItems : List ItemArg → Except Err Unit
  | [] => .ok ()
  | a :: as =>
    match rejects a with
    | .error e => .error e
    | .ok true => .error .valueError
    | .ok false => checkItems as

/-- `KnapsackEvaluator(items=…)` for a list: the items with their indices as keys — knapsack_evaluator.py:29-43. -/
def knapsackList (items : List ItemArg) : Except Err (List (Nat × ItemArg)) := do
  checkItems items
  .ok (items.zipIdx.map fun p => (p.2, p.1))

/-- The default items — knapsack_evaluator.py:23-28: `NUM_ITEMS` pairs of a weight from 1 to 10 and a price from 0 to 100. -/
def knapsackDefault : Rand (List (ℚ × ℚ)) :=
  replicateM 20 (do
    let w ← Rand.randint 1 10
    let p ← Rand.uniform 0 100
    pure ((w : ℚ), p))

/-- The loop of `evaluate_individual` — knapsack_evaluator.py:60-64: the total weight and value of the items whose cell is
truthy.  `self.items` is a dictionary with the keys 0, 1, … (as made by the constructor), here a list. -/
def bag (items : List (ℚ × ℚ)) : List (Nat × ℚ) → Except Err (ℚ × ℚ)
  | [] => .ok (0, 0)
  | (i, x) :: cells => do
    let (w, v) ← bag items cells
    if x ≠ 0 then
      match items[i]? with
      | some it => .ok (w + it.1, v + it.2)
      | none => .error .keyError
    else .ok (w, v)

/-- `KnapsackEvaluator.evaluate_individual` — knapsack_evaluator.py:46-71: `none` is `-np.inf`.  Simplifications: sums are
exact, so that the order of the summands does not matter. -/
def knapsack (items : List (ℚ × ℚ)) (maxWeight : ℚ) (v : GA.Vec) : Except Err (Option ℚ) := do
  let (weight, value) ← bag items (v.vector.zipIdx.map fun p => (p.2, p.1))
  if weight > maxWeight then .ok none else .ok (some value)

/-- The algorithm of knapsack_main.py:27-52.  There `n = 20` (one cell for every item), `pop = 50`, `tour = 4`, `elite = 0`,
`pCross = 0.5`, `pMut = 0.05`, `maxGen = 500`.  Simplification: `-inf` is a number `low`. -/
def knapsackSub (n pop tour : Nat) (elite : Int) (pCross pMut : ℚ) (items : List (ℚ × ℚ)) (maxWeight low : ℚ) : SubCfg GA.Vec where
  creators := [GA.vectorCreator .bit n (.tup [0, 1]) simpleFit false]
  pick := pure 0
  ops := [GA.crossoverOp pCross 2 2, GA.mutationOp "BitStringVectorFlipMutation" pMut 1 GA.bitFlipOne]
  sels := [tournament (fun v => v.vector.length) tour false]
  popSize := pop
  nElite := elite
  hib := true
  evaluate := fun v => ofExcept ((knapsack items maxWeight v).map (·.getD low))

/-- The algorithm with this sub-population — knapsack_main.py:27-52. -/
def knapsackCfg (n pop tour : Nat) (elite : Int) (pCross pMut : ℚ) (items : List (ℚ × ℚ)) (maxWeight low : ℚ) (maxGen : Nat)
    (stream : Nat → Tape) (sched : Nat → Nat → List Nat) : Cfg GA.Vec Unit where
  size := fun v => v.vector.length
  subs := [knapsackSub n pop tour elite pCross pMut items maxWeight low]
  stream := stream
  maxGen := maxGen
  checker := .none
  sched := sched
  submit := false

/-! ## Multiplexer -/

/-- The rows of the truth table, `product([0, 1], repeat=11)` in its order: row `k` has the binary digits of `k` —
multiplexer.py:100-103. -/
abbrev Row := Fin 2048

/-- The column with the given position: `s0`, `s1`, `s2`, `d0`, …, `d7` — multiplexer.py:104-111. -/
def column (pos : Nat) (r : Row) : Bool := r.val.testBit (10 - pos)

/-- `_target_func` — multiplexer.py:43-77. -/
def target (s0 s1 s2 d0 d1 d2 d3 d4 d5 d6 d7 : Bool) : Bool :=
  (!s0 && !s1 && !s2 && d0) || (!s0 && !s1 && s2 && d1) || (!s0 && s1 && !s2 && d2) || (!s0 && s1 && s2 && d3) ||
    (s0 && !s1 && !s2 && d4) || (s0 && !s1 && s2 && d5) || (s0 && s1 && !s2 && d6) || (s0 && s1 && s2 && d7)

/-- The column `output` — multiplexer.py:101, 111. -/
def output (r : Row) : Bool :=
  target (column 0 r) (column 1 r) (column 2 r) (column 3 r) (column 4 r) (column 5 r) (column 6 r) (column 7 r)
    (column 8 r) (column 9 r) (column 10 r)

/-- `f_and` — multiplexer.py:172, untyped_functions.py:101-103. -/
def andFn : GP.Fn := ⟨0, [none, none], none⟩
/-- `f_or` — multiplexer.py:172, untyped_functions.py:106-108. -/
def orFn : GP.Fn := ⟨1, [none, none], none⟩
/-- `f_not` — multiplexer.py:172, untyped_functions.py:111-113. -/
def notFn : GP.Fn := ⟨2, [none], none⟩
/-- `f_if_then_else` — multiplexer.py:172, untyped_functions.py:116-118. -/
def iteFn : GP.Fn := ⟨3, [none, none, none], none⟩

/-- Their meaning on columns of integers.  Simplification: a scalar is the column with that number in all rows, and the
numpy functions work row by row (for this see `Model/Primitives`). -/
def muxSem (f : GP.Fn) (args : List (Row → ℤ)) : Except Err (Row → ℤ) :=
  match f.id, args with
  | 0, [x, y] => .ok fun r => (x r).land (y r)
  | 1, [x, y] => .ok fun r => (x r).lor (y r)
  | 2, [x] => .ok fun r => if x r = 0 then 1 else 0
  | 3, [x, y, z] => .ok fun r => if x r = 0 then z r else y r
  | _, _ => .error .typeError

/-- A terminal that is no variable: an integer from the ERC range `(0, 1)`. -/
def muxLit (v : GP.Val) : Row → ℤ := fun _ =>
  match v.data with
  | .int z => z
  | _ => 0

/-- The names of the terminals — multiplexer.py:165-169. -/
def muxNames : List String := ["s0", "s1", "s2", "d0", "d1", "d2", "d3", "d4", "d5", "d6", "d7"]

/-- The keyword arguments of the call of `execute` — multiplexer.py:132-141. -/
def muxKwargs : List (String × (Row → ℤ)) :=
  muxNames.zipIdx.map fun p => (p.1, fun r => bif column p.2 r then 1 else 0)

/-- The rows in which a result is right: `exec_res == self.output` — multiplexer.py:148 (`False == 0` and `True == 1`). -/
def rightRows (res : Row → ℤ) : List Row := (List.finRange 2048).filter fun r => decide (res r = bif output r then 1 else 0)

/-- `MuxEvaluator.evaluate_individual` — multiplexer.py:113-148. -/
def muxFitness (i : GP.Ind) : Except Err ℚ := do
  let res ← GP.execute muxSem muxLit i.cfg i.tree muxKwargs
  .ok ((rightRows res).length / 2048)

/-- The value of `f` on integers: the calls `algo.execute(s0=0, …)` after the run — multiplexer.py:217-225. -/
def muxScalar (f : GP.Fn) (args : List ℤ) : Except Err ℤ :=
  match f.id, args with
  | 0, [x, y] => .ok (x.land y)
  | 1, [x, y] => .ok (x.lor y)
  | 2, [x] => .ok (if x = 0 then 1 else 0)
  | 3, [x, y, z] => .ok (if x = 0 then z else y)
  | _, _ => .error .typeError

/-- A terminal that is no variable, as an integer. -/
def muxScalarLit (v : GP.Val) : ℤ :=
  match v.data with
  | .int z => z
  | _ => 0

/-- The integers of row `r` as keyword arguments. -/
def rowKwargs (r : Row) : List (String × ℤ) := muxNames.zipIdx.map fun p => (p.1, bif column p.2 r then 1 else 0)

/-- The function and terminal sets and the ERC range — multiplexer.py:167-172, 176-182. -/
def muxGP : GP.Cfg where
  functionSet := [andFn, orFn, notFn, iteFn]
  terminalSet := muxNames.zipIdx.map fun p => (⟨p.2, .str p.1⟩, none)
  erc := some ⟨0, 1, false⟩
  rootType := none

/-- The sub-population of multiplexer.py:175-203.  There `depth = 4`, `bloat = 0.00001`, `pop = 40`, `elite = 0`, `pCross = 0.8`,
`pMut = 0.1`, `tour = 7`. -/
def muxSub (depth pop tour : Nat) (elite : Int) (pCross pMut bloat : ℚ) : SubCfg GP.Ind where
  creators := [GP.fullCreator muxGP depth (fun hib => { simpleFit hib with bloat := some bloat }) false]
  pick := pure 0
  ops := [GP.crossoverOp pCross 2 1, GP.mutationOp pMut 2 4 1]
  sels := [tournament (fun i => i.tree.length) tour false]
  popSize := pop
  nElite := elite
  hib := true
  evaluate := fun i => PyM.ofExcept (muxFitness i)

/-- The algorithm of multiplexer.py:174-211, with `ThresholdFromTargetTerminationChecker(optimal=1, threshold=thr)`; there
`thr = 0.01` and `maxGen = 40`. -/
def muxCfg (depth pop tour : Nat) (elite : Int) (pCross pMut bloat thr : ℚ) (maxGen : Nat) (stream : Nat → Tape)
    (sched : Nat → Nat → List Nat) : Cfg GP.Ind Unit where
  size := fun i => i.tree.length
  subs := [muxSub depth pop tour elite pCross pMut bloat]
  stream := stream
  maxGen := maxGen
  checker := .one (threshold 1 thr)
  sched := sched
  submit := false

/-! ## RootFunctionCreator -/

/-- `RootFunctionCreator.create_tree` — root_function_creator.py:33-50, with `GPTreeCreator._add_children`
(tree_creator.py:125-133), which calls `create_tree` of the same object for every argument.  `limit` is how deep Python lets
calls be nested; the call after that raises `RecursionError`.  The node `root` is constructed, but nothing is appended to the
tree in this function. -/
def rootTree (root : GP.Fn) : (limit : Nat) → List GP.Node → Rand (List GP.Node)
  | 0, _ => raise .runtimeError
  | limit + 1, tree => (GP.childTypes root).foldlM (fun t _ => rootTree root limit t) tree

/-- A `RootFunctionCreator` object — root_function_creator.py:15-31. -/
def rootCreator (c : GP.Cfg) (root : GP.Fn) (limit : Nat) (fit : Bool → Fit) (up : Bool) : Nat → Bool → WM GP.Ind (List Nat) :=
  GP.treeCreator c (fun _ => rootTree root limit []) fit up

/-! ## ZDT -/

/-- The variable `g` of the evaluators — nsga2zdt1.py:35-37, nsga2zdt2.py:34-36. -/
noncomputable def zdtG (v : List ℝ) : ℝ := 1 + 9 / ((v.length : ℝ) - 1) * v.tail.sum

/-- `Zdt1Evaluator.evaluate_individual` — nsga2zdt1.py:20-39, for vectors with at least two cells (with one cell, `k - 1` is
zero and the division raises).  Simplification: reals instead of floats. -/
noncomputable def zdt1 (v : List ℝ) : List ℝ := [v.headD 0, 1 - Real.sqrt (v.headD 0 / zdtG v)]

/-- `Zdt2Evaluator.evaluate_individual` — nsga2zdt2.py:20-40. -/
noncomputable def zdt2 (v : List ℝ) : List ℝ := [v.headD 0, 1 - (v.headD 0 / zdtG v) ^ 2]

/-- `Zdt3Evaluator.evaluate_individual` — nsga2zdt3.py:20-37. -/
noncomputable def zdt3 (v : List ℝ) : List ℝ :=
  [v.headD 0, 1 - Real.sqrt (v.headD 0 / zdtG v) - v.headD 0 / zdtG v * Real.sin (10 * Real.pi * v.headD 0)]

/-! ## The basic multi-objective example -/

/-- `NSGA2BasicExampleEvaluator.evaluate_individual` — nsga2_basic_example.py:39-60, for vectors with at least one cell (`1 / sqrt(0)`
raises).  Simplification: reals instead of floats. -/
noncomputable def basicMoo (v : List ℝ) : List ℝ :=
  let n : ℝ := v.length
  [1 - Real.exp (-(v.map fun x => (x - 1 / Real.sqrt n) ^ 2).sum), 1 - Real.exp (-(v.map fun x => (x + 1 / Real.sqrt n) ^ 2).sum)]

end Verif.Examples
