import Verif.Model.Examples

/-!
# The typed multiplexer example

examples/treegp/basic_mode/typed_multiplexer.py: the multiplexer of `Model/Examples` with truth values instead of the integers
0 and 1, annotated functions, terminals with types, a type for the root and no constants.  The truth table and the target
function (lines 36-70, 92-104) are those of multiplexer.py: `column`, `output`.
-/

namespace Verif.TypedMux
open PyM Evo Verif.Examples

/-- `and2bools` — typed_multiplexer.py:165, typed_functions.py:147-149. -/
def andB : GP.Fn := ⟨0, [some .bool, some .bool], some .bool⟩
/-- `or2bools` — typed_multiplexer.py:165, typed_functions.py:152-154. -/
def orB : GP.Fn := ⟨1, [some .bool, some .bool], some .bool⟩
/-- `not2bools` — typed_multiplexer.py:165, typed_functions.py:157-159. -/
def notB : GP.Fn := ⟨2, [some .bool], some .bool⟩
/-- `if_then_else3bools` — typed_multiplexer.py:165, typed_functions.py:162-164. -/
def iteB : GP.Fn := ⟨3, [some .bool, some .bool, some .bool], some .bool⟩

/-- Their meaning on columns of truth values.  Simplification: a scalar is the column with that value in all rows, and the
numpy functions work row by row (for this see `Model/Primitives`). -/
def sem (f : GP.Fn) (args : List (Row → Bool)) : Except Err (Row → Bool) :=
  match f.id, args with
  | 0, [x, y] => .ok fun r => x r && y r
  | 1, [x, y] => .ok fun r => x r || y r
  | 2, [x] => .ok fun r => !x r
  | 3, [x, y, z] => .ok fun r => bif x r then y r else z r
  | _, _ => .error .typeError

/-- A terminal that is no variable; there is none in this example, except in trees the user gives. -/
def scalarLit (v : GP.Val) : Bool :=
  match v.data with
  | .bool b => b
  | _ => false

/-- The keyword arguments of the call of `execute` — typed_multiplexer.py:125-134. -/
def kwargs : List (String × (Row → Bool)) := muxNames.zipIdx.map fun p => (p.1, column p.2)

/-- The rows in which a result is right: `exec_res == self.output` — typed_multiplexer.py:140. -/
def right (res : Row → Bool) : List Row := (List.finRange 2048).filter fun r => decide (res r = output r)

/-- `MuxEvaluator.evaluate_individual` — typed_multiplexer.py:106-140. -/
def fitness (i : GP.Ind) : Except Err ℚ := do
  let res ← GP.execute sem (fun v _ => scalarLit v) i.cfg i.tree kwargs
  .ok ((right res).length / 2048)

/-- The value of a function on truth values: the calls `algo.execute(s0=False, …)` after the run —
typed_multiplexer.py:210-221. -/
def scalar (f : GP.Fn) (args : List Bool) : Except Err Bool :=
  match f.id, args with
  | 0, [x, y] => .ok (x && y)
  | 1, [x, y] => .ok (x || y)
  | 2, [x] => .ok (!x)
  | 3, [x, y, z] => .ok (bif x then y else z)
  | _, _ => .error .typeError

/-- Keyword arguments `s0=…, …, d7=…`. -/
def bits (b : Nat → Bool) : List (String × Bool) := muxNames.zipIdx.map fun p => (p.1, b p.2)

/-- The terminal set — typed_multiplexer.py:160-162. -/
def terminals : List (GP.Val × Option GP.Ty) := muxNames.zipIdx.map fun p => (⟨p.2, .str p.1⟩, some .bool)

/-- The function and terminal sets and the root type as the creator keeps them — typed_multiplexer.py:160-176. -/
def gp : GP.Cfg where
  functionSet := [andB, orB, notB, iteB]
  terminalSet := terminals
  erc := none
  rootType := some .bool

/-- The sub-population of typed_multiplexer.py:169-196.  There `depth = 4`, `bloat = 0.00001`, `pop = 40`, `elite = 0`,
`pCross = 0.8`, `pMut = 0.1`, `tour = 7`. -/
def sub (depth pop tour : Nat) (elite : Int) (pCross pMut bloat : ℚ) : SubCfg GP.Ind where
  creators := [GP.fullCreator gp depth (fun hib => { simpleFit hib with bloat := some bloat }) false]
  pick := pure 0
  ops := [GP.crossoverOp pCross 2 1, GP.mutationOp pMut 2 4 1]
  sels := [tournament (fun i => i.tree.length) tour false]
  popSize := pop
  nElite := elite
  hib := true
  evaluate := fun i => PyM.ofExcept (fitness i)

/-- The algorithm of typed_multiplexer.py:168-204, with `ThresholdFromTargetTerminationChecker(optimal=1, threshold=thr)`; there
`thr = 0.01` and `maxGen = 40`. -/
def cfg (depth pop tour : Nat) (elite : Int) (pCross pMut bloat thr : ℚ) (maxGen : Nat) (stream : Nat → Tape)
    (sched : Nat → Nat → List Nat) : Cfg GP.Ind Unit where
  size := fun i => i.tree.length
  subs := [sub depth pop tour elite pCross pMut bloat]
  stream := stream
  maxGen := maxGen
  checker := .one (threshold 1 thr)
  sched := sched
  submit := false

end Verif.TypedMux
