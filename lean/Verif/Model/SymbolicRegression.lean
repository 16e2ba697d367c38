import Verif.Model.Score
import Verif.Model.Primitives
import Verif.Model.GPOperators

/-!
# The symbolic regression example

`examples/treegp/basic_mode/symbolic_regression.py` and `typed_symbolic_regression.py`, whose evaluators are the same: the evaluator, which executes programs on columns of floats, with the
functions of `Verif.Model.Primitives`, whose results are rounded and may overflow.
-/

namespace Verif.SymReg
open Verif.Prim

/-- A row of the data frame without its target; `np.random.uniform(-100, 100)` returns finite numbers —
symbolic_regression.py:41-42. -/
structure Point where
  x : ℝ
  y : ℝ
  z : ℝ

/-- The functions of the example — symbolic_regression.py:105-117. -/
def ops : List Op := [.add, .mul, .sub, .div, .sqrt, .log, .abs, .max, .min, .inv, .neg]

/-- The function with the given place in `ops`. -/
def fn (k : Nat) : GP.Fn := ⟨k, List.replicate ((ops.getD k .add).arity) none, none⟩

/-- Which function of the module a function of a tree is. -/
def opOf (f : GP.Fn) : Op := ops.getD f.id .add

/-- The variables as terminals. -/
def varX : GP.Val := ⟨0, .str "x"⟩
/-- The second variable. -/
def varY : GP.Val := ⟨1, .str "y"⟩
/-- The third variable. -/
def varZ : GP.Val := ⟨2, .str "z"⟩

/-- The function and terminal sets and the ERC range — symbolic_regression.py:105-120, 129. -/
def gpCfg : GP.Cfg where
  functionSet := (List.range ops.length).map fn
  terminalSet := [(varX, none), (varY, none), (varZ, none)]
  erc := some ⟨-1, 1, true⟩
  rootType := none

/-- The same function with annotations — typed_symbolic_regression.py:105-117, eckity/base/typed_functions.py:11-65 (the bodies are those of the
untyped functions). -/
def typedFn (k : Nat) : GP.Fn := ⟨k, List.replicate ((ops.getD k .add).arity) (some .float), some .float⟩

/-- The function and terminal sets, the ERC range and the root type — typed_symbolic_regression.py:105-120, 125-132. -/
def typedCfg : GP.Cfg where
  functionSet := (List.range ops.length).map typedFn
  terminalSet := [(varX, some .float), (varY, some .float), (varZ, some .float)]
  erc := some ⟨-1, 1, true⟩
  rootType := some .float

/-- The keyword arguments of the call of `execute` — symbolic_regression.py:78-80. -/
def kwargs (D : List Point) : List (String × Arr Num) :=
  [("x", .vec (D.map fun p => .fin p.x)), ("y", .vec (D.map fun p => .fin p.y)), ("z", .vec (D.map fun p => .fin p.z))]

/-- `target_func` — symbolic_regression.py:61. -/
noncomputable def target (rnd : ℝ → Num) (p : Point) : Num :=
  add rnd (add rnd (.fin p.x) (mul rnd (.fin 2) (.fin p.y))) (mul rnd (.fin 3) (.fin p.z))

/-- Is it NaN? -/
def isNaN : Num → Bool
  | .nan => true
  | _ => false

/-- The real number; 0 for the others. -/
def realOf : Num → ℝ
  | .fin x => x
  | _ => 0

/-- Is it finite? -/
def isFin : Num → Bool
  | .fin _ => true
  | _ => false

/-- `np.mean` of a pandas `Series` of absolute values, which is `Series.mean` with `skipna=True`: NaNs are left out; if
nothing is left, the mean is NaN.  Simplification: the mean of finite numbers is exact. -/
noncomputable def seriesMean (l : List Num) : Num :=
  let v := l.filter fun x => !isNaN x
  if v = [] then .nan
  else if v.all isFin then .fin ((v.map realOf).sum / v.length)
  else .posInf

/-- `individual.execute(x=x, y=y, z=z)` — symbolic_regression.py:80, tree_individual.py:249-283. -/
noncomputable def run (rnd : ℝ → Num) (lit : GP.Val → Num) (D : List Point) (i : GP.Ind) : Except Err (Arr Num) :=
  GP.execute (fun f => (opOf f).call rnd) (fun v => .scalar (lit v)) i.cfg i.tree (kwargs D)

/-- `np.abs(… - self.df["target"])`: one number per row — symbolic_regression.py:80. -/
noncomputable def errors (rnd : ℝ → Num) (D : List Point) (r : Arr Num) : Except Err (List Num) :=
  match map2 (sub rnd) r (.vec (D.map (target rnd))) with
  | .error e => .error e
  | .ok d => match map1 Prim.abs d with
    | .vec xs => .ok xs
    | .scalar x => .ok [x]

/-- `SymbolicRegressionEvaluator.evaluate_individual` — symbolic_regression.py:64-81. -/
noncomputable def evaluate (rnd : ℝ → Num) (lit : GP.Val → Num) (D : List Point) (i : GP.Ind) : Except Err Num :=
  match run rnd lit D i with
  | .error e => .error e
  | .ok r => match errors rnd D r with
    | .error e => .error e
    | .ok xs => .ok (seriesMean xs)

/-- The float of `Verif.Model.Score` is the number. -/
def Same : Score.F → Num → Prop
  | .num q, .fin x => (q : ℝ) = x
  | .posInf, .posInf => True
  | .negInf, .negInf => True
  | .nan, .nan => True
  | _, _ => False

end Verif.SymReg
