import Verif.Py.Random

/-!
# GP nodes, functions, terminals
Models `eckity/genetic_encodings/gp/tree/tree_node.py`, the type helpers of
`eckity/genetic_encodings/gp/tree/utils.py` and `eckity/base/utils.py`.
-/

namespace Verif.GP

/-- Python classes used as node types.  `cls id numeric` is any other class; `numeric` tells whether
it is a subclass of `numbers.Number`. -/
inductive Ty
  | int | float | bool | str
  | cls (id : Nat) (numeric : Bool)
deriving DecidableEq, Repr

/-- `issubclass(t, numbers.Number)` -/
def Ty.isNumber : Ty → Bool
  | .int | .float | .bool => true
  | .str => false
  | .cls _ n => n

/-- The content of a Python object used as a terminal. -/
inductive Data
  | str (s : String)
  | int (z : ℤ)
  | float (q : ℚ)
  | bool (b : Bool)
  | obj (n : Nat) (ty : Ty)
deriving DecidableEq

/-- `type(x)` -/
def Data.type : Data → Ty
  | .str _ => .str
  | .int _ => .int
  | .float _ => .float
  | .bool _ => .bool
  | .obj _ ty => ty

/-- Numeric value, if the object is a number (int, float or bool). -/
def Data.num? : Data → Option ℚ
  | .int z => some z
  | .float q => some q
  | .bool b => some (if b then 1 else 0)
  | _ => none

/-- `isinstance(x, Number)` -/
def Data.isNumber (d : Data) : Bool := d.type.isNumber

/-- Python `==` on terminals: numbers compare by value (`1 == 1.0 == True`), everything else
structurally. -/
def Data.pyEq (a b : Data) : Bool :=
  match a.num?, b.num? with
  | some x, some y => decide (x = y)
  | _, _ => decide (a = b)

/-- A Python object: an identity and a content.  `a is b` is `a = b` here (equal identity and
content). -/
structure Val where
  ref : Nat
  data : Data
deriving DecidableEq

/-- A Python function used as an internal node: its identity, the annotation of every positional
parameter and the return annotation (`none` = not annotated).
Simplification: only positional parameters are modelled. -/
structure Fn where
  id : Nat
  params : List (Option Ty)
  ret : Option Ty
deriving DecidableEq, Repr

/-- `arity(func) = len(getfullargspec(func)[0])` — eckity/base/utils.py:9-21 -/
def Fn.arity (f : Fn) : Nat := f.params.length

/-- `list(get_type_hints(f).values())`: the hints that are present, in order, return type last. -/
def Fn.hints (f : Fn) : List (Option Ty) := (f.params ++ [f.ret]).filter Option.isSome

/-- `get_func_types` — eckity/genetic_encodings/gp/tree/utils.py:69-103 -/
def getFuncTypes (f : Fn) : List (Option Ty) :=
  if f.hints = [] then List.replicate (f.arity + 1) none else f.hints

/-- `get_return_type` — eckity/genetic_encodings/gp/tree/utils.py:106-107 -/
def getReturnType (f : Fn) : Option Ty := f.ret

/-- `TreeNode`, `FunctionNode`, `TerminalNode` — eckity/genetic_encodings/gp/tree/tree_node.py:11-102.
A function node only stores the function (its `node_type` and `n_args` are computed from it in the
constructor).  Structural equality is exactly `__eq__` (lines 28-31, 58-77, 94-99): same type and
same function / identical (`is`) value.
Simplification: node objects are values; two trees never share a mutable node object. -/
inductive Node
  | func (f : Fn)
  | term (v : Val) (ty : Option Ty)
deriving DecidableEq

/-- `FunctionNode.__init__` — eckity/genetic_encodings/gp/tree/tree_node.py:38-55.
Raises `ValueError` for a partially annotated function. -/
def mkFunctionNode (f : Fn) : Except Err Node :=
  let n := (getFuncTypes f).length
  if 0 < n ∧ n < f.arity + 1 then .error .valueError else .ok (.func f)

/-- `node.node_type` — tree_node.py:21-22, 43-44, 90 -/
def Node.type : Node → Option Ty
  | .func f => (getFuncTypes f).getLast?.join
  | .term _ ty => ty

/-- `isinstance(node, TerminalNode) and isinstance(node.value, Number)` -/
def Node.isNumericTerminal : Node → Bool
  | .func _ => false
  | .term v _ => v.data.isNumber

end Verif.GP
