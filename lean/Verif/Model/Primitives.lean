import Verif.Py.Basic
import Verif.Py.Num
import Mathlib.Analysis.SpecialFunctions.Log.Basic
import Mathlib.Analysis.SpecialFunctions.Trigonometric.Basic
import Mathlib.Data.Real.Sqrt
import Mathlib.Data.Int.Bitwise

/-!
# The functions of GP trees

`eckity/base/untyped_functions.py` and `eckity/base/typed_functions.py`.  The arguments are scalars or
one-dimensional arrays; numpy's broadcasting is modelled.  Items are numbers including the infinities and NaN;
the results of arithmetic operations are rounded by an arbitrary function `rnd`, which may overflow.
Simplifications: integer items behave like floats, except for the bitwise operations; the truth values that
`and2floats`, `or2floats`, `and2ints` and `or2ints` return are taken for the numbers 0 and 1, which is wrong when they are
arguments of other functions (`Dtypes` has the types); what is proved about whole trees therefore excludes them, see
`Op.Numeric`.
-/

namespace Verif.Prim
open Classical

/-- A scalar or a one-dimensional array. -/
inductive Arr (α : Type)
  | scalar (x : α)
  | vec (xs : List α)

namespace Arr
variable {α β γ δ : Type}

/-- `np.shape`: `none` for `()`, `some n` for `(n,)`. -/
def shape : Arr α → Option Nat
  | .scalar _ => none
  | .vec xs => some xs.length

/-- The item at an index of a broadcast array. -/
def item [Inhabited α] (a : Arr α) (i : Nat) : α :=
  match a with
  | .scalar x => x
  | .vec xs => if xs.length = 1 then xs.getD 0 default else xs.getD i default

/-- The array of a shape with given items. -/
def build (s : Option Nat) (f : Nat → α) : Arr α :=
  match s with
  | none => .scalar (f 0)
  | some n => .vec ((List.range n).map f)

end Arr

/-- `np.broadcast_shapes` for two shapes. -/
def broadcast (s t : Option Nat) : Except Err (Option Nat) :=
  match s, t with
  | none, t => .ok t
  | s, none => .ok s
  | some m, some n => if m = n then .ok (some m) else if m = 1 then .ok (some n) else if n = 1 then .ok (some m) else .error .valueError

section ufunc
variable {α β γ δ : Type} [Inhabited α] [Inhabited β] [Inhabited γ]

/-- A numpy function of one argument, applied item by item. -/
def map1 (f : α → β) (a : Arr α) : Arr β := .build a.shape fun i => f (a.item i)

/-- A numpy function of two arguments. -/
def map2 (f : α → β → γ) (a : Arr α) (b : Arr β) : Except Err (Arr γ) :=
  match broadcast a.shape b.shape with
  | .error e => .error e
  | .ok s => .ok (.build s fun i => f (a.item i) (b.item i))

/-- `np.where(c, x, y)` -/
def npWhere (c : Arr Bool) (x y : Arr α) : Except Err (Arr α) :=
  match broadcast c.shape x.shape with
  | .error e => .error e
  | .ok s => match broadcast s y.shape with
    | .error e => .error e
    | .ok s => .ok (.build s fun i => bif c.item i then x.item i else y.item i)

end ufunc

/-! ## Arithmetic of items -/

noncomputable instance : Inhabited Num := ⟨.nan⟩

/-- Infinity with the sign of a real number; NaN for 0. -/
noncomputable def infOf (x : ℝ) : Num := if 0 < x then .posInf else if x < 0 then .negInf else .nan

/-- `np.negative` -/
noncomputable def neg : Num → Num
  | .fin x => .fin (-x)
  | .posInf => .negInf
  | .negInf => .posInf
  | .nan => .nan

/-- `np.absolute` -/
noncomputable def abs : Num → Num
  | .fin x => .fin |x|
  | .posInf => .posInf
  | .negInf => .posInf
  | .nan => .nan

/-- `np.add` -/
noncomputable def add (rnd : ℝ → Num) : Num → Num → Num
  | .fin x, .fin y => rnd (x + y)
  | .nan, _ => .nan
  | _, .nan => .nan
  | .posInf, .negInf => .nan
  | .negInf, .posInf => .nan
  | .posInf, _ => .posInf
  | .negInf, _ => .negInf
  | _, .posInf => .posInf
  | _, .negInf => .negInf

/-- `np.subtract` -/
noncomputable def sub (rnd : ℝ → Num) (x y : Num) : Num := add rnd x (neg y)

/-- `np.multiply` -/
noncomputable def mul (rnd : ℝ → Num) : Num → Num → Num
  | .fin x, .fin y => rnd (x * y)
  | .nan, _ => .nan
  | _, .nan => .nan
  | .posInf, .fin y => infOf y
  | .negInf, .fin y => infOf (-y)
  | .fin x, .posInf => infOf x
  | .fin x, .negInf => infOf (-x)
  | .posInf, .posInf => .posInf
  | .negInf, .negInf => .posInf
  | .posInf, .negInf => .negInf
  | .negInf, .posInf => .negInf

/-- `np.divide` (0 is the positive zero). -/
noncomputable def div (rnd : ℝ → Num) : Num → Num → Num
  | .fin x, .fin y => if y = 0 then infOf x else rnd (x / y)
  | .nan, _ => .nan
  | _, .nan => .nan
  | .fin _, _ => .fin 0
  | .posInf, .fin y => if y < 0 then .negInf else .posInf
  | .negInf, .fin y => if y < 0 then .posInf else .negInf
  | _, _ => .nan

/-- `x <= y` -/
noncomputable def le : Num → Num → Bool
  | .nan, _ => false
  | _, .nan => false
  | .fin x, .fin y => decide (x ≤ y)
  | .negInf, _ => true
  | _, .posInf => true
  | _, _ => false

/-- `x > y` -/
noncomputable def gt : Num → Num → Bool
  | .nan, _ => false
  | _, .nan => false
  | .fin x, .fin y => decide (y < x)
  | .posInf, .posInf => false
  | .posInf, _ => true
  | .negInf, .negInf => false
  | _, .negInf => true
  | _, _ => false

/-- `np.maximum`: NaN if one of them is NaN. -/
noncomputable def maximum (x y : Num) : Num :=
  match x, y with
  | .nan, _ => .nan
  | _, .nan => .nan
  | x, y => bif le x y then y else x

/-- `np.minimum` -/
noncomputable def minimum (x y : Num) : Num :=
  match x, y with
  | .nan, _ => .nan
  | _, .nan => .nan
  | x, y => bif le x y then x else y

/-- `np.sqrt` -/
noncomputable def sqrt (rnd : ℝ → Num) : Num → Num
  | .fin x => if x < 0 then .nan else rnd (Real.sqrt x)
  | .posInf => .posInf
  | .negInf => .nan
  | .nan => .nan

/-- `np.log` -/
noncomputable def log (rnd : ℝ → Num) : Num → Num
  | .fin x => if x < 0 then .nan else if x = 0 then .negInf else rnd (Real.log x)
  | .posInf => .posInf
  | .negInf => .nan
  | .nan => .nan

/-- A real function that has no value at the infinities. -/
noncomputable def periodic (rnd : ℝ → Num) (f : ℝ → ℝ) : Num → Num
  | .fin x => rnd (f x)
  | _ => .nan

/-- `bool(x)` -/
noncomputable def truthy : Num → Bool
  | .fin x => decide (x ≠ 0)
  | _ => true

/-- A truth value as a number. -/
noncomputable def ofBool (b : Bool) : Num := bif b then .fin 1 else .fin 0

/-- The literal `0.001`: the nearest float. -/
noncomputable def tiny : ℝ := 1152921504606847 / 2 ^ 60

/-! ## The functions -/

section functions
variable (rnd : ℝ → Num)

/-- `f_div`, `div2floats` — untyped_functions.py:24-27, typed_functions.py:26-29 -/
noncomputable def fDiv (x y : Arr Num) : Except Err (Arr Num) := do
  let c := map1 (fun v => gt v (.fin tiny)) (map1 abs y)
  let q ← map2 (div rnd) x y
  npWhere c q (.scalar (.fin 0))

/-- `f_sqrt`, `sqrt_float` — untyped_functions.py:30-32, typed_functions.py:32-34 -/
noncomputable def fSqrt (x : Arr Num) : Arr Num := map1 (sqrt rnd) (map1 abs x)

/-- `f_log`, `log_float` — untyped_functions.py:35-38, typed_functions.py:37-40 -/
noncomputable def fLog (x : Arr Num) : Except Err (Arr Num) :=
  npWhere (map1 (fun v => gt v (.fin tiny)) (map1 abs x)) (map1 (log rnd) (map1 abs x)) (.scalar (.fin 0))

/-- `f_inv`, `inv_float` — untyped_functions.py:51-53, typed_functions.py:53-55 -/
noncomputable def fInv (x : Arr Num) : Except Err (Arr Num) := fDiv rnd (.scalar (.fin 1)) x

/-- `f_iflte0`, `iflte0_floats` — untyped_functions.py:81-83, typed_functions.py:83-85 -/
noncomputable def fIflte0 (x y z : Arr Num) : Except Err (Arr Num) := npWhere (map1 (fun v => le v (.fin 0)) x) y z

/-- `f_ifgt0`, `ifgt0_floats` — untyped_functions.py:86-88, typed_functions.py:88-90 -/
noncomputable def fIfgt0 (x y z : Arr Num) : Except Err (Arr Num) := npWhere (map1 (fun v => gt v (.fin 0)) x) y z

/-- `f_iflte`, `iflte_floats` — untyped_functions.py:91-93, typed_functions.py:93-95 -/
noncomputable def fIflte (x y z w : Arr Num) : Except Err (Arr Num) := do
  let c ← map2 le x y
  npWhere c z w

/-- `f_ifgt`, `ifgt_floats` — untyped_functions.py:96-98, typed_functions.py:98-100 -/
noncomputable def fIfgt (x y z w : Arr Num) : Except Err (Arr Num) := do
  let c ← map2 gt x y
  npWhere c z w

/-- `f_if_then_else`, `if_then_else` — untyped_functions.py:116-118, typed_functions.py:118-120 -/
noncomputable def fIfThenElse (x y z : Arr Num) : Except Err (Arr Num) := npWhere (map1 truthy x) y z

/-- `np.argmax` of two numbers: the first NaN counts as the maximum, the first of equals wins. -/
noncomputable def argmaxItem : Num → Num → Num
  | .nan, _ => .fin 0
  | _, .nan => .fin 1
  | a, b => bif gt b a then .fin 1 else .fin 0

/-- `argmax2floats` — typed_functions.py:123-124: the list of the two arguments must become an array, so they must
have the same shape. -/
noncomputable def argmax2 (x y : Arr Num) : Except Err (Arr Num) :=
  if x.shape = y.shape then
    map2 argmaxItem x y
  else .error .valueError

end functions

/-- The numeric functions of both modules. -/
inductive Op
  | add | sub | mul | div | sqrt | log | abs | neg | inv | max | min | sin | cos | tan
  | iflte0 | ifgt0 | iflte | ifgt | not | ifThenElse
  | logicalAnd | logicalOr
  | argmax
deriving DecidableEq

/-- The number of arguments. -/
def Op.arity : Op → Nat
  | .add | .sub | .mul | .div | .max | .min | .logicalAnd | .logicalOr | .argmax => 2
  | .sqrt | .log | .abs | .neg | .inv | .sin | .cos | .tan | .not => 1
  | .iflte0 | .ifgt0 | .ifThenElse => 3
  | .iflte | .ifgt => 4

/-- Functions of numbers that return numbers for scalars and columns: all but the logical functions of floats and ints,
which return truth values (C168), and `argmax2floats`, which raises when a constant meets a column (C73). -/
def Op.Numeric (op : Op) : Prop := op ≠ .argmax ∧ op ≠ .logicalAnd ∧ op ≠ .logicalOr

instance (op : Op) : Decidable op.Numeric := inferInstanceAs (Decidable (_ ∧ _))

/-- Calling a function with a list of arguments — untyped_functions.py:9-118 (all but `f_and`, `f_or`) and
typed_functions.py:11-142 (the functions for floats; `logicalAnd` and `logicalOr` are `and2floats`, `or2floats`,
`and2ints`, `or2ints`).  A wrong number of arguments raises `TypeError`. -/
noncomputable def Op.call (rnd : ℝ → Num) : Op → List (Arr Num) → Except Err (Arr Num)
  | .add, [x, y] => map2 (Prim.add rnd) x y
  | .sub, [x, y] => map2 (Prim.sub rnd) x y
  | .mul, [x, y] => map2 (Prim.mul rnd) x y
  | .div, [x, y] => fDiv rnd x y
  | .sqrt, [x] => .ok (fSqrt rnd x)
  | .log, [x] => fLog rnd x
  | .abs, [x] => .ok (map1 Prim.abs x)
  | .neg, [x] => .ok (map1 Prim.neg x)
  | .inv, [x] => fInv rnd x
  | .max, [x, y] => map2 maximum x y
  | .min, [x, y] => map2 minimum x y
  | .sin, [x] => .ok (map1 (periodic rnd Real.sin) x)
  | .cos, [x] => .ok (map1 (periodic rnd Real.cos) x)
  | .tan, [x] => .ok (map1 (periodic rnd Real.tan) x)
  | .iflte0, [x, y, z] => fIflte0 x y z
  | .ifgt0, [x, y, z] => fIfgt0 x y z
  | .iflte, [x, y, z, w] => fIflte x y z w
  | .ifgt, [x, y, z, w] => fIfgt x y z w
  | .not, [x] => .ok (map1 (fun v => ofBool (!truthy v)) x)
  | .ifThenElse, [x, y, z] => fIfThenElse x y z
  | .logicalAnd, [x, y] => map2 (fun a b => ofBool (truthy a && truthy b)) x y
  | .logicalOr, [x, y] => map2 (fun a b => ofBool (truthy a || truthy b)) x y
  | .argmax, [x, y] => argmax2 x y
  | _, _ => .error .typeError

/-! ## The bitwise functions -/

/-- An item with its type. -/
inductive Item
  | bool (b : Bool)
  | int (z : ℤ)
  | float (q : ℚ)
deriving DecidableEq

/-- `bool(x)` -/
def Item.truthy : Item → Bool
  | .bool b => b
  | .int z => decide (z ≠ 0)
  | .float q => decide (q ≠ 0)

/-- The integer that a bool becomes beside an integer. -/
def Item.toInt : Item → ℤ
  | .bool b => bif b then 1 else 0
  | .int z => z
  | .float _ => 0

/-- `f_and`, `and2bools`: `np.bitwise_and` — untyped_functions.py:101-103, typed_functions.py:147-149.  There is no
such operation for floats. -/
def fAnd (x y : Item) : Except Err Item :=
  match x, y with
  | .float _, _ => .error .typeError
  | _, .float _ => .error .typeError
  | .bool a, .bool b => .ok (.bool (a && b))
  | x, y => .ok (.int (x.toInt.land y.toInt))

/-- `f_or`, `or2bools`: `np.bitwise_or` — untyped_functions.py:106-108, typed_functions.py:152-154 -/
def fOr (x y : Item) : Except Err Item :=
  match x, y with
  | .float _, _ => .error .typeError
  | _, .float _ => .error .typeError
  | .bool a, .bool b => .ok (.bool (a || b))
  | x, y => .ok (.int (x.toInt.lor y.toInt))

/-- `f_not`, `not2ints` — untyped_functions.py:111-113, typed_functions.py:137-139 -/
def fNot (x : Item) : Item := .int (bif x.truthy then 0 else 1)

end Verif.Prim
