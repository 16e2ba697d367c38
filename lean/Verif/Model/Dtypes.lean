import Verif.Model.Primitives

/-!
# The functions of GP trees, with the types of their results

`Primitives` treats the results of `and2floats`, `or2floats`, `and2ints` and `or2ints` as numbers.  They are numpy
arrays of truth values, for which the functions of numpy have meanings of their own: the sum is the disjunction, the
product the conjunction, and there is no difference and no negative.  Here values carry their type.  Simplifications:
integers behave like floats (as in `Primitives`); the half precision results of `np.sqrt`, `np.log` and the
trigonometric functions of truth values are rounded by the same arbitrary function as all others; the arguments are
numpy arrays or scalars (a pandas series of truth values has a negative).
-/

namespace Verif.Prim

/-- A scalar or an array with its type: truth values, or numbers. -/
inductive TArr
  | bools (a : Arr Bool)
  | nums (a : Arr Num)

/-- `a.dtype == bool` -/
def TArr.isBool : TArr → Bool
  | .bools _ => true
  | .nums _ => false

/-- The values as numbers: where numpy has no loop for truth values, it converts them. -/
noncomputable def TArr.toNum : TArr → Arr Num
  | .bools a => map1 ofBool a
  | .nums a => a

/-- The values as truth values. -/
noncomputable def TArr.truth : TArr → Arr Bool
  | .bools a => a
  | .nums a => map1 truthy a

/-- Calling a function with a list of arguments — untyped_functions.py:9-118 (all but `f_and`, `f_or`) and
typed_functions.py:11-142.  For truth values `np.add` and `np.maximum` are `or`, `np.multiply` and `np.minimum` are
`and`, `np.absolute` does nothing, and `np.subtract` and `np.negative` raise `TypeError`; `np.where` of two arrays of
truth values is one; `np.logical_and` and `np.logical_or` return truth values.  All other functions convert their
arguments to numbers (`not2floats` and `f_not` convert their result). -/
noncomputable def Op.callT (rnd : ℝ → Num) (op : Op) (args : List TArr) : Except Err TArr :=
  match op, args with
  | .add, [.bools x, .bools y] => (map2 (· || ·) x y).map .bools
  | .mul, [.bools x, .bools y] => (map2 (· && ·) x y).map .bools
  | .max, [.bools x, .bools y] => (map2 (· || ·) x y).map .bools
  | .min, [.bools x, .bools y] => (map2 (· && ·) x y).map .bools
  | .abs, [.bools x] => .ok (.bools x)
  | .sub, [.bools _, .bools _] => .error .typeError
  | .neg, [.bools _] => .error .typeError
  | .iflte0, [x, .bools y, .bools z] => (npWhere (map1 (fun v => le v (.fin 0)) x.toNum) y z).map .bools
  | .ifgt0, [x, .bools y, .bools z] => (npWhere (map1 (fun v => gt v (.fin 0)) x.toNum) y z).map .bools
  | .iflte, [x, y, .bools z, .bools w] => (map2 le x.toNum y.toNum >>= fun c => npWhere c z w).map .bools
  | .ifgt, [x, y, .bools z, .bools w] => (map2 gt x.toNum y.toNum >>= fun c => npWhere c z w).map .bools
  | .ifThenElse, [x, .bools y, .bools z] => (npWhere x.truth y z).map .bools
  | .logicalAnd, [x, y] => (map2 (· && ·) x.truth y.truth).map .bools
  | .logicalOr, [x, y] => (map2 (· || ·) x.truth y.truth).map .bools
  | op, args => (op.call rnd (args.map TArr.toNum)).map .nums

end Verif.Prim
