import Verif.Model.Primitives
import Verif.Model.Matrix
import Verif.Model.GPOperators
import Verif.Model.Evolution

/-!
# Fitting a regressor with the numeric functions to arrays of floats

`SklearnWrapper.fit` and `predict` (sklearn_wrapper.py:25-70) and `RegressionEvaluator`
(regression_evaluator.py:36-78) as in `Verif.Model.Regression`, but with the functions of `Verif.Model.Primitives`, whose
results are rounded and may overflow.
-/

namespace Verif.FloatFit
open PyM Verif.Evo Verif.Prim

/-- A two-dimensional array of floats. -/
structure FMat where
  nrows : Nat
  ncols : Nat
  entry : Nat → Nat → Num

/-- `X[:, i]` -/
def FMat.column (X : FMat) (i : Nat) : Arr Num := .vec ((List.range X.nrows).map fun r => X.entry r i)

/-- `generate_args(X)` — utils.py:66 -/
def FMat.args (X : FMat) : List (String × Arr Num) := (List.range X.ncols).map fun i => (GP.colName i, X.column i)

/-- The number is neither infinite nor NaN. -/
def isFinite : Num → Prop
  | .fin _ => True
  | _ => False

/-- How arithmetic is rounded, which of the numeric functions the functions of trees are, the numbers that constants
are, and the `metric` of the evaluator for arrays of real numbers of one length (the value is a float, hence rational). -/
structure Reg where
  rnd : ℝ → Num
  op : GP.Fn → Op
  lit : GP.Val → Num
  metric : List ℝ → List ℝ → ℚ

/-- `individual.execute(X)` — tree_individual.py:249-283, with a float array. -/
noncomputable def Reg.output (R : Reg) (i : GP.Ind) (X : FMat) : Except Err (List Num) :=
  match GP.execute (fun f => (R.op f).call R.rnd) (fun v => .scalar (R.lit v)) i.cfg i.tree X.args with
  | .error e => .error e
  | .ok (.vec xs) => .ok xs
  | .ok (.scalar x) => if X.ncols = 0 then .error .indexError else .ok (List.replicate X.nrows x)

/-- The real numbers that a list of floats consists of, if they are all finite. -/
def reals : List Num → Option (List ℝ)
  | [] => some []
  | .fin x :: l => (reals l).map (x :: ·)
  | _ :: _ => none

/-- The `metric` as scikit-learn's regression metrics work: `ValueError` if the lengths differ, if there is no sample, and
if one of the numbers is infinite or NaN (`check_array` in `_check_reg_targets`). -/
def Reg.score (R : Reg) (y p : List Num) : Except Err ℚ :=
  if y.length ≠ p.length then .error .valueError
  else if y = [] then .error .valueError
  else
    match reals y, reals p with
    | some ys, some ps => .ok (R.metric ys ps)
    | _, _ => .error .valueError

/-- `RegressionEvaluator.evaluate_individual` — regression_evaluator.py:59-78. -/
noncomputable def Reg.evaluate (R : Reg) (X : FMat) (y : List Num) (i : GP.Ind) : Except Err ℚ :=
  match R.output i X with
  | .error e => .error e
  | .ok p => R.score y p

/-- What scikit-learn's `check_X_y` accepts: at least one sample and one feature, as many targets as samples, nothing but
finite numbers. -/
structure Accepted (X : FMat) (y : List Num) : Prop where
  samples : 0 < X.nrows
  features : 0 < X.ncols
  lengths : y.length = X.nrows
  entries : ∀ r < X.nrows, ∀ k < X.ncols, isFinite (X.entry r k)
  targets : ∀ a ∈ y, isFinite a

/-- The algorithm after `sub_pop.evaluator.set_context((X, y))` for every sub-population — sklearn_wrapper.py:43-44. -/
noncomputable def Reg.withData {κ : Type} (R : Reg) (c : Evo.Cfg GP.Ind κ) (X : FMat) (y : List Num) : Evo.Cfg GP.Ind κ :=
  { c with subs := c.subs.map fun sub => { sub with evaluate := fun i t => (R.evaluate X y i, t) } }

open Classical in
/-- `SKRegressor(algorithm).fit(X, y)` — sklearn_wrapper.py:25-48. -/
noncomputable def Reg.fit {κ : Type} (R : Reg) (c : Evo.Cfg GP.Ind κ) (X : FMat) (y : List Num) : RM GP.Ind κ Unit := fun s =>
  if Accepted X y then evolve (R.withData c X y) s else (.error .valueError, s)

/-- `predict(X)` of a fitted regressor — sklearn_wrapper.py:70. -/
noncomputable def Reg.predict {κ : Type} (R : Reg) (s : Run GP.Ind κ) (X : FMat) : Except Err (List Num) :=
  match s.bestOfRun with
  | none => .error .attributeError
  | some b =>
    match s.w.heap[b]? with
    | none => .error .attributeError
    | some i => R.output i.genome X

end Verif.FloatFit
