import Verif.Model.Matrix
import Verif.Model.GPOperators
import Verif.Model.Evolution

/-!
# Regression with GP trees

`eckity/sklearn_compatible/regression_evaluator.py`, and `SklearnWrapper.fit` / `predict`
(sklearn_wrapper.py:25-70) around a `SimpleEvolution`.  Numbers are exact rationals.
-/

namespace Verif.GP
open PyM Verif.Evo

/-- scikit-learn's `mean_absolute_error(y_true, y_pred)` for one-dimensional arrays of exact numbers: `ValueError` if the
lengths differ or there is no sample. -/
def meanAbsoluteError (y p : List ℚ) : Except Err ℚ :=
  if y.length ≠ p.length then .error .valueError
  else if y = [] then .error .valueError
  else .ok ((List.zipWith (fun a b => |a - b|) y p).sum / y.length)

/-- What the functions of the trees and their terminals mean, and the `metric` of the evaluator (of the target and the
output of a tree; it may raise). -/
structure Meaning where
  sem : Fn → List MVal → Except Err MVal
  lit : Val → MVal
  metric : List ℚ → List ℚ → Except Err ℚ

/-- `individual.execute(X)`: an array (`Tree.execute` makes one of a scalar result). -/
def Meaning.output (M : Meaning) (i : GP.Ind) (X : Mat) : Except Err (List ℚ) :=
  match executeMat M.sem M.lit i.cfg i.tree X with
  | .error e => .error e
  | .ok (.col xs) => .ok xs
  | .ok (.num _) => .error .valueError

/-- `RegressionEvaluator.evaluate_individual` — regression_evaluator.py:59-78, with the data that `set_context`
(regression_evaluator.py:36-57) was given. -/
def Meaning.evaluate (M : Meaning) (X : Mat) (y : List ℚ) (i : GP.Ind) : Except Err ℚ :=
  match M.output i X with
  | .error e => .error e
  | .ok p => M.metric y p

/-- The algorithm after `sub_pop.evaluator.set_context((X, y))` for every sub-population — sklearn_wrapper.py:43-44. -/
def Meaning.withData {κ : Type} (M : Meaning) (c : Evo.Cfg GP.Ind κ) (X : Mat) (y : List ℚ) : Evo.Cfg GP.Ind κ :=
  { c with subs := c.subs.map fun sub => { sub with evaluate := fun i t => (M.evaluate X y i, t) } }

/-- `SKRegressor(algorithm).fit(X, y)` — sklearn_wrapper.py:25-48: the data are checked (`check` is `check_X_y`), given to
the evaluators, and the algorithm evolves. -/
def Meaning.fit {κ : Type} (M : Meaning) (check : Mat → List ℚ → Except Err (Mat × List ℚ)) (c : Evo.Cfg GP.Ind κ)
    (X : Mat) (y : List ℚ) : RM GP.Ind κ Unit := fun s =>
  match check X y with
  | .error e => (.error e, s)
  | .ok (X, y) => evolve (M.withData c X y) s

/-- `predict(X)` of a fitted regressor — sklearn_wrapper.py:70: `self.algorithm.best_of_run_.execute(X)`. -/
def Meaning.predict {κ : Type} (M : Meaning) (s : Run GP.Ind κ) (X : Mat) : Except Err (List ℚ) :=
  match s.bestOfRun with
  | none => .error .attributeError
  | some b =>
    match s.w.heap[b]? with
    | none => .error .attributeError
    | some i => M.output i.genome X

end Verif.GP
