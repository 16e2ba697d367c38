import Verif.Py.Basic
import Verif.Py.Num
import Mathlib.Analysis.SpecialFunctions.Sigmoid

/-!
# Classification and scikit-learn estimators

`eckity/sklearn_compatible/classification_evaluator.py`, `sklearn_wrapper.py`, `sk_classifier.py`,
`regression_evaluator.py`.  Numbers are exact reals, extended by the infinities and NaN.
-/

namespace Verif.Clf

/-- `scipy.special.expit`: a number between 0 and 1, or NaN (`none`). -/
noncomputable def expit : Num → Option ℝ
  | .fin x => some (Real.sigmoid x)
  | .posInf => some 1
  | .negInf => some 0
  | .nan => none

/-- `np.linspace(0, 1, num)`: `num` equidistant points (only 0 for `num = 1`). -/
noncomputable def linspace (num : Nat) : List ℝ :=
  (List.range num).map fun k : Nat => if num = 1 then 0 else (k : ℝ) / ((num - 1 : Nat) : ℝ)

/-- `np.linspace(0, 1, n_classes + 1)[1:-1]` — classification_evaluator.py:93. -/
noncomputable def thresholds (nClasses : Nat) : List ℝ := ((linspace (nClasses + 1)).drop 1).dropLast

open Classical in
/-- `np.digitize(p, bins)` for increasing bins: the number of bins at or below `p`; NaN comes after all bins. -/
noncomputable def digitize (bins : List ℝ) : Option ℝ → Nat
  | none => bins.length
  | some p => bins.countP fun b => decide (b ≤ p)

/-- `ClassificationEvaluator._clf_sigmoid`, for one output of the tree — classification_evaluator.py:89-94.
`n_classes` is not negative here.  Simplification: exact reals instead of floats, so outputs whose sigmoid differs from a
threshold by less than a rounding error may get the neighbouring label in the code. -/
noncomputable def sigmoidLabel (nClasses : Nat) (out : Num) : Nat := digitize (thresholds nClasses) (expit out)

/-- An individual as the evaluator sees it: the name of the root's function (`none` if the root is a terminal) and
what `execute(X)` returns. -/
structure Prog (X : Type) where
  rootName : Option String
  execute : X → Except Err (List Num)

/-- The `clf_method`s — classification_evaluator.py:14. -/
inductive Method
  | sigmoid
  | argmax
  | softmax
deriving DecidableEq

/-- What is searched for in the name of the root's function. -/
def Method.name : Method → String
  | .sigmoid => "sigmoid"
  | .argmax => "argmax"
  | .softmax => "softmax"

/-- `s in t` for strings. -/
def contained (s t : String) : Bool := t.toList.tails.any (s.toList.isPrefixOf ·)

/-- `ClassificationEvaluator.__init__`, the check of `clf_method` — classification_evaluator.py:37-41. -/
def newMethod (name : String) : Except Err Method :=
  if name = "sigmoid" then .ok .sigmoid
  else if name = "argmax" then .ok .argmax
  else if name = "softmax" then .ok .softmax
  else .error .valueError

/-- The result of classifying: labels, or what the tree returned. -/
inductive Labels
  | labels (ls : List Nat)
  | raw (os : List Num)

/-- `_clf_root_func` — classification_evaluator.py:102-108. -/
def rootFunc {X : Type} (m : Method) (p : Prog X) (x : X) : Except Err Labels :=
  match p.rootName with
  | none => .error .attributeError
  | some name =>
    if contained m.name name then
      match p.execute x with
      | .error e => .error e
      | .ok os => .ok (.raw os)
    else .error .valueError

/-- `classify_individual` — classification_evaluator.py:80-100.  `x` is `self.X`. -/
noncomputable def classify {X : Type} (m : Method) (nClasses : Nat) (p : Prog X) (x : X) : Except Err Labels :=
  match m with
  | .sigmoid => match p.execute x with
    | .error e => .error e
    | .ok os => .ok (.labels (os.map (sigmoidLabel nClasses)))
  | m => rootFunc m p x

/-! ## Estimators -/

/-- An individual evaluator: its data.  `none` is `None`. -/
structure Context (X Y : Type) where
  x : Option X
  y : Option Y

/-- The wrapped algorithm: the evaluator of each sub-population and `best_of_run_`. -/
structure Alg (X Y : Type) where
  ctx : List (Context X Y)
  best : Option (Prog X)

/-- An estimator; `fitted` if the attribute `is_fitted_` exists. -/
structure Est (X Y : Type) where
  alg : Alg X Y
  fitted : Bool

variable {X Y : Type}

/-- What is fixed for an estimator: scikit-learn's `check_X_y`, what `algorithm.evolve()` does with the
algorithm, and for classifiers the method and the number of classes. -/
structure Cfg (X Y : Type) where
  check : X → Y → Except Err (X × Y)
  evolve : Alg X Y → Except Err Unit × Alg X Y
  method : Method
  nClasses : Nat

/-- `SklearnWrapper.fit` — sklearn_wrapper.py:25-48. -/
def fit (c : Cfg X Y) (x : X) (y : Y) : PyM (Est X Y) Unit := fun s =>
  match c.check x y with
  | .error e => (.error e, s)
  | .ok (x, y) =>
    match c.evolve { s.alg with ctx := s.alg.ctx.map fun _ => ⟨some x, some y⟩ } with
    | (.error e, a) => (.error e, { s with alg := a })
    | (.ok _, a) => (.ok (), ⟨a, true⟩)

/-- `SklearnWrapper.predict` — sklearn_wrapper.py:50-70.  `NotFittedError` is a `ValueError`. -/
def predict (x : X) : PyM (Est X Y) (List Num) := fun s =>
  if s.fitted then
    match s.alg.best with
    | none => (.error .attributeError, s)
    | some p => (p.execute x, s)
  else (.error .valueError, s)

/-- `SKClassifier.predict` — sk_classifier.py:11-37 with `SimpleEvolution.get_individual_evaluator`
(simple_evolution.py:227-228): sets the data of the first evaluator, then classifies with it. -/
noncomputable def clfPredict (c : Cfg X Y) (x : X) : PyM (Est X Y) Labels := fun s =>
  if s.fitted then
    match s.alg.ctx with
    | [] => (.error .indexError, s)
    | _ :: rest =>
      let s := { s with alg := { s.alg with ctx := ⟨some x, none⟩ :: rest } }
      match s.alg.best with
      | none => (.error .attributeError, s)
      | some p => (classify c.method c.nClasses p x, s)
  else (.error .valueError, s)

end Verif.Clf
