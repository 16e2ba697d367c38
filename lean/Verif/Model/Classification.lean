import Verif.Model.Regression
import Verif.Model.Classifier

/-!
# Classification with GP trees

`eckity/sklearn_compatible/classification_evaluator.py`, and `SklearnWrapper.fit` / `SKClassifier.predict`
(sklearn_wrapper.py:25-48, sk_classifier.py:11-37) around a `SimpleEvolution`.  Labels and outputs are exact rationals.
-/

namespace Verif.GP
open PyM Verif.Evo

/-- scikit-learn's `accuracy_score(y_true, y_pred)` for one-dimensional arrays of numbers: `ValueError` if the lengths
differ (an empty array does not pass `check_X_y`; its score is a `ValueError` here). -/
def accuracyScore (y p : List ℚ) : Except Err ℚ :=
  if y.length ≠ p.length then .error .valueError
  else if y = [] then .error .valueError
  else .ok (((y.zip p).countP fun (a : ℚ × ℚ) => decide (a.1 = a.2) : Nat) / (y.length : ℚ))

/-- The meaning of trees, what functions are called (`__name__`), and the arguments of the `ClassificationEvaluator`
(classification_evaluator.py:23-41); its `metric` is that of `Meaning`. -/
structure Clf extends Meaning where
  fnName : Fn → String
  method : Verif.Clf.Method
  nClasses : Nat

/-- `classify_individual` with `self.X` — classification_evaluator.py:80-108.  The root of a tree that is a terminal has
no attribute `function`; `_clf_sigmoid` with exact reals as in `Verif.Clf.sigmoidLabel`. -/
noncomputable def Clf.classify (C : Clf) (i : GP.Ind) (X : Mat) : Except Err (List ℚ) :=
  match C.method with
  | .sigmoid =>
    match C.output i X with
    | .error e => .error e
    | .ok os => .ok (os.map fun q : ℚ => (Verif.Clf.sigmoidLabel C.nClasses (.fin (q : ℝ)) : ℚ))
  | m =>
    match i.tree with
    | [] => .error .indexError
    | .term _ _ :: _ => .error .attributeError
    | .func g :: _ => if Verif.Clf.contained m.name (C.fnName g) then C.output i X else .error .valueError

/-- `ClassificationEvaluator.evaluate_individual` — classification_evaluator.py:60-78, with the data that `set_context`
(classification_evaluator.py:43-58) was given. -/
noncomputable def Clf.evaluate (C : Clf) (X : Mat) (y : List ℚ) (i : GP.Ind) : Except Err ℚ :=
  match C.classify i X with
  | .error e => .error e
  | .ok p => C.metric y p

/-- The algorithm after `sub_pop.evaluator.set_context((X, y))` for every sub-population — sklearn_wrapper.py:43-44. -/
noncomputable def Clf.withData {κ : Type} (C : Clf) (c : Evo.Cfg GP.Ind κ) (X : Mat) (y : List ℚ) : Evo.Cfg GP.Ind κ :=
  { c with subs := c.subs.map fun sub => { sub with evaluate := fun i t => (C.evaluate X y i, t) } }

/-- `SKClassifier(algorithm).fit(X, y)` — sklearn_wrapper.py:25-48: the data are checked (`check` is `check_X_y`), given
to the evaluators, and the algorithm evolves. -/
noncomputable def Clf.fit {κ : Type} (C : Clf) (check : Mat → List ℚ → Except Err (Mat × List ℚ)) (c : Evo.Cfg GP.Ind κ)
    (X : Mat) (y : List ℚ) : RM GP.Ind κ Unit := fun s =>
  match check X y with
  | .error e => (.error e, s)
  | .ok (X, y) => evolve (C.withData c X y) s

/-- `predict(X)` of a fitted classifier — sk_classifier.py:26-37: `classify_individual` of `best_of_run_` with the data of
the evaluator replaced. -/
noncomputable def Clf.predict {κ : Type} (C : Clf) (s : Run GP.Ind κ) (X : Mat) : Except Err (List ℚ) :=
  match s.bestOfRun with
  | none => .error .attributeError
  | some b =>
    match s.w.heap[b]? with
    | none => .error .attributeError
    | some i => C.classify i.genome X

/-- `score(X, y)`, which `SKClassifier` has from scikit-learn's `ClassifierMixin` (sk_classifier.py:10): the accuracy of
`predict(X)`. -/
noncomputable def Clf.score {κ : Type} (C : Clf) (s : Run GP.Ind κ) (X : Mat) (y : List ℚ) : Except Err ℚ :=
  match C.predict s X with
  | .error e => .error e
  | .ok p => accuracyScore y p

end Verif.GP
