import Verif.Model.FloatFit
import Verif.Model.Classifier

/-!
# Fitting a classifier with the numeric functions to arrays of floats

`SklearnWrapper.fit` (sklearn_wrapper.py:25-48), `SKClassifier.predict` (sk_classifier.py:11-37) and
`ClassificationEvaluator` with the method `sigmoid` (classification_evaluator.py:60-94), as in
`Verif.Model.Classification`, but with the functions of `Verif.Model.Primitives`, whose results are rounded and may
overflow.
-/

namespace Verif.FloatFit
open PyM Verif.Evo

/-- `_clf_sigmoid` — classification_evaluator.py:89-94, with the thresholds and the sigmoid function in exact reals as in
`Verif.Clf.sigmoidLabel`.  The `metric` of `Reg` is not used here. -/
noncomputable def Reg.labels (R : Reg) (nClasses : Nat) (i : GP.Ind) (X : FMat) : Except Err (List Nat) :=
  match R.output i X with
  | .error e => .error e
  | .ok os => .ok (os.map (Verif.Clf.sigmoidLabel nClasses))

/-- The float is a whole number that fits into 64 bits: what scikit-learn's `type_of_target` takes for a class. -/
def isClass (a : Num) : Prop := ∃ k : ℤ, -2 ^ 63 ≤ k ∧ k < 2 ^ 63 ∧ a = .fin (k : ℝ)

/-- Whether the label of a sample is its target. -/
def agrees (a : Num) (l : Nat) : Prop := a = .fin (l : ℝ)

open Classical in
/-- scikit-learn's `accuracy_score(y_true, y_pred)` for an array of floats and one of whole numbers: `ValueError` if the
lengths differ, if there is no sample, and if the targets are continuous (then they are not compared with classes). -/
noncomputable def accuracy (y : List Num) (p : List Nat) : Except Err ℚ :=
  if y.length ≠ p.length then .error .valueError
  else if y = [] then .error .valueError
  else if ∃ a ∈ y, ¬ isClass a then .error .valueError
  else .ok (((y.zip p).countP fun a : Num × Nat => decide (agrees a.1 a.2) : Nat) / (y.length : ℚ))

/-- `ClassificationEvaluator.evaluate_individual` — classification_evaluator.py:60-78, with the default metric. -/
noncomputable def Reg.accuracyOf (R : Reg) (nClasses : Nat) (X : FMat) (y : List Num) (i : GP.Ind) : Except Err ℚ :=
  match R.labels nClasses i X with
  | .error e => .error e
  | .ok p => accuracy y p

/-- The algorithm after `sub_pop.evaluator.set_context((X, y))` for every sub-population — sklearn_wrapper.py:43-44. -/
noncomputable def Reg.withClasses {κ : Type} (R : Reg) (nClasses : Nat) (c : Evo.Cfg GP.Ind κ) (X : FMat) (y : List Num) :
    Evo.Cfg GP.Ind κ :=
  { c with subs := c.subs.map fun sub => { sub with evaluate := fun i t => (R.accuracyOf nClasses X y i, t) } }

open Classical in
/-- `SKClassifier(algorithm).fit(X, y)` — sklearn_wrapper.py:25-48. -/
noncomputable def Reg.fitClasses {κ : Type} (R : Reg) (nClasses : Nat) (c : Evo.Cfg GP.Ind κ) (X : FMat) (y : List Num) :
    RM GP.Ind κ Unit := fun s =>
  if Accepted X y then evolve (R.withClasses nClasses c X y) s else (.error .valueError, s)

/-- `predict(X)` of a fitted classifier — sk_classifier.py:26-37. -/
noncomputable def Reg.predictClasses {κ : Type} (R : Reg) (nClasses : Nat) (s : Run GP.Ind κ) (X : FMat) :
    Except Err (List Nat) :=
  match s.bestOfRun with
  | none => .error .attributeError
  | some b =>
    match s.w.heap[b]? with
    | none => .error .attributeError
    | some i => R.labels nClasses i.genome X

/-- `score(X, y)`, which `SKClassifier` has from scikit-learn's `ClassifierMixin` (sk_classifier.py:10). -/
noncomputable def Reg.scoreClasses {κ : Type} (R : Reg) (nClasses : Nat) (s : Run GP.Ind κ) (X : FMat) (y : List Num) :
    Except Err ℚ :=
  match R.predictClasses nClasses s X with
  | .error e => .error e
  | .ok p => accuracy y p

end Verif.FloatFit
