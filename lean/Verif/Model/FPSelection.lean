import Verif.Model.Selection
import Mathlib.Analysis.SpecialFunctions.Exp

/-!
# Fitness-proportionate selection

`eckity/genetic_operators/selections/fp_selection.py`.  Numbers are exact reals.
-/

namespace Verif.Evo
open PyM Classical
variable {G : Type}

/-- `scipy.special.softmax`.  (scipy subtracts the maximum from all scores first, which does not change the exact
result.) -/
noncomputable def softmax (xs : List ℝ) : List ℝ := xs.map fun x => Real.exp x / (xs.map Real.exp).sum

/-- The smoothing term — fp_selection.py:51. -/
noncomputable def smoothing (least : ℝ) : ℝ := if least = 0 then 1 else 0

/-- The scores that are turned into a distribution — fp_selection.py:48-52. -/
noncomputable def fpScores (hib : Bool) (least : ℝ) (scores : List ℝ) : List ℝ :=
  if hib then scores else scores.map fun x => 1 / (x + smoothing least)

/-- The distribution — fp_selection.py:41-59.  `np.min` of an empty array is a `ValueError`. -/
noncomputable def fpDistribution (hib : Bool) (scores : List ℝ) : Except Err (List ℝ) :=
  match scores.min? with
  | none => .error .valueError
  | some least =>
    if least < 0 then .error .valueError
    else
      let w := fpScores hib least scores
      .ok (if w.sum ≠ 1 then softmax w else w)

/-- The cumulative sums of a distribution, as in `np.random.choice`. -/
noncomputable def cdf (p : List ℝ) : List ℝ := (List.range p.length).map fun i => (p.take (i + 1)).sum

/-- `cdf.searchsorted(u, side="right")`: the position that `np.random.choice` takes for the random number `u`. -/
noncomputable def drawIndex (p : List ℝ) (u : ℝ) : Nat := (cdf p).countP fun x => decide (x ≤ u)

/-- The checks of `np.random.choice(a, size, replace=True, p=p)`: `ValueError` for an empty array, a distribution of
another length, negative probabilities, a sum other than 1, or a negative size.  Simplification: numpy allows a
small deviation of the sum (and divides by it). -/
noncomputable def checkChoice (n : Nat) (size : Int) (p : List ℝ) : Except Err Unit :=
  if n = 0 ∨ p.length ≠ n ∨ (∃ x ∈ p, x < 0) ∨ p.sum ≠ 1 ∨ size < 0 then .error .valueError else .ok ()

/-- The fitness scores as an array; a score that is not a number is a `TypeError`. -/
def scoresOf (size : G → Nat) (h : List (Ind G)) (refs : List Nat) : Except Err (List ℚ) :=
  match keyed size h refs with
  | .error e => .error e
  | .ok ks => if ks.any (fun p => !p.2.isNum) then .error .typeError else .ok (ks.map fun p => p.2.toRat)

/-- `selected_ind.clone()` for a position of the source — fp_selection.py:66-68. -/
def cloneAt (source : List Nat) (k : Nat) : WM G Nat :=
  match source[k]? with
  | none => raise .indexError
  | some r => cloneSelected "FitnessProportionateSelection" r

/-- `np.random.choice(source_inds, size=n, replace=True, p=p)`, as positions. -/
noncomputable def drawIndices (n : Nat) (p : List ℝ) : Rand (List Nat) := replicateM n do
  let u ← Rand.random
  pure (drawIndex p (u : ℝ))

/-- `FitnessProportionateSelection.select` — fp_selection.py:34-73. -/
noncomputable def fpSelect (size : G → Nat) (hib : Bool) (source dest : List Nat) : WM G (List Nat) := do
  let scores ← reading fun h => scoresOf size h source
  let p ← ofExcept (fpDistribution hib (scores.map fun q : ℚ => (q : ℝ)))
  ofExcept (checkChoice source.length (source.length - dest.length : Int) p)
  let ks ← rand (drawIndices (source.length - dest.length) p)
  let clones ← mapL (cloneAt source) ks
  pure (dest ++ clones)

/-- A `FitnessProportionateSelection` object. -/
noncomputable def fitnessProportionate (size : G → Nat) (hib : Bool) : Sel G := ⟨1, fpSelect size hib⟩

end Verif.Evo
