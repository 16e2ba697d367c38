import Verif.Model.Vector

/-! # Vocabulary for the GA properties -/

namespace Verif.GA

/-- Cell `i` must lie between `lo` and `hi`. -/
def Bounds.At (b : Bounds) (i : Nat) (lo hi : ℚ) : Prop :=
  match b with
  | .tup xs => xs = [lo, hi]
  | .lst bs => bs[i]? = some (lo, hi)

/-- Every cell of the vector lies within its bounds. -/
def Vec.InBounds (v : Vec) : Prop :=
  ∀ (i : Nat) (x : ℚ), v.vector[i]? = some x → ∃ lo hi, v.bounds.At i lo hi ∧ lo ≤ x ∧ x ≤ hi

/-- The bounds are integers. -/
def Bounds.Integral (b : Bounds) : Prop :=
  ∀ i lo hi, b.At i lo hi → (∃ z : ℤ, lo = z) ∧ ∃ z : ℤ, hi = z

/-- Legal bounds for vectors of the given length: one pair, or one pair per cell, every pair in
ascending order. -/
def Bounds.Legal (b : Bounds) (length : Nat) : Prop :=
  (match b with
    | .tup xs => xs.length = 2
    | .lst bs => bs.length = length) ∧
  ∀ i lo hi, b.At i lo hi → lo ≤ hi

/-- A list of exactly two pairs: the one shape of per-cell bounds that the code confuses with a single
pair. -/
def Bounds.TwoPairs (b : Bounds) : Prop := ∃ p q, b = .lst [p, q]

/-- The indices at which two lists differ (including those that only one of them has). -/
def diffs (xs ys : List ℚ) : List Nat :=
  (List.range (max xs.length ys.length)).filter fun i => xs[i]? ≠ ys[i]?

/-- Same class, same bounds, same number of cells. -/
def SameShape (v w : Vec) : Prop :=
  w.kind = v.kind ∧ w.bounds = v.bounds ∧ w.length = v.length ∧ w.vector.length = v.vector.length

/-- The library's mutation classes, with their constructor arguments. -/
inductive MutationClass
  | floatUniformOne
  | floatUniformN (n : Nat)
  | floatGaussOne (mu sigma : ℚ) (attempts : Nat)
  | floatGaussN (n : Nat) (mu sigma : ℚ) (attempts : Nat)
  | intOne (probabilityForEach : ℚ)
  | intN (n : Nat)
  | bitFlip
  | bitNFlip (n : Nat) (probabilityForEach : ℚ)

/-- `mutation.apply_operator(individuals)` for the mutation class constructed with probability `p`. -/
def MutationClass.run (c : MutationClass) (p : ℚ) (inds : List Vec) : Rand (List Vec) :=
  match c with
  | .floatUniformOne => applyOperator p (npApply (uniformNPoint 1)) inds
  | .floatUniformN n => applyOperator p (npApply (uniformNPoint n)) inds
  | .floatGaussOne mu sigma a => applyOperator p (npApply (gaussNPoint 1 p mu sigma a)) inds
  | .floatGaussN n mu sigma a => applyOperator p (npApply (gaussNPoint n p mu sigma a)) inds
  | .intOne q => applyOperator p (npApply (intOnePoint q)) inds
  | .intN n => applyOperator p (npApply (uniformNPoint n)) inds
  | .bitFlip => applyOperator p (npApply bitFlipOne) inds
  | .bitNFlip n q => applyOperator p (npApply (_root_.Verif.GA.bitNFlip n q)) inds

/-- The vector class the mutation is meant for. -/
def MutationClass.kind : MutationClass → Kind
  | .floatUniformOne | .floatUniformN _ | .floatGaussOne .. | .floatGaussN .. => .float
  | .intOne _ | .intN _ => .int
  | .bitFlip | .bitNFlip .. => .bit

/-- The number of mutation points for which the mutation class is named or configured (none for the
per-cell integer mutation, which visits every cell). -/
def MutationClass.points : MutationClass → Option Nat
  | .floatUniformOne | .floatGaussOne .. | .bitFlip => some 1
  | .floatUniformN n | .floatGaussN n .. | .intN n | .bitNFlip n _ => some n
  | .intOne _ => none

/-- An individual the mutation is meant for: right vector class, consistent length, bounds in the
documented form (integers for integer vectors, a single pair for bit strings), enough cells. -/
structure MutationClass.Suits (c : MutationClass) (v : Vec) : Prop where
  kind : v.kind = c.kind
  length : v.length = v.vector.length
  integral : v.kind = .int → v.bounds.Integral
  pair : v.kind = .bit → ∃ lo hi, v.bounds = .tup [lo, hi]
  enough : ∀ n, c.points = some n → n ≤ v.vector.length

/-- Children of a crossover that exchanges exactly the loci satisfying `P` -/
def ExchangedAt (P : Nat → Prop) (v1 v2 w1 w2 : List ℚ) : Prop :=
  w1.length = v1.length ∧ w2.length = v2.length ∧
  ∀ i, (P i → w1[i]? = v2[i]? ∧ w2[i]? = v1[i]?) ∧ (¬ P i → w1[i]? = v1[i]? ∧ w2[i]? = v2[i]?)

/-- The locus `i` lies in one of the segments `[0,p1), [p2,p3), [p4,p5), …` of the ascending cut points
(the last segment ends at the end of the vector): an even number of cut points is at most `i`. -/
def InExchangedSegment (points : List Nat) (i : Nat) : Prop :=
  (points.filter (· ≤ i)).length % 2 = 0

end Verif.GA
