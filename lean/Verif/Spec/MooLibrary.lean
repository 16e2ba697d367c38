import Verif.Spec.MooTotal
import Verif.Spec.Total
import Verif.Props.GAMutation
import Verif.Model.NSGA2Library

/-! # Specification: NSGA-II runs put together from the library's creators and operators -/

namespace Verif.Moo
open PyM
variable {G : Type}

/-- A run with `NSGA2Breeder` and tournament selection, of `n > 0` individuals with `m` objectives compared in the
directions `ds`.  The creator and the operators are of the kinds `Creator` and `Ops`; the arities divide `n`; the
evaluator returns `m` objectives for all genomes that satisfy `P`; the checkers do not raise. -/
structure MCfg.Assembled (P : G → Prop) (Creator : MM G (List Nat) → Prop) (Ops : MOp G → Prop) (c : MCfg G)
    (n m : Nat) (ds : List Bool) : Prop where
  breeder : c.nsga2Breeder = true
  size : 0 < n
  directions : ds.length = m
  creator : Creator c.sub.create
  ops : ∀ o ∈ c.sub.ops, Ops o
  arities : ∀ o ∈ c.sub.ops, o.arity ≠ 0 ∧ o.arity ∣ n
  sels : ∃ arity k replace, c.sub.sels = [⟨arity, tournamentM k replace⟩] ∧ (replace = true ∨ k ≤ n)
  evaluates : c.sub.Evaluates m
  evaluate : ∀ g, P g → Total (c.sub.evaluate g)
  order : ∀ g k l, (c.setOrder g k l).Perm l
  sched : ∀ g k, (c.sched g k).Perm (List.range k)
  calm : ∀ h l b g, MConsulted n m h l b → ∃ v, c.checker h l b g = .ok v

/-- A fitness object without objectives, for `m` objectives in the directions `ds`. -/
def FitForM (m : Nat) (ds : List Bool) (f : Fit) : Prop := f.objs = none ∧ DirOk m ds f

/-- The vector creators of the library. -/
inductive VecCreator (kind : GA.Kind) (bounds : GA.Bounds) (length n m : Nat) (ds : List Bool) :
    MM GA.Vec (List Nat) → Prop
  | mk (fit : Fit) (h : FitForM m ds fit) : VecCreator kind bounds length n m ds (vecCreator kind length bounds fit n)

/-- The vector operators of the library: crossover of at least two parents with fewer cut points than cells, and
the mutations of the class with at most as many mutation points as cells. -/
inductive VecOp (kind : GA.Kind) (length : Nat) : MOp GA.Vec → Prop
  | crossover (p : ℚ) (arity k : Nat) (hk : k < length) (ha : 2 ≤ arity) : VecOp kind length (vecCrossover p arity k)
  | mutation (c : GA.MutationClass) (p : ℚ) (arity : Nat) (hc : c.kind = kind)
      (hn : ∀ n, c.points = some n → n ≤ length) : VecOp kind length (vecMutation p arity (c.op p))

/-- The tree creators of the library, the half-and-half creator being asked for at least two individuals for
each depth. -/
inductive TreeCreator (cfg : GP.Cfg) (n m : Nat) (ds : List Bool) : MM GP.Ind (List Nat) → Prop
  | full (maxDepth : Nat) (fit : Fit) (h : FitForM m ds fit) : TreeCreator cfg n m ds (fullM cfg maxDepth fit n)
  | grow (pPrune : ℚ) (minDepth maxDepth : Nat) (fit : Fit) (h : FitForM m ds fit) :
      TreeCreator cfg n m ds (growM cfg pPrune minDepth maxDepth fit n)
  | half (pPrune : ℚ) (minDepth maxDepth : Nat) (fit : Fit) (h : FitForM m ds fit) (hd : minDepth ≤ maxDepth)
      (hn : 2 * (maxDepth + 1 - minDepth) ≤ n) :
      TreeCreator cfg n m ds (halfAndHalfM cfg pPrune minDepth maxDepth fit n)

/-- The tree operators of the library, with any arguments. -/
inductive TreeOp : MOp GP.Ind → Prop
  | crossover (p : ℚ) (arity attempts : Nat) : TreeOp (treeCrossover p arity attempts)
  | mutation (p : ℚ) (minDepth maxDepth attempts : Nat) : TreeOp (treeMutation p minDepth maxDepth attempts)
  | erc (p : ℚ) (arity : Nat) (mu sigma : ℚ) : TreeOp (ercMutationM p arity mu sigma)

end Verif.Moo
