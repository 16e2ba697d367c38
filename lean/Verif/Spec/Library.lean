import Verif.Model.Library
import Verif.Spec.Legal
import Verif.Spec.Mutation
import Verif.Spec.Vector

/-! # Specification: runs put together from the library's creators and operators -/

namespace Verif.Evo
variable {G κ : Type}

/-- Everything about a run except its creators and operators is ordinary; of these it is only known that
they are of the kinds `Creators` and `Ops`. -/
structure Cfg.BuiltWith (c : Cfg G κ) (sub : SubCfg G) (m : Mode)
    (Creators : (Nat → Bool → WM G (List Nat)) → Prop) (Ops : Op G → Prop) : Prop where
  subs : c.subs = [sub]
  dir : m.hib = sub.hib
  creators : ∀ create ∈ sub.creators, Creators create
  sels : ∃ sel rest, sub.sels = sel :: rest ∧ sel.Good ∧ sel.Fills
  ops : ∀ o ∈ sub.ops, Ops o
  sched : ∀ gen n, (c.sched gen n).Perm (List.range n)
  map : c.submit = false

/-- The fitness objects the creator makes are compared in the way `m`. -/
def FitFor (fit : Bool → Fit) (m : Mode) : Prop :=
  (fit m.hib).hib = m.hib ∧ (fit m.hib).bloat = m.bloat

end Verif.Evo

namespace Verif.GP
open Verif.Evo

/-- The individual has the configuration `cfg` and its node list is the listing of a program over its
function set in which every function has the right number of arguments. -/
def Legal (cfg : GP.Cfg) (i : GP.Ind) : Prop := i.cfg = cfg ∧ ∃ p, Represents i p

/-- The tree creators of the library, for individuals with configuration `cfg`. -/
inductive LibCreator (cfg : GP.Cfg) (m : Mode) : (Nat → Bool → WM GP.Ind (List Nat)) → Prop
  | full (maxDepth : Nat) (fit : Bool → Fit) (up : Bool) (h : FitFor fit m) :
      LibCreator cfg m (fullCreator cfg maxDepth fit up)
  | grow (pPrune : ℚ) (minDepth maxDepth : Nat) (fit : Bool → Fit) (up : Bool) (h : FitFor fit m) :
      LibCreator cfg m (growCreator cfg pPrune minDepth maxDepth fit up)
  | half (pPrune : ℚ) (minDepth maxDepth : Nat) (fit : Bool → Fit) (up : Bool) (h : FitFor fit m) :
      LibCreator cfg m (halfCreator cfg pPrune minDepth maxDepth fit up)

/-- The tree operators of the library, with any arguments. -/
inductive LibOp : Op GP.Ind → Prop
  | crossover (p : ℚ) (arity attempts : Nat) : LibOp (crossoverOp p arity attempts)
  | mutation (p : ℚ) (minDepth maxDepth attempts : Nat) : LibOp (mutationOp p minDepth maxDepth attempts)
  | erc (p : ℚ) (arity : Nat) (mu sigma : ℚ) : LibOp (ercOp p arity mu sigma)

end Verif.GP

namespace Verif.GA
open Verif.Evo

/-- A vector of the class `kind`, with the given bounds and length, all of whose cells are in bounds. -/
def Legal (kind : Kind) (bounds : Bounds) (length : Nat) (v : Vec) : Prop :=
  v.kind = kind ∧ v.bounds = bounds ∧ v.length = length ∧ v.vector.length = length ∧ v.InBounds

/-- Bounds that are usable throughout a run with the vector class: legal, whole numbers for integer and
bit vectors, one pair for bit vectors, and not a list of two pairs (C63). -/
structure Bounds.Proper (b : Bounds) (kind : Kind) (length : Nat) : Prop where
  legal : b.Legal length
  integral : kind ≠ .float → b.Integral
  pair : kind = .bit → ∃ lo hi, b = .tup [lo, hi]
  notTwo : ¬ b.TwoPairs

/-- The vector creators of the library with the default gene creator. -/
inductive LibCreator (kind : Kind) (bounds : Bounds) (length : Nat) (m : Mode) :
    (Nat → Bool → WM Vec (List Nat)) → Prop
  | mk (fit : Bool → Fit) (up : Bool) (h : FitFor fit m) :
      LibCreator kind bounds length m (vectorCreator kind length bounds fit up)

/-- The operator object of a mutation class, constructed with probability `p` and the given arity. -/
def MutationClass.asOp (c : MutationClass) (p : ℚ) (arity : Nat) : Op Vec :=
  match c with
  | .floatUniformOne => mutationOp "FloatVectorUniformOnePointMutation" p arity (uniformNPoint 1)
  | .floatUniformN n => mutationOp "FloatVectorUniformNPointMutation" p arity (uniformNPoint n)
  | .floatGaussOne mu sigma a => gaussOneOp p arity mu sigma a
  | .floatGaussN n mu sigma a => gaussNOp n p arity mu sigma a
  | .intOne q => mutationOp "IntVectorOnePointMutation" p arity (intOnePoint q)
  | .intN n => mutationOp "IntVectorNPointMutation" p arity (uniformNPoint n)
  | .bitFlip => mutationOp "BitStringVectorFlipMutation" p arity bitFlipOne
  | .bitNFlip n q => mutationOp "BitStringVectorNFlipMutation" p arity (_root_.Verif.GA.bitNFlip n q)

/-- The operators of the library meant for vectors of the class and length: crossover with fewer cut
points than cells, and the mutations of the class with at most as many mutation points as cells. -/
inductive LibOp (kind : Kind) (length : Nat) : Op Vec → Prop
  | crossover (p : ℚ) (arity k : Nat) (hk : k < length) : LibOp kind length (crossoverOp p arity k)
  | mutation (c : MutationClass) (p : ℚ) (arity : Nat) (hc : c.kind = kind)
      (hn : ∀ n, c.points = some n → n ≤ length) : LibOp kind length (c.asOp p arity)

end Verif.GA
