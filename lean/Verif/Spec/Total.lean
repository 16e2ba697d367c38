import Verif.Spec.Legal
import Verif.Spec.Library

/-! # Specification: configurations whose parts never raise -/

namespace Verif.Evo
open PyM
variable {G κ : Type}

/-- The operator works on any group of its arity whose genomes satisfy `P`. -/
def Op.WorksOn (P : G → Prop) (o : Op G) : Prop :=
  ∀ refs s, Carry P s.heap refs → refs.length = o.arity → wp (o.apply refs) (fun res _ => res ≠ none) s

/-- Asked for `n` individuals the creator makes them. -/
def CreatorWorks (P : G → Prop) (n : Nat) (hib : Bool) (create : Nat → Bool → WM G (List Nat)) : Prop :=
  ∀ s, wp (create n hib) (fun res s' => res.length = n ∧ Carry P s'.heap res) s

/-- The selection method works on an evaluated population of `n` individuals. -/
def Sel.WorksOn (size : G → Nat) (hib : Bool) (n : Nat) (sel : Sel G) : Prop :=
  ∀ source dest s, source.length = n → Evaluated size hib s source → wp (sel.select source dest) (fun _ _ => True) s

/-- What a checker is given in a run: the population is not empty and has been evaluated, the best of the run has a score.
The state of the checker satisfies `K`. -/
def Consulted (size : G → Nat) (hib : Bool) (K : κ → Prop) (k : κ) (heap : List (Ind G)) (inds : List (Option (List Nat)))
    (best : Option Nat) : Prop :=
  K k ∧ ∃ w is b x, w.heap = heap ∧ inds = [some is] ∧ is ≠ [] ∧ Evaluated size hib w is ∧ best = some b ∧ HasScore size hib w b x

/-- Given what it is given in a run the checker answers, and its new state satisfies `K` again. -/
def Checker.Calm (size : G → Nat) (hib : Bool) (K : κ → Prop) (t : Checker G κ) : Prop :=
  ∀ k heap inds best gen, Consulted size hib K k heap inds best → ∃ v k', t k heap inds best gen = (.ok v, k') ∧ K k'

/-- All checkers of the configuration give answers. -/
def Cfg.Calm (c : Cfg G κ) (hib : Bool) (K : κ → Prop := fun _ => True) : Prop :=
  match c.checker with
  | .none => True
  | .one t => Checker.Calm c.size hib K t
  | .many ts => ∀ t ∈ ts, Checker.Calm c.size hib K t

/-- A configuration no part of which raises: its sizes fit together, and its creators, operators,
selection method, evaluator and termination checkers work on the individuals there can be. -/
structure Cfg.Sound (P : G → Prop) (c : Cfg G κ) (sub : SubCfg G) (m : Mode) (K : κ → Prop := fun _ => True) : Prop extends
    c.Ordinary sub m where
  popSize : 0 < sub.popSize
  arities : ∀ a ∈ sub.sels.map (·.arity) ++ sub.ops.map (·.arity), a ≠ 0 ∧ a ∣ sub.popSize
  pick : ∀ t, ∃ k t', sub.pick t = (.ok k, t') ∧ k < sub.creators.length
  create : ∀ create ∈ sub.creators, CreatorWorks P sub.popSize sub.hib create
  select : ∀ sel rest, sub.sels = sel :: rest → sel.WorksOn c.size sub.hib sub.popSize
  preserve : ∀ o ∈ sub.ops, o.Preserves P
  operate : ∀ o ∈ sub.ops, o.WorksOn P
  evaluate : ∀ g, P g → Total (sub.evaluate g)
  calm : c.Calm sub.hib K

/-- A state in which `evolve` can be called: nothing has been run, the population is to be created (or the
given one has the right size and satisfies `P`), the checkers have their states, which satisfy `K`, the executor is
open. -/
structure Run.Open (P : G → Prop) (c : Cfg G κ) (sub : SubCfg G) (m : Mode) (s : Run G κ)
    (K : κ → Prop := fun _ => True) : Prop where
  ready : s.Ready m
  given : ∀ is, some is ∈ s.inds → is.length = sub.popSize ∧ Carry P s.w.heap is
  fits : c.Fits s.checkers
  executor : s.shutdown = false
  states : ∀ k ∈ s.checkers, K k := by exact fun _ _ => trivial

/-- What a run needs beside working creators and operators: a positive population size divisible by all
arities, an index draw that returns an index of a creator, and a selection method, an evaluator and checkers
that do not raise. -/
structure Cfg.Smooth (P : G → Prop) (c : Cfg G κ) (sub : SubCfg G) (K : κ → Prop := fun _ => True) : Prop where
  popSize : 0 < sub.popSize
  arities : ∀ a ∈ sub.sels.map (·.arity) ++ sub.ops.map (·.arity), a ≠ 0 ∧ a ∣ sub.popSize
  pick : ∀ t, ∃ k t', sub.pick t = (.ok k, t') ∧ k < sub.creators.length
  select : ∀ sel rest, sub.sels = sel :: rest → sel.WorksOn c.size sub.hib sub.popSize
  evaluate : ∀ g, P g → Total (sub.evaluate g)
  calm : c.Calm sub.hib K

/-- How a run that went well ends: there is a best of the run and it has a score; the population has its
size, its individuals are distinct, evaluated and satisfy `P`. -/
def Completed (P : G → Prop) (c : Cfg G κ) (sub : SubCfg G) (m : Mode) (s : Run G κ) : Prop :=
  ∃ b x is, s.bestOfRun = some b ∧ HasScore c.size m.hib s.w b x ∧ s.inds = [some is] ∧
    is.length = sub.popSize ∧ is.Nodup ∧ Evaluated c.size m.hib s.w is ∧ Carry P s.w.heap is

end Verif.Evo

namespace Verif.GP
open Verif.Evo

/-- The type is the root type, or a type some function takes or returns, or the type of a terminal. -/
def Cfg.Mentions (cfg : GP.Cfg) (τ : Option Ty) : Prop :=
  τ = cfg.rootType ∨ (∃ f ∈ cfg.functionSet, τ ∈ f.params ∨ τ = f.ret) ∨ ∃ kv ∈ cfg.terminalSet, kv.2 = τ

/-- The types nodes can have: the types mentioned and, if there is a range of constants and a numeric type is
mentioned, the type of the constants. -/
def Cfg.Uses (cfg : GP.Cfg) (τ : Option Ty) : Prop :=
  cfg.Mentions τ ∨ (cfg.erc ≠ none ∧ τ = cfg.ercType ∧ ∃ t : Ty, cfg.Mentions (some t) ∧ t.isNumber = true)

/-- A configuration, typed or not, that has a function and a terminal for every type nodes can have: each
function is annotated completely or not at all, each such type is the return type of a function and the type of a
terminal (or constants can be drawn for it from a usable range), and all numbers are `int`, `float` or `bool`
objects. -/
structure Cfg.Plain (cfg : GP.Cfg) : Prop where
  legal : ∀ f ∈ cfg.functionSet, f.Legal
  function : ∀ τ, cfg.Uses τ → ∃ f ∈ cfg.functionSet, f.ret = τ
  terminal : ∀ τ, cfg.Uses τ → (∃ kv ∈ cfg.terminalSet, kv.2 = τ) ∨ (cfg.erc ≠ none ∧ ∀ t, τ = some t → t.isNumber = true)
  usable : ∀ e, cfg.erc = some e → e.Usable
  numbers : ∀ kv ∈ cfg.terminalSet, kv.1.data.isNumber = true → kv.1.data.num? ≠ none

/-- A node of a type in use; if it holds a number, this is an `int`, a `float` or a `bool`. -/
def Node.Plain (cfg : GP.Cfg) (n : Node) : Prop :=
  cfg.Uses n.type ∧ ∀ v t, n = .term v t → v.data.isNumber = true → v.data.num? ≠ none

/-- A legal individual all of whose nodes are plain. -/
def PlainLegal (cfg : GP.Cfg) (i : GP.Ind) : Prop := Legal cfg i ∧ ∀ n ∈ i.tree, n.Plain cfg

/-- The tree creators of the library that can be asked for `n` individuals: for the half-and-half creator
`n` must be at least twice the number of depths. -/
inductive SizedCreator (cfg : GP.Cfg) (m : Mode) (n : Nat) : (Nat → Bool → WM GP.Ind (List Nat)) → Prop
  | full (maxDepth : Nat) (fit : Bool → Fit) (up : Bool) (h : FitFor fit m) :
      SizedCreator cfg m n (fullCreator cfg maxDepth fit up)
  | grow (pPrune : ℚ) (minDepth maxDepth : Nat) (fit : Bool → Fit) (up : Bool) (h : FitFor fit m) :
      SizedCreator cfg m n (growCreator cfg pPrune minDepth maxDepth fit up)
  | half (pPrune : ℚ) (minDepth maxDepth : Nat) (fit : Bool → Fit) (up : Bool) (h : FitFor fit m)
      (hd : minDepth ≤ maxDepth) (hn : 2 * (maxDepth + 1 - minDepth) ≤ n) :
      SizedCreator cfg m n (halfCreator cfg pPrune minDepth maxDepth fit up)

end Verif.GP

namespace Verif.GA
open Verif.Evo

/-- The operators of the library for vectors of the class and length; crossover is given at least two
parents. -/
def PairedOp (kind : Kind) (length : Nat) (o : Op Vec) : Prop :=
  LibOp kind length o ∧ (o.name = "VectorKPointsCrossover" → 2 ≤ o.arity)

end Verif.GA
