import Verif.Model.Evolution
import Verif.Model.FPSelection
import Verif.Model.Termination
import Verif.Model.Creation
import Verif.Py.Sim

/-! # The same state in another place

Before a run starts, a program may have created individuals and taken ids.  `World.moved J k w` is the world `w` as it
would look if the individuals `J` had existed before (so that all objects lie at other addresses) and `k` more ids had
been given out. -/

namespace Verif.Evo
open PyM
variable {G κ : Type}

/-- Addresses move by `n`. -/
def FVal.moved (n : Nat) : FVal → FVal
  | .obj r => .obj (r + n)
  | v => v

def Fit.moved (n : Nat) (f : Fit) : Fit := { f with value := f.value.moved n }

/-- `cloned_from` is -1 or an id. -/
def movedFrom (k : Nat) (c : Int) : Int := if c < 0 then c else c + k

/-- The same individual with addresses moved by `n` and ids by `k`. -/
def Ind.moved (n k : Nat) (i : Ind G) : Ind G where
  id := i.id + k
  gen := i.gen
  genome := i.genome
  fit := i.fit.moved n
  clonedFrom := movedFrom k i.clonedFrom
  selectedBy := i.selectedBy
  appliedOps := i.appliedOps
  updateParents := i.updateParents
  parents := i.parents.map (· + k)

/-- The heap with the individuals `J` in front. -/
def movedHeap (J : List (Ind G)) (k : Nat) (h : List (Ind G)) : List (Ind G) := J ++ h.map (Ind.moved J.length k)

def World.moved (J : List (Ind G)) (k : Nat) (w : World G) : World G := ⟨movedHeap J k w.heap, w.nextId + k, w.tape⟩

/-- References. -/
def movedRefs (n : Nat) (rs : List Nat) : List Nat := rs.map (· + n)

/-- The `individuals` of the sub-populations. -/
def movedInds (n : Nat) (is : List (Option (List Nat))) : List (Option (List Nat)) := is.map (Option.map (movedRefs n))

def Snapshot.moved (J : List (Ind G)) (k : Nat) (s : Snapshot G) : Snapshot G where
  heap := movedHeap J k s.heap
  inds := movedInds J.length s.inds
  bestOfRun := s.bestOfRun.map (· + J.length)
  bestOfGen := s.bestOfGen.map (· + J.length)
  genNum := s.genNum
  genSeed := s.genSeed

def Event.moved (J : List (Ind G)) (k : Nat) (e : Event G) : Event G := ⟨e.publisher, e.name, e.snap.moved J k⟩

/-- The state of a run in another place; `φ` moves what the checkers keep. -/
def Run.moved (J : List (Ind G)) (k : Nat) (φ : κ → κ) (s : Run G κ) : Run G κ where
  w := s.w.moved J k
  inds := movedInds J.length s.inds
  bestOfRun := s.bestOfRun.map (· + J.length)
  bestOfGen := s.bestOfGen.map (· + J.length)
  worstOfGen := s.worstOfGen.map (· + J.length)
  genNum := s.genNum
  randomSeed := s.randomSeed
  genSeed := s.genSeed
  finalGen := s.finalGen
  checkers := s.checkers.map φ
  shutdown := s.shutdown
  log := s.log.map (Event.moved J k)

/-- The operator does not depend on where objects lie nor on which ids they have. -/
def Op.Uniform (o : Op G) : Prop := ∀ (J : List (Ind G)) k refs,
  Sim (World.moved J k) (Option.map (movedRefs J.length)) (o.apply (movedRefs J.length refs)) (o.apply refs)

/-- The selection method does not. -/
def Sel.Uniform (sel : Sel G) : Prop := ∀ (J : List (Ind G)) k source dest,
  Sim (World.moved J k) (movedRefs J.length) (sel.select (movedRefs J.length source) (movedRefs J.length dest))
    (sel.select source dest)

/-- The creator does not. -/
def CreatorUniform (create : Nat → Bool → WM G (List Nat)) : Prop := ∀ (J : List (Ind G)) k n hib,
  Sim (World.moved J k) (movedRefs J.length) (create n hib) (create n hib)

/-- The termination checker does not. -/
def CheckerUniform (φ : Nat → Nat → κ → κ) (t : Checker G κ) : Prop :=
  ∀ (J : List (Ind G)) k x heap inds best gen,
    t (φ J.length k x) (movedHeap J k heap) (movedInds J.length inds) (best.map (· + J.length)) gen =
      ((t x heap inds best gen).1, φ J.length k (t x heap inds best gen).2)

/-- All parts of a configuration that users supply as code do not depend on addresses and ids.  (The evaluator is a
function of the genome and the random numbers.) -/
structure Cfg.Uniform (c : Cfg G κ) (φ : Nat → Nat → κ → κ) : Prop where
  creators : ∀ sub ∈ c.subs, ∀ create ∈ sub.creators, CreatorUniform create
  ops : ∀ sub ∈ c.subs, ∀ o ∈ sub.ops, o.Uniform
  sels : ∀ sub ∈ c.subs, ∀ sel ∈ sub.sels, sel.Uniform
  checkers : match c.checker with
    | .none => True
    | .one t => CheckerUniform φ t
    | .many ts => ∀ t ∈ ts, CheckerUniform φ t

end Verif.Evo
