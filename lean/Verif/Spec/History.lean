import Verif.Lemmas.Operator

/-! # Histories of operations on individuals (C25, C30) -/

namespace Verif.Evo
open PyM
variable {G : Type}

/-- What happened to individuals, as seen by their user. -/
inductive Obs
  /-- `r` was constructed with these fitness arguments. -/
  | created (r : Nat) (value : FVal) (cache relative : Bool)
  /-- `r.fitness.set_fitness(v)` -/
  | set (r : Nat) (v : FVal)
  /-- `r.set_fitness_not_evaluated()` -/
  | reset (r : Nat)
  /-- `dst = src.clone()` -/
  | cloned (src dst : Nat)
  /-- A genetic operator was applied to `refs` and fired. -/
  | fired (refs : List Nat)
  /-- A genetic operator was applied to `refs` and did not fire. -/
  | skipped (refs : List Nat)
  /-- The genome of `r` was changed directly. -/
  | mutated (r : Nat)

/-- The individuals an event may change. -/
def Obs.touches : Obs → Nat → Prop
  | .created _ _ _ _, _ => False
  | .set r _, x => x = r
  | .reset r, x => x = r
  | .cloned _ _, _ => False
  | .fired refs, x => x ∈ refs
  | .skipped _, _ => False
  | .mutated r, x => x = r

/-- The operators of the library: they work in place on the genomes of their arguments, and may hand these over to
another such operator if they fail. -/
inductive Op.Plain : Op G → Prop
  | inPlace (name : String) (p : ℚ) (arity : Nat) (f : List G → Rand (Option (List G))) :
      Op.Plain (Op.inPlace name p arity f)
  | withFallback (name name' : String) (p p' : ℚ) (arity arity' : Nat) (f : List G → Rand (Bool × List G))
      (f' : List G → Rand (Option (List G))) :
      Op.Plain (Op.withFallback name p arity f (Op.inPlace name' p' arity' f'))

/-- One operation of the library, and what the user saw.  Operators are applied whether or not they
raise. -/
inductive Step : World G → Obs → World G → Prop
  | created {s s' : World G} {g : G} {v : FVal} {hib : Option Bool} {cache relative up : Bool}
      {bloat : Option ℚ} {fit : Fit} {r : Nat} :
      newFit v hib cache relative bloat = .ok fit → newInd g fit up s = (.ok r, s') →
      Step s (.created r v cache relative) s'
  | set {s s' : World G} {r : Nat} {v : FVal} :
      r < s.heap.length → setFitness r v s = (.ok (), s') → Step s (.set r v) s'
  | reset {s s' : World G} {r : Nat} :
      r < s.heap.length → setNotEvaluated r s = (.ok (), s') → Step s (.reset r) s'
  | cloned {s s' : World G} {src dst : Nat} : clone src s = (.ok dst, s') → Step s (.cloned src dst) s'
  | fired {s s' : World G} {refs : List Nat} {o : Op G} {u : ℚ} {t : Tape} {res : Except Err (List Nat)} :
      o.Plain → Rand.random s.tape = (.ok u, t) → u ≤ o.probability →
      applyOperator o refs s = (res, s') → Step s (.fired refs) s'
  | skipped {s s' : World G} {refs : List Nat} {o : Op G} {u : ℚ} {t : Tape} {res : Except Err (List Nat)} :
      o.Plain → Rand.random s.tape = (.ok u, t) → o.probability < u →
      applyOperator o refs s = (res, s') → Step s (.skipped refs) s'
  | mutated {s s' : World G} {r : Nat} {f : G → G} :
      update r (fun i => { i with genome := f i.genome }) s = (.ok (), s') → Step s (.mutated r) s'

/-- Histories starting in a fresh interpreter; newest event first. -/
inductive Hist : List Obs → World G → Prop
  | start (n : Nat) (t : Tape) : Hist [] ⟨[], n, t⟩
  | step {os : List Obs} {s s' : World G} {o : Obs} : Hist os s → Step s o s' → Hist (o :: os) s'

/-- Does the individual keep its fitness when cloned?  (Cache enabled and fitness not relative, at the
construction of the individual it descends from by cloning.) -/
def keepsOnClone : List Obs → Nat → Bool
  | [], _ => false
  | .created r _ cache relative :: os, x => if x = r then cache && !relative else keepsOnClone os x
  | .cloned src dst :: os, x => if x = dst then keepsOnClone os src else keepsOnClone os x
  | _ :: os, x => keepsOnClone os x

/-- The fitness value most recently set and not invalidated since. -/
def lastValue : List Obs → Nat → Option FVal
  | [], _ => none
  | .created r v _ _ :: os, x => if x = r then (if v = .none then none else some v) else lastValue os x
  | .set r v :: os, x => if x = r then some v else lastValue os x
  | .reset r :: os, x => if x = r then none else lastValue os x
  | .cloned src dst :: os, x =>
    if x = dst then (if keepsOnClone os src then lastValue os src else none) else lastValue os x
  | .fired refs :: os, x => if x ∈ refs then none else lastValue os x
  | .skipped _ :: os, x => lastValue os x
  | .mutated _ :: os, x => lastValue os x

end Verif.Evo
