import Verif.Spec.Run

/-! # Specification: a property of genomes that holds throughout a run -/

namespace Verif.Evo
open PyM
variable {G κ : Type}

/-- The individuals at `refs` exist in the heap `h` and their genomes satisfy `P`. -/
def Carry (P : G → Prop) (h : List (Ind G)) (refs : List Nat) : Prop :=
  ∀ r ∈ refs, ∃ i, h[r]? = some i ∧ P i.genome

/-- The creator returns individuals whose genomes satisfy `P`. -/
def CreatorMakes (P : G → Prop) (create : Nat → Bool → WM G (List Nat)) : Prop :=
  ∀ n hib s, wlp (create n hib) (fun res s' => Carry P s'.heap res) s

/-- Given individuals whose genomes satisfy `P`, the operator returns such individuals. -/
def Op.Preserves (P : G → Prop) (o : Op G) : Prop :=
  ∀ refs s, Carry P s.heap refs → wlp (o.apply refs) (fun res s' => ∀ l, res = some l → Carry P s'.heap l) s

/-- Every individual an observer can see in the event — in the population, or as best individual of
the run or of the generation — has a genome satisfying `P`. -/
def Event.AllHave (P : G → Prop) (e : Event G) : Prop :=
  (∀ is, some is ∈ e.snap.inds → Carry P e.snap.heap is) ∧
  (∀ b, e.snap.bestOfRun = some b → Carry P e.snap.heap [b]) ∧
  (∀ b, e.snap.bestOfGen = some b → Carry P e.snap.heap [b])

/-- A fresh start: no population has been created (or the given one satisfies `P`), there is no best
individual yet and nothing has been recorded. -/
structure Run.Starts (P : G → Prop) (s : Run G κ) : Prop where
  pop : ∀ is, some is ∈ s.inds → Carry P s.w.heap is
  bestOfRun : s.bestOfRun = none
  bestOfGen : s.bestOfGen = none
  log : s.log = []

end Verif.Evo
