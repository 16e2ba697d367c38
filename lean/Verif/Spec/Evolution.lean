import Verif.Lemmas.World

/-! # What is assumed of operators and selection methods supplied to an evolutionary run

`Op.Good` and `Sel.Good` are contracts; every operator that works in place on genomes and the
tournament, elitism and fitness-proportionate selections are proved to meet them. -/

namespace Verif.Evo
open PyM
variable {G : Type}

/-- How the fitness of the individual at `r` is compared. -/
def modeAt (s : World G) (r : Nat) : Option Mode := (s.heap[r]?).map Ind.mode

/-- The genome of the individual at `r`. -/
def genomeAt (s : World G) (r : Nat) : Option G := (s.heap[r]?).map (·.genome)

/-- References to existing individuals. -/
def Valid (s : World G) (refs : List Nat) : Prop := ∀ r ∈ refs, r < s.heap.length

/-- Contract of a genetic operator's `apply`: it modifies only the individuals it is given, and returns
as many (distinct) individuals, each one of the given ones or a new one, compared in the same way. -/
def Op.Good (o : Op G) : Prop :=
  ∀ refs s, Valid s refs → wlp (o.apply refs) (fun res s' => Ext (· ∈ refs) s s' ∧
    ∀ l, res = some l → l.length = refs.length ∧ Valid s' l ∧
      (∀ r ∈ l, r ∈ refs ∨ s.heap.length ≤ r) ∧ (refs.Nodup → l.Nodup) ∧
      ∀ m, (∀ r ∈ refs, modeAt s r = some m) → ∀ r ∈ l, modeAt s' r = some m) s

/-- `i` is what selecting `j` makes of it, as far as informational attributes are concerned: a clone with a
new id, signed by the selection method. -/
structure SignedCopy (j i : Ind G) : Prop where
  clonedFrom : i.clonedFrom = j.id
  gen : i.gen = j.gen
  appliedOps : i.appliedOps = j.appliedOps
  updateParents : i.updateParents = j.updateParents
  parents : i.parents = if j.updateParents then [] else j.parents
  selectedBy : ∃ name, i.selectedBy = j.selectedBy ++ [name]

/-- `r` is a fresh copy of the individual at `src`: a new object with its genome. -/
structure CopyOf (s s' : World G) (src r : Nat) : Prop where
  fresh : s.heap.length ≤ r
  valid : r < s'.heap.length
  genome : genomeAt s' r = genomeAt s src
  mode : modeAt s' r = modeAt s src
  signed : ∃ j i, s.heap[src]? = some j ∧ s'.heap[r]? = some i ∧ s.nextId ≤ i.id ∧ SignedCopy j i

/-- Contract of a selection method: it modifies no existing individual and extends the destination by
fresh, distinct copies of source individuals. -/
def Sel.Good (sel : Sel G) : Prop :=
  ∀ source dest s, Valid s source → Valid s dest →
    wlp (sel.select source dest) (fun res s' => Ext (fun _ => False) s s' ∧
      ∃ new, res = dest ++ new ∧ new.Nodup ∧ ∀ r ∈ new, ∃ src ∈ source, CopyOf s s' src r) s

/-- The selection method fills the destination up to the size of the source. -/
def Sel.Fills (sel : Sel G) : Prop :=
  ∀ source dest s, wlp (sel.select source dest)
    (fun res _ => res.length = dest.length + (source.length - dest.length)) s

end Verif.Evo
