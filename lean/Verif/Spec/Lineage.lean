import Verif.Spec.Run

/-! # Informational attributes of individuals: what they say about a run -/

namespace Verif.Evo
open PyM
variable {G κ : Type}

/-- The attributes of an individual that are neither its genome nor its fitness. -/
structure Papers where
  id : Nat
  gen : Nat
  clonedFrom : Int
  selectedBy : List String
  appliedOps : List String
  updateParents : Bool
  parents : List Nat
deriving DecidableEq

def Ind.papers (i : Ind G) : Papers :=
  ⟨i.id, i.gen, i.clonedFrom, i.selectedBy, i.appliedOps, i.updateParents, i.parents⟩

/-- The papers of the individual at `r`. -/
def papersAt (h : List (Ind G)) (r : Nat) : Option Papers := (h[r]?).map Ind.papers

/-- The id of the individual at `r`. -/
def idAt (h : List (Ind G)) (r : Nat) : Nat := ((h[r]?).map (·.id)).getD 0

/-- Contract of an operator that works on genomes only: it leaves all papers alone, creates no individual
and returns the individuals it was given. -/
def Op.Discreet (o : Op G) : Prop :=
  ∀ refs s, wlp (o.apply refs) (fun res s' => s'.heap.map Ind.papers = s.heap.map Ind.papers ∧
    ∀ l, res = some l → l = refs) s

/-- The papers of a member of a group with the given ids after the operators `l` were applied to the group. -/
def Papers.signed (ids : List Nat) (l : List (Op G)) (p : Papers) : Papers :=
  { p with
    appliedOps := p.appliedOps ++ l.map (·.name)
    parents := if p.updateParents then p.parents ++ l.flatMap fun _ => ids else p.parents }

/-- Contract of an operator that works on genomes and may hand its arguments over to some of the operators `hs`,
which leave their traces: it creates no individual, returns the individuals it was given, and leaves all papers
alone but for those traces. -/
def Op.Discloses (o : Op G) (hs : List (Op G)) : Prop :=
  (∀ h ∈ hs, h.arity = o.arity) ∧
  ∀ refs s, refs.Nodup → wlp (o.apply refs) (fun res s' => (∀ l, res = some l → l = refs) ∧
    ∃ l : List (Op G), l.Sublist hs ∧ ∀ r, papersAt s'.heap r = (papersAt s.heap r).map fun p =>
      if r ∈ refs then p.signed (refs.map (idAt s.heap)) l else p) s

/-- What may be applied to an individual in one generation, given the operators of the breeder, each with the
operators it may hand over to: each of them or not, in their order, each after some of those it hands over to. -/
inductive Applied : List (List (Op G) × Op G) → List (Op G) → Prop
  | nil : Applied [] []
  | skip (x : List (Op G) × Op G) {led : List (List (Op G) × Op G)} {l : List (Op G)} : Applied led l →
      Applied (x :: led) l
  | fire {hs : List (Op G)} (o : Op G) {led : List (List (Op G) × Op G)} {h l : List (Op G)} : h.Sublist hs →
      Applied led l → Applied ((hs, o) :: led) (h ++ o :: l)

/-- The block of `a` neighbours to which position `k` belongs: the ones an operator of arity `a` is applied
to together. -/
def group {α : Type} (a k : Nat) (xs : List α) : List α := (xs.drop (k / a * a)).take a

/-- The individual `i`, at position `k` of a population with the given ids, is a child of `j`: a clone that
was signed by one selection method, and to which operators were applied in a way allowed by `A`; its
parents, if they are recorded, are for each of those operators the members of its group. -/
structure Child (A : List (Op G) → Prop) (ids : List Nat) (k : Nat) (j i : Ind G) : Prop where
  clonedFrom : i.clonedFrom = j.id
  updateParents : i.updateParents = j.updateParents
  selectedBy : ∃ name, i.selectedBy = j.selectedBy ++ [name]
  applied : ∃ l : List (Op G), A l ∧ i.appliedOps = j.appliedOps ++ l.map (·.name) ∧
    i.parents = if j.updateParents then l.flatMap fun o => group o.arity k ids else j.parents

/-- What is seen at `q` is the generation after the one seen at `p`: every individual is a child of one of
`p`'s, carries the number of the generation and has an id larger than all those around at `p`. -/
def Generation (A : List (Op G) → Prop) (p q : Snapshot G) : Prop :=
  ∃ is res, p.inds = [some is] ∧ q.inds = [some res] ∧ res.length = is.length ∧
    ∀ k r, res[k]? = some r → ∃ src ∈ is, ∃ j i, p.heap[src]? = some j ∧ q.heap[r]? = some i ∧
      Child A (res.map (idAt q.heap)) k j i ∧ i.gen = q.genNum ∧ ∀ x ∈ p.heap, x.id < i.id

/-- The event that ends breeding. -/
def bredTag : String × String := ("breeder", "after_operator")

/-- Between any two consecutive points of a run (ends of the initialisation or of a generation) there is
nothing and nothing has changed (the run stops right after its initialisation), or there was one breeding
step and the population has changed as `Generation` says. -/
def Lineage (A : List (Op G) → Prop) (log : List (Event G)) : Prop :=
  ∀ pre p mid q post, log = pre ++ p :: (mid ++ q :: post) → p.isPoint = true → q.isPoint = true →
    (∀ x ∈ mid, x.isPoint = false) → mid = [] ∧ q.snap = p.snap ∨
      (mid.map Event.tag).count bredTag = 1 ∧ Generation A p.snap q.snap

/-- The first point of a run is its `init` event, no breeding comes before it, and `A` holds of what is seen
there. -/
def Opening (A : Snapshot G → Prop) (log : List (Event G)) : Prop :=
  ∀ pre q post, log = pre ++ q :: post → q.isPoint = true → (∀ x ∈ pre, x.isPoint = false) →
    q.tag = ("algorithm", "init") ∧ (pre.map Event.tag).count bredTag = 0 ∧ A q.snap

/-- A creator files new individuals properly: generation 0, cloned from none, selected by none, no operator,
no parents, and `update_parents` as configured. -/
def CreatorFiles (up : Bool) (create : Nat → Bool → WM G (List Nat)) : Prop :=
  ∀ n h s, wlp (create n h) (fun res s' => ∀ r ∈ res, ∃ id, papersAt s'.heap r =
    some ⟨id, 0, -1, [], [], up, []⟩) s

/-- Everybody in the population is a newborn. -/
def Newborns (up : Bool) (e : Snapshot G) : Prop :=
  ∀ is, some is ∈ e.inds → ∀ r ∈ is, ∃ id, papersAt e.heap r = some ⟨id, 0, -1, [], [], up, []⟩

/-- `cloned_from` leads from the individual with this id back to the initial population in `n` steps: the
chain of ids passes through individuals that can be seen in populations, and ends with one that can be seen
at the `init` event. -/
inductive Traces (log : List (Event G)) : Nat → Int → Prop
  | first (e : Event G) (is : List Nat) (r : Nat) (i : Ind G) : e ∈ log → e.tag = ("algorithm", "init") →
      some is ∈ e.snap.inds → r ∈ is → e.snap.heap[r]? = some i → Traces log 0 i.id
  | next (e : Event G) (is : List Nat) (r : Nat) (i : Ind G) (n : Nat) : e ∈ log → e.isPoint = true →
      some is ∈ e.snap.inds → r ∈ is → e.snap.heap[r]? = some i → Traces log n i.clonedFrom →
      Traces log (n + 1) i.id

end Verif.Evo
