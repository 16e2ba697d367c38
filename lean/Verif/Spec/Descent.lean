import Verif.Spec.Legal

/-! # Specification: what individuals have in common with the initial population -/

namespace Verif.Evo
variable {G κ K : Type}

/-- The features the individuals of the population in the event have. -/
def Event.Features (key : G → K) (e : Event G) (k : K) : Prop :=
  ∃ is r i, some is ∈ e.snap.inds ∧ r ∈ is ∧ e.snap.heap[r]? = some i ∧ key i.genome = k

/-- Every individual that can be seen in any event has a feature some individual had in the population
of the first event (the announcement of the first evaluation, which shows the initial population). -/
def Confined (key : G → K) (log : List (Event G)) : Prop :=
  ∀ e₀, log.head? = some e₀ → ∀ e ∈ log, e.AllHave fun g => e₀.Features key (key g)

/-- Some individual of the population in the event has the part `x`; `has g x` says that `x` is a part of
the genome `g`. -/
def Event.HasPart (has : G → K → Prop) (e : Event G) (x : K) : Prop :=
  ∃ is r i, some is ∈ e.snap.inds ∧ r ∈ is ∧ e.snap.heap[r]? = some i ∧ has i.genome x

/-- Every part of every individual that can be seen in any event is a part of some individual in the
population of the first event (the announcement of the first evaluation, which shows the initial
population). -/
def Recombined (has : G → K → Prop) (log : List (Event G)) : Prop :=
  ∀ e₀, log.head? = some e₀ → ∀ e ∈ log, e.AllHave fun g => ∀ x, has g x → e₀.HasPart has x

end Verif.Evo
