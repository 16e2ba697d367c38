import Verif.Model.Individual
import Verif.Model.Publisher

/-!
# Objects made as default values of parameters

Python evaluates the default value of a parameter once, when the function is defined: all calls that omit the
argument get the same object.  This concerns `Tree.__init__(fitness=GPFitness())` — tree_individual.py:35-37 —,
`SimpleEvolution.__init__(breeder=SimpleBreeder(), random_generator=RNG())` — simple_evolution.py:84-96 — and
`Algorithm.__init__(random_generator=RNG())` — algorithm.py:112.

The objects (`O`: fitness objects, or the subscribers of breeders) live in a list, the default object is the first.
-/

namespace Verif.Sharing
variable {O : Type}

/-- The argument: omitted; `None` (which `SimpleEvolution.__init__` replaces by a new `SimpleBreeder()` —
simple_evolution.py:118-119); an object `o` made for this call. -/
inductive Given (O : Type)
  | omitted
  | none
  | fresh (o : O)

/-- One constructor call: the reference kept by the constructed object — `self.fitness = fitness`, individual.py:45;
`self.breeder = breeder`, algorithm.py:130.  `new` is what the constructor makes for `None`. -/
def construct (new : O) : Given O → List O → Nat × List O
  | .omitted, st => (0, st)
  | .none, st => (st.length, st ++ [new])
  | .fresh o, st => (st.length, st ++ [o])

/-- Several constructor calls one after the other. -/
def constructAll (new : O) : List (Given O) → List O → List Nat × List O
  | [], st => ([], st)
  | g :: gs, st =>
    match construct new g st with
    | (i, st') =>
      match constructAll new gs st' with
      | (is, st'') => (i :: is, st'')

/-- Something is done to the part of the `k`-th constructed object (its fitness is set, somebody registers with its
breeder). -/
def touch (refs : List Nat) (k : Nat) (f : O → O) (st : List O) : List O :=
  match refs[k]? with
  | none => st
  | some i => st.modify i f

/-- A sequence of such operations. -/
def touchAll (refs : List Nat) : List (Nat × (O → O)) → List O → List O
  | [], st => st
  | (k, f) :: ops, st => touchAll refs ops (touch refs k f st)

/-- What the `k`-th constructed object sees of its part. -/
def see (refs : List Nat) (st : List O) (k : Nat) : Option O := refs[k]?.bind fun i => st[i]?

end Verif.Sharing
