import Verif.Model.Selection

/-! # What the subscribers of an operator are told — eckity/event_based_operator.py, eckity/genetic_operators -/

namespace Verif.Evo
open PyM
variable {G : Type}

/-- A genetic operator object together with its attribute `applied_individuals` and everything else
(event_based_operator.py:12-15). -/
structure Told (G : Type) where
  world : World G
  applied : Option (List Nat)

/-- An action that does not touch `applied_individuals`. -/
def Told.lift {α : Type} (m : WM G α) : PyM (Told G) α := fun s =>
  match m s.world with
  | (r, w) => (r, ⟨w, s.applied⟩)

/-- A failable operator that keeps `applied_individuals`.  `attempt` and `onFail` are `attempt_operator` and
`on_fail`; `marks b` tells whether an attempt that returns `(b, …)` has executed
`self.applied_individuals = individuals`. -/
structure MarkOp (G : Type) where
  name : String
  probability : ℚ
  arity : Nat
  attempts : Nat
  attempt : List Nat → Nat → WM G (Bool × List Nat)
  onFail : List Nat → WM G (Option (List Nat))
  marks : Bool → Bool

/-- `attempt_operator` with its assignment to `applied_individuals`, the last thing it does —
subtree_crossover.py:48-58, subtree_mutation.py:43-51, erc_mutation.py:35-47 (on success only),
vector_n_point_mutation.py:101-125 (in any case). -/
def MarkOp.attemptOperator (o : MarkOp G) (inds : List Nat) (i : Nat) : PyM (Told G) (Bool × List Nat) := do
  let r ← Told.lift (o.attempt inds i)
  if o.marks r.1 then do
    modify fun s => { s with applied := some inds }
    pure r
  else pure r

/-- The loop of `FailableOperator.apply` — failable_operator.py:61-69; `i` attempts made, `n` left. -/
def MarkOp.loop (o : MarkOp G) (inds : List Nat) : (n i : Nat) → PyM (Told G) (Option (List Nat))
  | 0, _ => Told.lift (o.onFail inds)
  | n + 1, i => do
    let r ← o.attemptOperator inds i
    if r.1 then pure (some r.2) else o.loop inds n (i + 1)

/-- `GeneticOperator.apply_operator` — genetic_operator.py:29-59, with `FailableOperator.apply`
(failable_operator.py:43-69).  `VectorKPointsCrossover` and `IdentityTransformation` override `apply` itself and set
the attribute at its end (vector_k_point_crossover.py:50-57, identity_transformation.py:18-20): a single attempt that
succeeds. -/
def MarkOp.applyOperator (o : MarkOp G) (inds : List Nat) : PyM (Told G) (List Nat) := do
  let u ← Told.lift (rand Rand.random)
  if u ≤ o.probability then do
    Told.lift (forL setNotEvaluated inds)
    match ← o.loop inds o.attempts 0 with
    | none => raise .typeError
    | some res => do
      let ids ← Told.lift (mapL (fun r => do let i ← deref r; pure i.id) inds)
      Told.lift (forL (fun r => update r (record o.name ids)) res)
      pure res
  else pure inds

/-- `operator.act(individuals)` — event_based_operator.py:24-55, 69-75, before_after_publisher.py:32-44: what it
returns, and the value of `applied_individuals` that the subscribers of `after_operator` are given.  The subscribers
themselves are taken to have no effect. -/
def MarkOp.act (o : MarkOp G) (inds : List Nat) : PyM (Told G) (List Nat × Option (List Nat)) :=
  if inds.length ≠ o.arity then raise .valueError
  else do
    let res ← o.applyOperator inds
    let s ← PyM.get
    pure (res, s.applied)

/-- Calls of `act` one after the other on one operator object; the caller goes on after a call that raised. -/
def MarkOp.acts (o : MarkOp G) : List (List Nat) → Told G → List (Except Err (List Nat × Option (List Nat))) × Told G
  | [], s => ([], s)
  | l :: ls, s =>
    match o.act l s with
    | (r, s') =>
      match o.acts ls s' with
      | (rs, s'') => (r :: rs, s'')

/-- `IdentityTransformation` — identity_transformation.py:4-20. -/
def identityMark (probability : ℚ) : MarkOp G where
  name := "IdentityTransformation"
  probability := probability
  arity := 1
  attempts := 1
  attempt := fun inds _ => pure (true, inds)
  onFail := fun inds => pure (some inds)
  marks := fun _ => true

/-- An operator that works on the genomes and assigns `applied_individuals` on success only, with the inherited
`on_fail` — the subtree crossover, the subtree mutation and the ERC mutation. -/
def MarkOp.onSuccess (name : String) (probability : ℚ) (arity attempts : Nat)
    (f : List G → Rand (Bool × List G)) : MarkOp G where
  name := name
  probability := probability
  arity := arity
  attempts := attempts
  attempt := fun inds _ => do
    let gs ← genomes inds
    let (ok, gs') ← rand (f gs)
    putGenomes inds gs'
    pure (ok, inds)
  onFail := fun inds => pure (some inds)
  marks := fun ok => ok

end Verif.Evo
