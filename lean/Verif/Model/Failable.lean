import Verif.Model.GPOperators

/-!
# `FailableOperator` in general

`eckity/genetic_operators/failable_operator.py`, with the payload as what it is in Python: a reference that
is passed unchanged to every attempt, all effects being effects on the state.  `Model/GPOperators` has the
same function for the payloads of the concrete operators, where the state of the individuals behind the
reference is threaded as a value; `Props/Failable` relates the two.
-/

namespace Verif.Failable

variable {σ α β : Type}

/-- The loop of `FailableOperator.apply` — failable_operator.py:61-69; `i` attempts made, `n` left.  The
result of a failed attempt is dropped (line 63-67). -/
def loop (attempt : α → Nat → PyM σ (Bool × β)) (onFail : α → PyM σ β) (payload : α) :
    (n i : Nat) → PyM σ β
  | 0, _ => onFail payload
  | n + 1, i => do
    let (succeeded, result) ← attempt payload i
    if succeeded then pure result
    else loop attempt onFail payload n (i + 1)

/-- A `FailableOperator` — failable_operator.py:30-40 (the number of attempts), 71-91 (`attempt_operator`)
and 93-109 (`on_fail`). -/
structure Op (σ α β : Type) where
  attempts : Nat
  attempt : α → Nat → PyM σ (Bool × β)
  onFail : α → PyM σ β

/-- `FailableOperator.__init__` — failable_operator.py:30-40; probability, arity and events belong to
`GeneticOperator` and are not part of this model. -/
def Op.new (attempts : Int) (attempt : α → Nat → PyM σ (Bool × β)) (onFail : α → PyM σ β) :
    Except Err (Op σ α β) :=
  if attempts < 1 then .error .valueError else .ok ⟨attempts.toNat, attempt, onFail⟩

/-- `FailableOperator.apply` — failable_operator.py:43-69. -/
def Op.apply (op : Op σ α β) (payload : α) : PyM σ β :=
  loop op.attempt op.onFail payload op.attempts 0

end Verif.Failable
