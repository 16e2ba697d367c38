import Verif.Model.Publisher

/-! # Publishing to subscribers that act — eckity/before_after_publisher.py:32-35

`Verif.Pub.publish` treats subscribers as passive; here a callback is a program that can do anything to the
publisher (it is given the sender) and to the rest of the world, and can raise. -/

namespace Verif.Pub
open PyM
variable {C W : Type} [DecidableEq C]

/-- The publisher and the rest of the world. -/
abbrev Live (C W : Type) := Registry C × W

/-- Do something to the publisher only. -/
def onRegistry {α : Type} (m : PyM (Registry C) α) : PyM (Live C W) α := fun s =>
  match m s.1 with
  | (r, reg) => (r, (reg, s.2))

/-- `callback(self, struct)`; a stored set cannot be called. -/
def invoke (run : C → PyM (Live C W) Unit) : Stored C → PyM (Live C W) Unit
  | .callback c => run c
  | .aSet => raise .typeError

/-- The loop `for subscriber, callback in d.items(): callback(self, struct)` with `k` entries to go, `d₀` being the
dictionary when it started.  At every step, also the one that would end the loop, the iterator compares the size of
the dictionary with the size at the start and raises `RuntimeError` if they differ.  Simplification: how the iteration
goes on if the entries have changed but not their number (one subscriber removed and one added) depends on the inner
layout of the dictionary and is left open: `odd` does the rest. -/
def iterate (run : C → PyM (Live C W) Unit)
    (odd : List (Nat × Stored C) → List (Nat × Stored C) → Nat → PyM (Live C W) Unit) (event : String)
    (d₀ : List (Nat × Stored C)) : Nat → PyM (Live C W) Unit
  | 0 => do
    let s ← PyM.get
    let d := (lookup s.1.events event).getD []
    if d.length ≠ d₀.length then raise .runtimeError
    else if d = d₀ then pure ()
    else odd d₀ d 0
  | k + 1 => do
    let s ← PyM.get
    let d := (lookup s.1.events event).getD []
    if d.length ≠ d₀.length then raise .runtimeError
    else if d = d₀ then do
      match d₀[d₀.length - (k + 1)]? with
      | some p => do
        invoke run p.2
        iterate run odd event d₀ k
      | none => pure ()
    else odd d₀ d (k + 1)

/-- `publish(event_name)` — before_after_publisher.py:32-35. -/
def publishLive (run : C → PyM (Live C W) Unit)
    (odd : List (Nat × Stored C) → List (Nat × Stored C) → Nat → PyM (Live C W) Unit) (event : String) :
    PyM (Live C W) Unit := do
  let s ← PyM.get
  match lookup s.1.events event with
  | none => raise .keyError
  | some d => iterate run odd event d d.length

end Verif.Pub
