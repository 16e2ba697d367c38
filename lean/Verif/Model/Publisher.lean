import Verif.Py.Basic

/-! # Event publishing — eckity/before_after_publisher.py -/

namespace Verif.Pub
open PyM

/-- What `register` stores for a subscriber: the callback given, or — when none is given — a set
containing a function, which cannot be called (before_after_publisher.py:22-23). -/
inductive Stored (C : Type)
  | callback (c : C)
  | aSet
deriving DecidableEq

/-- A `BeforeAfterPublisher`: a dictionary from event names to dictionaries of subscribers, and the
counter — before_after_publisher.py:6-15.  Dictionaries are lists of pairs in insertion order. -/
structure Registry (C : Type) where
  events : List (String × List (Nat × Stored C))
  customersId : Nat

variable {C : Type}

/-- `dict[key]` on a dictionary in insertion order. -/
def lookup {α β : Type} [DecidableEq α] (d : List (α × β)) (k : α) : Option β :=
  (d.find? fun p => p.1 = k).map (·.2)

/-- `dict[key] = value`: replaces in place, or appends. -/
def assign {α β : Type} [DecidableEq α] : List (α × β) → α → β → List (α × β)
  | [], k, v => [(k, v)]
  | (k', v') :: d, k, v => if k' = k then (k, v) :: d else (k', v') :: assign d k v

/-- `{event: {} for event in names}`. -/
def emptyEvents (names : List String) : List (String × List (Nat × Stored C)) :=
  names.foldl (fun d n => assign d n []) []

/-- `BeforeAfterPublisher.__init__(event_names=names)` — before_after_publisher.py:6-15. -/
def new (names : List String) : Registry C :=
  ⟨emptyEvents (names ++ ["before_operator", "after_operator"]), 0⟩

/-- `BeforeAfterPublisher.__init__(events=events)` with an existing dictionary, "in case of deserialization/clone" —
before_after_publisher.py:6-15: the counter starts at 0 again.  Simplification: the dictionary is copied, the code
shares it with its owner. -/
def restore (events : List (String × List (Nat × Stored C))) : Registry C := ⟨events, 0⟩

/-- The value stored for a `callback` argument — before_after_publisher.py:22-24. -/
def stored (callback : Option C) : Stored C :=
  match callback with
  | some c => .callback c
  | none => .aSet

/-- `register(event, callback)` — before_after_publisher.py:20-26.  (The inner dictionary is shared, so
assigning to it changes the outer one.) -/
def register (event : String) (callback : Option C) : PyM (Registry C) Nat := do
  let r ← PyM.get
  match lookup r.events event with
  | none => raise .keyError
  | some subs => do
    PyM.set { events := assign r.events event (assign subs r.customersId (stored callback))
              customersId := r.customersId + 1 }
    pure r.customersId

/-- `unregister(event, customers_id)` — before_after_publisher.py:28-30. -/
def unregister (event : String) (id : Nat) : PyM (Registry C) Unit := do
  let r ← PyM.get
  match lookup r.events event with
  | none => raise .keyError
  | some subs =>
    match lookup subs id with
    | none => raise .keyError
    | some _ => PyM.set { r with events := assign r.events event (subs.filter fun p => p.1 ≠ id) }

/-- The loop of `publish`: call the callbacks in turn; calling a set is a `TypeError`.  Returns the
callbacks called.  Simplification: callbacks do not raise and do not (un)register on this publisher. -/
def callAll : List (Nat × Stored C) → List C × Except Err Unit
  | [] => ([], .ok ())
  | (_, .callback c) :: rest =>
    match callAll rest with
    | (cs, r) => (c :: cs, r)
  | (_, .aSet) :: _ => ([], .error .typeError)

/-- `publish(event_name)` — before_after_publisher.py:32-35. -/
def publish (r : Registry C) (event : String) : List C × Except Err Unit :=
  match lookup r.events event with
  | none => ([], .error .keyError)
  | some subs => callAll subs

/-- A call of the interface. -/
inductive Call (C : Type)
  | register (event : String) (callback : Option C)
  | unregister (event : String) (id : Nat)
deriving DecidableEq

/-- Perform a call; the result is the id returned, if any. -/
def perform : Call C → PyM (Registry C) (Option Nat)
  | .register e cb => do
    let i ← register e cb
    pure (some i)
  | .unregister e i => do
    unregister e i
    pure none

/-- Perform calls one after the other (exceptions are caught by the caller), recording the results. -/
def performAll : List (Call C) → Registry C → List (Call C × Except Err (Option Nat)) × Registry C
  | [], r => ([], r)
  | c :: cs, r =>
    match perform c r with
    | (res, r') =>
      match performAll cs r' with
      | (hist, r'') => ((c, res) :: hist, r'')

end Verif.Pub
