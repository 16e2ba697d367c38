import Verif.Model.Publisher

/-! # Operators as publishers — eckity/event_based_operator.py, eckity/creators/creator.py -/

namespace Verif.Pub

/-- The attribute `events`: the dictionary made by default, or the object given by the caller, here a list of
names as documented in genetic_operator.py:21-22 — before_after_publisher.py:8-14. -/
inductive EventsAttr (C : Type)
  | dict (events : List (String × List (Nat × Stored C)))
  | names (l : List String)

/-- The argument `events`: `None` or a list of names. -/
abbrev EventsArg := Option (List String)

/-- The attribute `arity`: a number, or another object (`None`, a list). -/
inductive Arity
  | int (n : Nat)
  | other (o : EventsArg)
deriving DecidableEq

/-- An `Operator` — event_based_operator.py:12-15. -/
structure Oper (C : Type) where
  arity : Arity
  events : EventsAttr C
  customersId : Nat

variable {C β : Type}

/-- `Operator.__init__(arity, events, event_names)` — event_based_operator.py:12-15,
before_after_publisher.py:6-15. -/
def operatorInit (arity : Arity) (events : EventsArg) (names : List String) : Oper C :=
  match events with
  | none => ⟨arity, .dict (emptyEvents (names ++ ["before_operator", "after_operator"])), 0⟩
  | some l => ⟨arity, .names l, 0⟩

/-- `GeneticOperator.__init__` — genetic_operator.py:25-27; breeders and evaluators do the same with arity 1 —
breeder.py:20-21, population_evaluator.py:7-9. -/
def geneticOperatorInit (arity : Nat) (events : EventsArg) : Oper C := operatorInit (.int arity) events []

/-- `SelectionMethod.__init__` — selection_method.py:7-12: without `events` it is the list `["after_selection"]`. -/
def selectionInit (events : EventsArg) : Oper C := operatorInit (.int 1) (some (events.getD ["after_selection"])) []

/-- `Creator.__init__(events)` — creator.py:10-13: `super().__init__(events)` hands `events` over as the first
positional parameter, which is `arity`. -/
def creatorInit (events : EventsArg) : Oper C := operatorInit (.other events) none []

/-- `publish(event_name)` — before_after_publisher.py:17-18, 32-35: a list cannot be indexed with a string. -/
def Oper.publish (o : Oper C) (event : String) : List C × Except Err Unit :=
  match o.events with
  | .dict d => Pub.publish ⟨d, o.customersId⟩ event
  | .names _ => ([], .error .typeError)

/-- `register` and `unregister` — before_after_publisher.py:17-30. -/
def Oper.perform (c : Call C) : PyM (Oper C) (Option Nat) := fun o =>
  match o.events with
  | .dict d =>
    match Pub.perform c ⟨d, o.customersId⟩ with
    | (r, reg) => (r, ⟨o.arity, .dict reg.events, reg.customersId⟩)
  | .names _ => (.error .typeError, o)

/-- Perform calls one after the other, recording the results. -/
def Oper.performAll : List (Call C) → Oper C → List (Call C × Except Err (Option Nat)) × Oper C
  | [], o => ([], o)
  | c :: cs, o =>
    match Oper.perform c o with
    | (res, o') =>
      match Oper.performAll cs o' with
      | (hist, o'') => ((c, res) :: hist, o'')

/-- What `act` is given: a list of some length, or something that is not a list. -/
inductive Payload
  | list (len : Nat)
  | single
deriving DecidableEq

/-- `_assert_arity(payload)` — event_based_operator.py:43-55. -/
def Oper.assertArity (o : Oper C) (p : Payload) : Except Err Unit :=
  match p with
  | .single => if o.arity ≠ .int 1 then .error .valueError else .ok ()
  | .list n => if .int n ≠ o.arity then .error .valueError else .ok ()

/-- What happens during `act`: a subscriber of an event is called, or the operator is applied. -/
inductive Step (C : Type)
  | called (event : String) (c : C)
  | applied
deriving DecidableEq

/-- `act(payload)` — event_based_operator.py:24-41, before_after_publisher.py:40-44.  `apply` is the outcome of
`apply_operator(payload)`; its effects are the subject of other models. -/
def Oper.act (o : Oper C) (p : Payload) (apply : Except Err β) : List (Step C) × Except Err β :=
  match o.assertArity p with
  | .error e => ([], .error e)
  | .ok () =>
    match o.publish "before_operator" with
    | (cs, .error e) => (cs.map (Step.called "before_operator"), .error e)
    | (cs, .ok ()) =>
      match apply with
      | .error e => (cs.map (Step.called "before_operator") ++ [.applied], .error e)
      | .ok b =>
        match o.publish "after_operator" with
        | (cs', r) =>
          (cs.map (Step.called "before_operator") ++ [.applied] ++ cs'.map (Step.called "after_operator"),
            match r with
            | .error e => .error e
            | .ok () => .ok b)

/-- `creator.act(n_individuals)` — event_based_operator.py:24-41, creator.py:21-22: `apply_operator` calls
`create_individuals` with one of its two arguments, a `TypeError`. -/
def creatorAct (o : Oper C) (p : Payload) : List (Step C) × Except Err Unit := o.act p (.error .typeError)

end Verif.Pub
