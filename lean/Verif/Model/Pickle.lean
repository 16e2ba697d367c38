import Verif.Model.Individual

/-!
# Saving and restoring algorithms and estimators

`Algorithm.__getstate__`, `Algorithm.__setstate__`, the executor part of `Algorithm.__init__`
(eckity/algorithms/algorithm.py), `SklearnWrapper.get_params`, `set_params`, `__getstate__`, `__setstate__`
(eckity/sklearn_compatible/sklearn_wrapper.py).

An object's `__dict__` is a list of attribute names and values.  Pickling copies the attributes in depth; objects
that are shared inside the pickled structure are copied separately here.
-/

namespace Verif.Store
open Evo

/-- The two kinds of executors. -/
inductive Kind
  | thread
  | process
deriving DecidableEq, Repr

/-- A `concurrent.futures` executor; `serial` tells different executor objects apart. -/
structure Exec where
  kind : Kind
  maxWorkers : Option Int
  serial : Nat
  shut : Bool
deriving DecidableEq, Repr

variable {G : Type}

/-- Attribute values.  `evaluator ex` is the population evaluator with its attribute `executor`
(population_evaluator.py:9, 30-31), `pop` the individuals of a population, `alg r` an algorithm object, `plain` any
other picklable value. -/
inductive Val (G : Type)
  | none
  | bool (b : Bool)
  | int (n : Int)
  | str (s : String)
  | exec (e : Exec)
  | evaluator (ex : Option Exec)
  | ind (i : Ind G)
  | pop (subs : List (List (Ind G)))
  | alg (r : Nat)
  | plain (n : Nat)

/-- A `__dict__`. -/
abbrev Attrs (G : Type) := List (String × Val G)

/-- `d.get(k)` -/
def Attrs.get (d : Attrs G) (k : String) : Option (Val G) := (d.find? fun p => p.1 = k).map Prod.snd

/-- `d[k] = v` -/
def Attrs.put : Attrs G → String → Val G → Attrs G
  | [], k, v => [(k, v)]
  | p :: d, k, v => if p.1 = k then (k, v) :: d else p :: Attrs.put d k v

/-- `d.update(e)` -/
def Attrs.update (d e : Attrs G) : Attrs G := e.foldl (fun acc p => Attrs.put acc p.1 p.2) d

/-- `del d[k]` -/
def Attrs.del (d : Attrs G) (k : String) : Except Err (Attrs G) :=
  match Attrs.get d k with
  | .none => .error .keyError
  | some _ => .ok (d.filter fun p => p.1 ≠ k)

/-- `ThreadPoolExecutor(max_workers=v)` / `ProcessPoolExecutor(max_workers=v)`. -/
def newExec (kind : Kind) (serial : Nat) : Val G → Except Err Exec
  | .none => .ok ⟨kind, .none, serial, false⟩
  | .int n => if n ≤ 0 then .error .valueError else .ok ⟨kind, some n, serial, false⟩
  | _ => .error .typeError

/-- The executor part of `Algorithm.__init__` — algorithm.py:153-161: sets `max_workers`, `executor` and
`_executor_type`. -/
def initExecutor (serial : Nat) (d : Attrs G) (executor : String) (maxWorkers : Val G) : Except Err (Attrs G) :=
  let d := Attrs.put d "max_workers" maxWorkers
  match (if executor = "thread" then newExec .thread serial maxWorkers
         else if executor = "process" then newExec .process serial maxWorkers
         else .error .valueError) with
  | .error e => .error e
  | .ok ex => .ok (Attrs.put (Attrs.put d "executor" (.exec ex)) "_executor_type" (.str executor))

/-- `Algorithm.__getstate__` — algorithm.py:423-436. -/
def getState (d : Attrs G) : Except Err (Attrs G) := Attrs.del d "executor"

/-- The test of `__setstate__` — algorithm.py:450. -/
def kindOf : Val G → Kind
  | .str t => if t = "thread" then .thread else .process
  | _ => .process

/-- `Algorithm.__setstate__` — algorithm.py:438-453.  A missing attribute is an `AttributeError`. -/
def setState (serial : Nat) (d state : Attrs G) : Except Err (Attrs G) :=
  let d := Attrs.update d state
  match Attrs.get d "_executor_type", Attrs.get d "max_workers" with
  | some t, some w =>
    match newExec (kindOf t) serial w with
    | .error e => .error e
    | .ok ex => .ok (Attrs.put d "executor" (.exec ex))
  | _, _ => .error .attributeError

/-- The copy of an individual; the copy of its fitness goes through `SimpleFitness.__getstate__`. -/
def pickleInd (i : Ind G) : Ind G := { i with fit := i.fit.getstate }

/-- Pickle and unpickle an attribute value: executors cannot be pickled (they contain locks).  Nested algorithms
do not occur. -/
def pickleVal : Val G → Except Err (Val G)
  | .exec _ => .error .typeError
  | .evaluator (some _) => .error .typeError
  | .ind i => .ok (.ind (pickleInd i))
  | .pop subs => .ok (.pop (subs.map (·.map pickleInd)))
  | v => .ok v

/-- Pickle and unpickle a state. -/
def pickleAttrs : Attrs G → Except Err (Attrs G)
  | [] => .ok []
  | (k, v) :: d => match pickleVal v with
    | .error e => .error e
    | .ok v' => match pickleAttrs d with
      | .error e => .error e
      | .ok d' => .ok ((k, v') :: d')

/-- `pickle.loads(pickle.dumps(algorithm))`: `__getstate__`, copy, `__setstate__` on an empty object. -/
def roundTrip (serial : Nat) (d : Attrs G) : Except Err (Attrs G) :=
  match getState d with
  | .error e => .error e
  | .ok st => match pickleAttrs st with
    | .error e => .error e
    | .ok st' => setState serial [] st'

/-- `population_evaluator.set_executor(self.executor)` in `Algorithm.initialize` — algorithm.py:218. -/
def connect (d : Attrs G) : Attrs G :=
  match Attrs.get d "executor" with
  | some (.exec ex) => Attrs.put d "population_evaluator" (.evaluator (some ex))
  | _ => d

/-! ## The scikit-learn wrapper -/

/-- The algorithm objects and the number of executors created so far. -/
structure Algs (G : Type) where
  objs : Nat → Attrs G
  execs : Nat

/-- `SklearnWrapper.__getstate__`, which is also `get_params` — sklearn_wrapper.py:75-76, 86-90. -/
def getParams (est : Attrs G) : Attrs G := est.filter fun p => p.1 ≠ "is_fitted_"

/-- `SklearnWrapper.set_params` — sklearn_wrapper.py:78-80.  The estimator itself is not changed. -/
def setParams (s : Algs G) (est params : Attrs G) : Except Err (Algs G) :=
  match Attrs.get est "algorithm" with
  | some (.alg r) => match setState s.execs (s.objs r) params with
    | .error e => .error e
    | .ok d => .ok ⟨fun x => if x = r then d else s.objs x, s.execs + 1⟩
  | _ => .error .attributeError

/-- `check_is_fitted(self)`: some attribute ends with an underscore; `is_fitted_` is the only one there may be. -/
def isFitted (est : Attrs G) : Bool := (Attrs.get est "is_fitted_").isSome

/-- Pickle and unpickle an estimator: `__getstate__`, then `__setstate__` on an empty object —
sklearn_wrapper.py:86-93.  (The algorithm is restored by `roundTrip`; here it keeps its name.) -/
def restoreEstimator (est : Attrs G) : Attrs G := Attrs.update [] (getParams est)

end Verif.Store
