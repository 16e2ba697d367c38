import Verif.Model.Pickle

/-!
# The constructor of `SimpleEvolution` and the attributes it sets; clones of estimators

`SimpleEvolution.__init__` (eckity/algorithms/simple_evolution.py:84-157) with `Algorithm.__init__`
(eckity/algorithms/algorithm.py:100-163) from keyword arguments to attributes, and scikit-learn's `clone` of a
`SklearnWrapper` (eckity/sklearn_compatible/sklearn_wrapper.py).  `Model.Construction` has the checks in more detail.
Left out: `events` and `event_names`, which are accepted and not looked at, and the attributes that `Operator.__init__`
sets (`events`, `applied_individuals`, `arity`).
-/

namespace Verif.Store
open Evo
variable {G : Type}

/-- What the constructor knows about its arguments: `_validate_population_type` and `_validate_statistics_type`
(algorithm.py:228-274) return what becomes the attribute, `breeder` and `evaluator` are the `isinstance` tests
(simple_evolution.py:124-132); and the objects it makes itself. -/
structure Classes (G : Type) where
  population : Val G → Except Err (Val G)
  statistics : Val G → Except Err (Val G)
  breeder : Val G → Bool
  evaluator : Val G → Bool
  defaultBreeder : Val G
  newBreeder : Val G
  newEvaluator : Val G
  defaultGenerator : Val G
  noStatistics : Val G

/-- The parameters of `SimpleEvolution.__init__` — simple_evolution.py:84-103. -/
def parameters : List String :=
  ["population", "statistics", "breeder", "population_evaluator", "max_generation", "events", "event_names",
   "termination_checker", "executor", "max_workers", "random_generator", "random_seed", "generation_seed",
   "best_of_run_", "best_of_gen", "worst_of_gen", "generation_num"]

/-- The value of a parameter with a default. -/
def Attrs.arg (kw : Attrs G) (k : String) (dflt : Val G) : Val G := (Attrs.get kw k).getD dflt

/-- `if x is None: x = new` -/
def Val.orNew (new : Val G) : Val G → Val G
  | .none => new
  | v => v

/-- The attributes other than those of the executor — algorithm.py:127-151, 163, simple_evolution.py:151-157; `clock` is
`int(pre_dec_pnt + post_dec_pnt)` of algorithm.py:139. -/
def attributes (C : Classes G) (clock : Nat) (kw : Attrs G) (pop stats : Val G) : Attrs G :=
  let seed := Val.orNew (.int ((clock % 2 ^ 32 : Nat) : Int)) (kw.arg "random_seed" .none)
  [("population", pop), ("statistics", stats),
   ("breeder", Val.orNew C.newBreeder (kw.arg "breeder" C.defaultBreeder)),
   ("population_evaluator", Val.orNew C.newEvaluator (kw.arg "population_evaluator" .none)),
   ("random_generator", kw.arg "random_generator" C.defaultGenerator),
   ("random_seed", seed),
   ("generation_seed", Val.orNew seed (kw.arg "generation_seed" .none)),
   ("generation_num", kw.arg "generation_num" (.int 0)),
   ("termination_checker", kw.arg "termination_checker" .none),
   ("best_of_run_", kw.arg "best_of_run_" .none),
   ("best_of_gen", kw.arg "best_of_gen" .none),
   ("worst_of_gen", kw.arg "worst_of_gen" .none),
   ("max_generation", kw.arg "max_generation" (.int 500)),
   ("final_generation_", .none)]

/-- `SimpleEvolution(**kw)` — simple_evolution.py:84-157, algorithm.py:100-163.  An unknown keyword, and a missing
`population`, is a `TypeError`. -/
def construct (C : Classes G) (serial clock : Nat) (kw : Attrs G) : Except Err (Attrs G) :=
  if kw.any fun p => !parameters.contains p.1 then .error .typeError
  else match Attrs.get kw "population" with
    | none => .error .typeError
    | some pop =>
      if !C.breeder (Val.orNew C.newBreeder (kw.arg "breeder" C.defaultBreeder)) then .error .valueError
      else if !C.evaluator (Val.orNew C.newEvaluator (kw.arg "population_evaluator" .none)) then .error .valueError
      else match C.population pop with
        | .error e => .error e
        | .ok pop =>
          match C.statistics (Val.orNew C.noStatistics (kw.arg "statistics" .none)) with
          | .error e => .error e
          | .ok stats =>
            match kw.arg "executor" (.str "thread") with
            | .str ex => initExecutor serial (attributes C clock kw pop stats) ex (kw.arg "max_workers" .none)
            | _ => .error .valueError

/-- scikit-learn's `clone(estimator)`: the parameters that `get_params` reports are copied — the algorithm, which has no
`get_params`, with `copy.deepcopy`, which goes through `__getstate__` and `__setstate__` as pickling does (`roundTrip`) —
and the class is called with them: `SklearnWrapper.__init__` (sklearn_wrapper.py:21-23) has the parameter `algorithm` only.
`r'` is the name of the new algorithm object.  Simplification: the other attributes an estimator may have are parameters
the constructor does not accept. -/
def cloneEst (s : Algs G) (est : Attrs G) (r' : Nat) : Except Err (Attrs G × Algs G) :=
  match getParams est with
  | [(k, .alg r)] =>
    if k = "algorithm" then
      match roundTrip s.execs (s.objs r) with
      | .error e => .error e
      | .ok d => .ok ([("algorithm", .alg r')], ⟨fun x => if x = r' then d else s.objs x, s.execs + 1⟩)
    else .error .typeError
  | _ => .error .typeError

end Verif.Store
