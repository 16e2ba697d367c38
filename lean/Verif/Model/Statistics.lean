import Verif.Model.Evolution

/-! # Statistics — eckity/statistics -/

namespace Verif.Evo
variable {G : Type}

/-- The statistics classes for `SimpleEvolution`: `MinimalPrintStatistics`, `BestAverageWorstStatistics`,
`BestAverageWorstSizeTreeStatistics`. -/
inductive StatKind
  | minimal
  | bestAverageWorst
  | withSize
deriving DecidableEq

/-- What is written with one call of the logger.  Simplification: the values that are put into the format
string instead of the formatted text. -/
inductive Msg
  | generation (n : Nat)
  | subpopulation (index : Nat)
  | values (best worst : FVal) (average : Option ℚ) (size : Option (Option ℚ))
deriving DecidableEq

/-- `np.average([ind.size() for ind in sub_pop.individuals])` — best_avg_worst_size_tree_statistics.py:28.
`none` stands for the NaN of an empty population.  Simplification: exact rationals. -/
def averageSize (size : G → Nat) (h : List (Ind G)) (inds : List Nat) : Except Err (Option ℚ) :=
  match inds.mapM (fun r => h[r]?) with
  | none => .error .attributeError
  | some is => if is.isEmpty then .ok none else .ok (some (((is.map fun i => (size i.genome : ℚ)).sum) / is.length))

/-- The values of a sub-population, in the order in which they are computed —
best_average_worst_statistics.py:37-44, best_avg_worst_size_tree_statistics.py:22-30. -/
def statValues (kind : StatKind) (size : G → Nat) (h : List (Ind G)) (hib : Bool) (inds : List Nat) :
    Except Err Msg :=
  match bestIndividual size h hib inds with
  | .error e => .error e
  | .ok b =>
    match pureOf h b with
    | .error e => .error e
    | .ok bv =>
      match worstIndividual size h hib inds with
      | .error e => .error e
      | .ok w =>
        match pureOf h w with
        | .error e => .error e
        | .ok wv =>
          match averageFitness h inds with
          | .error e => .error e
          | .ok avg =>
            match kind with
            | .withSize =>
              match averageSize size h inds with
              | .error e => .error e
              | .ok a => .ok (.values bv wv avg (some a))
            | _ => .ok (.values bv wv avg none)

/-- The loop over the sub-populations — best_average_worst_statistics.py:33-44,
best_avg_worst_size_tree_statistics.py:18-30: what is written before the loop ends or an exception leaves it.
Sub-populations without individuals (`None`) cannot be sorted: `TypeError`. -/
def statLoop (kind : StatKind) (size : G → Nat) (h : List (Ind G)) :
    Nat → List (SubCfg G × Option (List Nat)) → List Msg × Except Err Unit
  | _, [] => ([], .ok ())
  | k, (_, none) :: _ => ([.subpopulation k], .error .typeError)
  | k, (sub, some inds) :: rest =>
    match statValues kind size h sub.hib inds with
    | .error e => ([.subpopulation k], .error e)
    | .ok v =>
      match statLoop kind size h (k + 1) rest with
      | (ms, r) => (.subpopulation k :: v :: ms, r)

/-- `write_statistics(sender, data_dict)`, called with the data of the `after_generation` event —
best_average_worst_statistics.py:31-44, best_avg_worst_size_tree_statistics.py:16-30,
minimal_print_statistics.py:29-30; simple_evolution.py:235-254 (the data). -/
def writeStatistics (kind : StatKind) (size : G → Nat) (subs : List (SubCfg G)) (e : Snapshot G) :
    List Msg × Except Err Unit :=
  match kind with
  | .minimal => ([.generation e.genNum], .ok ())
  | _ =>
    match statLoop kind size e.heap 0 (subs.zip e.inds) with
    | (ms, r) => (.generation e.genNum :: ms, r)

end Verif.Evo
