import Verif.Model.Termination

/-!
# Scores that are infinite or not numbers

An evaluator may return any float, also an infinity or NaN (a mean of values some of which overflowed, say).  Elsewhere in
the model scores are rational numbers; here are the functions that compare scores, for all floats.  Simplifications: the
sums and products of finite numbers are exact, the two zeros are identified, every individual is evaluated, and
individuals are values, not objects.
-/

namespace Verif.Score
open PyM Verif.Evo

/-- A float. -/
inductive F
  | num (q : ℚ)
  | posInf
  | negInf
  | nan
deriving DecidableEq, Repr

/-- `x < y` as IEEE 754 has it. -/
def F.lt : F → F → Bool
  | .nan, _ => false
  | _, .nan => false
  | .num x, .num y => decide (x < y)
  | .negInf, .negInf => false
  | .negInf, _ => true
  | .posInf, _ => false
  | .num _, .posInf => true
  | .num _, .negInf => false

/-- `x + q` for a finite `q` -/
def F.plus (q : ℚ) : F → F
  | .num x => .num (x + q)
  | .posInf => .posInf
  | .negInf => .negInf
  | .nan => .nan

/-- An evaluated individual: which one it is, its score and its `size()`. -/
structure Scored where
  name : Nat
  score : F
  size : Nat
deriving DecidableEq, Repr

/-- `higher_is_better` and the `bloat_weight` (0 without bloat control), the same for all individuals of a population. -/
structure Rule where
  hib : Bool
  bloat : ℚ
deriving DecidableEq, Repr

/-- `get_augmented_fitness` — fitness.py:49-64, gp_fitness.py:51-78. -/
def Rule.augmented (R : Rule) (i : Scored) : F :=
  if R.bloat = 0 then i.score
  else if R.hib then i.score.plus (-(R.bloat * i.size)) else i.score.plus (R.bloat * i.size)

/-- `SimpleFitness.better_than` — simple_fitness.py:93-123. -/
def Rule.better (R : Rule) (i j : Scored) : Bool :=
  if R.hib then (R.augmented j).lt (R.augmented i) else (R.augmented i).lt (R.augmented j)

/-- The loop over the other individuals — simple_population_evaluator.py:68-71; the loop of
tournament_selection.py:81-84 is the same. -/
def Rule.bestLoop (R : Rule) : Scored → List Scored → Scored
  | b, [] => b
  | b, i :: is => R.bestLoop (if R.better i b then i else b) is

/-- The individual that `SimplePopulationEvaluator.act` returns, once the scores are stored —
simple_population_evaluator.py:65-73. -/
def Rule.best (R : Rule) : List Scored → Except Err Scored
  | [] => .error .indexError
  | i :: is => .ok (R.bestLoop i is)

/-- `TournamentSelection._pick_tournament_winner`: whom it clones — tournament_selection.py:80-85. -/
def Rule.winner (R : Rule) : List Scored → Except Err Scored
  | [] => .error .indexError
  | i :: is => .ok (R.bestLoop i is)

/-- `ThresholdFromTargetTerminationChecker.should_terminate` —
threshold_from_target_termination_checker.py:47.  The distance of an infinity from the target is infinite, that of
NaN is NaN. -/
def met (optimal thr : ℚ) (best : Scored) : Bool :=
  match best.score with
  | .num x => decide (|x - optimal| ≤ thr)
  | _ => false

/-- What a run leaves: `best_of_run_`, the number of the last generation, and `final_generation_`. -/
structure Outcome where
  best : Scored
  gen : Nat
  final : Option Nat
deriving DecidableEq, Repr

/-- The main loop from generation `g` on, with `k` generations to go — algorithm.py:282-292 with
simple_evolution.py:186-193.  `pop g` is the population of generation `g` after breeding and evaluation, whatever the
breeder made. -/
def Rule.loop (R : Rule) (pop : Nat → List Scored) (checker : Scored → Bool) : Nat → Nat → Scored → Except Err Outcome
  | 0, g, run => .ok ⟨run, g - 1, none⟩
  | k + 1, g, run =>
    match R.best (pop g) with
    | .error e => .error e
    | .ok b =>
      let run := if R.better b run then b else run
      if checker run then .ok ⟨run, g, some g⟩ else R.loop pop checker k (g + 1) run

/-- `evolve` — algorithm.py:171-189 with 224-225: the initial population may already do. -/
def Rule.evolve (R : Rule) (maxGen : Nat) (pop : Nat → List Scored) (checker : Scored → Bool) : Except Err Outcome :=
  match R.best (pop 0) with
  | .error e => .error e
  | .ok b => if checker b then .ok ⟨b, 0, some 0⟩ else R.loop pop checker maxGen 1 b

/-! ## Several objectives -/

/-- `x <= y` -/
def F.le : F → F → Bool
  | .nan, _ => false
  | _, .nan => false
  | .num x, .num y => decide (x ≤ y)
  | .negInf, _ => true
  | _, .posInf => true
  | _, _ => false

/-- `_o1_at_least_o2` — nsga2_fitness.py:109-125. -/
def atLeast (hib : Bool) (a b : F) : Bool := if hib then b.le a else a.le b

/-- `_o1_better_then_o2` — nsga2_fitness.py:127-143. -/
def betterObj (hib : Bool) (a b : F) : Bool := if hib then b.lt a else a.lt b

/-- `NSGA2Fitness.dominate`, for evaluated individuals — nsga2_fitness.py:93-107, with the comparison of the lengths
(61-64). -/
def dominate (hib : List Bool) (f g : List F) : Except Err Bool :=
  if g.length ≠ f.length then .error .valueError
  else .ok (((hib.zip (f.zip g)).all fun t => atLeast t.1 t.2.1 t.2.2) &&
    ((hib.zip (f.zip g)).any fun t => betterObj t.1 t.2.1 t.2.2))

/-- `_habdle_domination(ind1, ind2)`: only the counters, which decide about the first front —
nsga2_front_sorting.py:90-98. -/
def count (hib : List Bool) (obj : Nat → List F) (d : Nat → Nat) (x y : Nat) : Except Err (Nat → Nat) :=
  match dominate hib (obj y) (obj x) with
  | .error e => .error e
  | .ok true => .ok fun z => if z = x then d z + 1 else d z
  | .ok false => match dominate hib (obj x) (obj y) with
    | .error e => .error e
    | .ok true => .ok fun z => if z = y then d z + 1 else d z
    | .ok false => .ok d

/-- The inner loop of `_init_domination_dict` — nsga2_front_sorting.py:87-88. -/
def countAll (hib : List Bool) (obj : Nat → List F) (x : Nat) : List Nat → (Nat → Nat) → Except Err (Nat → Nat)
  | [], d => .ok d
  | y :: ys, d => match count hib obj d x y with
    | .error e => .error e
    | .ok d' => countAll hib obj x ys d'

/-- `_init_domination_dict` — nsga2_front_sorting.py:84-88. -/
def counters (hib : List Bool) (obj : Nat → List F) : List Nat → (Nat → Nat) → Except Err (Nat → Nat)
  | [], d => .ok d
  | x :: xs, d => match countAll hib obj x xs d with
    | .error e => .error e
    | .ok d' => counters hib obj xs d'

/-- The first front, which gets rank 1 — nsga2_front_sorting.py:39-42, 100-102. -/
def firstFront (hib : List Bool) (obj : Nat → List F) (source : List Nat) : Except Err (List Nat) :=
  match counters hib obj source fun _ => 0 with
  | .error e => .error e
  | .ok d => .ok (source.filter fun r => decide (d r = 0))

end Verif.Score
