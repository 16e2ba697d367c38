import Verif.Model.Individual
import Verif.Py.Sort
import Verif.Py.List

/-! # Genetic operators on individuals, and selection methods -/

namespace Verif.Evo
open PyM
variable {G : Type}

/-- A genetic operator object (crossover, mutation).  `apply` is the subclass-specific method: it gets
references to individuals, may modify them, and returns references (`none` for Python's `None`). -/
structure Op (G : Type) where
  name : String
  probability : ℚ
  arity : Nat
  apply : List Nat → WM G (Option (List Nat))

/-- The genomes of the individuals at `refs`. -/
def genomes (refs : List Nat) : WM G (List G) :=
  mapL (fun r => do let i ← deref r; pure i.genome) refs

/-- Store genomes into the individuals at `refs`. -/
def putGenomes (refs : List Nat) (gs : List G) : WM G Unit :=
  forL (fun (p : Nat × G) => update p.1 fun i => { i with genome := p.2 }) (refs.zip gs)

/-- An operator that modifies the genomes of its arguments in place and returns the individuals it was
given — what all crossovers and mutations of the library do (their effect on genomes is modelled in
`Model/GPOperators.lean` and `Model/Vector.lean`). -/
def Op.inPlace (name : String) (probability : ℚ) (arity : Nat)
    (f : List G → Rand (Option (List G))) : Op G where
  name := name
  probability := probability
  arity := arity
  apply := fun refs => do
    let gs ← genomes refs
    match ← rand (f gs) with
    | none => pure none
    | some gs' => do
      putGenomes refs gs'
      pure (some refs)

/-- The bookkeeping of `GeneticOperator.apply_operator` for one resulting individual —
genetic_operator.py:52-57. -/
def record (name : String) (parents : List Nat) (i : Ind G) : Ind G :=
  { i with
    appliedOps := i.appliedOps ++ [name]
    parents := if i.updateParents then i.parents ++ parents else i.parents }

/-- `GeneticOperator.apply_operator` — genetic_operator.py:29-59.  Iterating over `None` is a
`TypeError`.  (The ids of the participants, `[p.id for p in individuals]`, are read for each result;
operators do not change ids, so they are read once here.) -/
def applyOperator (o : Op G) (inds : List Nat) : WM G (List Nat) := do
  let u ← rand Rand.random
  if u ≤ o.probability then do
    forL setNotEvaluated inds
    match ← o.apply inds with
    | none => raise .typeError
    | some res => do
      let ids ← mapL (fun r => do let i ← deref r; pure i.id) inds
      forL (fun r => update r (record o.name ids)) res
      pure res
  else pure inds

/-- An operator that modifies the genomes of its arguments in place and, if that fails, hands the individuals to
another operator's `apply_operator` and returns what that one returns — what the Gaussian mutations do
(vector_random_mutation.py:129-136, 187-194).  `attempts` tells whether it succeeded. -/
def Op.withFallback (name : String) (probability : ℚ) (arity : Nat) (attempts : List G → Rand (Bool × List G))
    (inner : Op G) : Op G where
  name := name
  probability := probability
  arity := arity
  apply := fun refs => do
    let gs ← genomes refs
    let (succeeded, gs') ← rand (attempts gs)
    putGenomes refs gs'
    if succeeded then pure (some refs)
    else do
      let l ← applyOperator inner refs
      pure (some l)

/-- A selection method object: `select(source_inds, dest_inds)` returns the extended destination.  The
`arity` of the library's selection methods is the default 1 — selection_method.py:7-12,
event_based_operator.py:12-15. -/
structure Sel (G : Type) where
  arity : Nat
  select : List Nat → List Nat → WM G (List Nat)

/-- `clone.selected_by.append(type(self).__name__)` after `clone()`. -/
def cloneSelected (name : String) (r : Nat) : WM G Nat := do
  let c ← clone r
  update c fun i => { i with selectedBy := i.selectedBy ++ [name] }
  pure c

/-- The loop of `TournamentSelection._pick_tournament_winner` — tournament_selection.py:82-84. -/
def winnerLoop (size : G → Nat) : (winner : Nat) → List Nat → WM G Nat
  | w, [] => pure w
  | w, p :: ps => do
    let b ← reading fun h => betterOf size h p (some w)
    winnerLoop size (if b then p else w) ps

/-- `TournamentSelection._pick_tournament_winner` — tournament_selection.py:80-87. -/
def pickWinner (size : G → Nat) (tournament : List Nat) : WM G Nat :=
  match tournament with
  | [] => raise .indexError
  | t :: ts => do
    let w ← winnerLoop size t ts
    cloneSelected "TournamentSelection" w

/-- `TournamentSelection.select` — tournament_selection.py:42-78.  A negative number of tournaments
means none (`range`). -/
def tournamentSelect (size : G → Nat) (tournamentSize : Nat) (replace : Bool)
    (source dest : List Nat) : WM G (List Nat) := do
  if !replace && decide (source.length < tournamentSize) then raise .valueError
  else do
    let n := source.length - dest.length
    let tours ← rand (replicateM n
      (if replace then Rand.choices source tournamentSize else Rand.sample tournamentSize source))
    let winners ← mapL (pickWinner size) tours
    pure (dest ++ winners)

/-- A `TournamentSelection` object. -/
def tournament (size : G → Nat) (tournamentSize : Nat) (replace : Bool) : Sel G :=
  ⟨1, tournamentSelect size tournamentSize replace⟩

/-- Attach the sort key to every individual; an exception from the key function propagates. -/
def keyed (size : G → Nat) (h : List (Ind G)) : List Nat → Except Err (List (Nat × FVal))
  | [] => .ok []
  | r :: rs =>
    match augOf size h r with
    | .error e => .error e
    | .ok v =>
      match keyed size h rs with
      | .error e => .error e
      | .ok l => .ok ((r, v) :: l)

/-- Number of a key (0 for non-numbers, which are excluded beforehand). -/
def FVal.toRat : FVal → ℚ
  | .num q => q
  | _ => 0

/-- Is the value a number? -/
def FVal.isNum : FVal → Bool
  | .num _ => true
  | _ => false

/-- `sorted(inds, key=lambda ind: ind.get_augmented_fitness(), reverse=reverse)`; comparing two keys one
of which is not a number is a `TypeError`. -/
def sortedByFitness (size : G → Nat) (h : List (Ind G)) (reverse : Bool) (refs : List Nat) :
    Except Err (List Nat) :=
  match keyed size h refs with
  | .error e => .error e
  | .ok ks =>
    if decide (2 ≤ ks.length) && ks.any (fun p => !p.2.isNum) then
      .error .typeError
    else
      .ok ((Py.sortBy (fun a b => if reverse then decide (b.2.toRat ≤ a.2.toRat)
        else decide (a.2.toRat ≤ b.2.toRat)) ks).map Prod.fst)

/-- `ElitismSelection.select` — elitism_selection.py:10-21. -/
def elitismSelect (size : G → Nat) (numElites : Int) (hib : Bool) (source dest : List Nat) :
    WM G (List Nat) := do
  let sorted ← reading fun h => sortedByFitness size h hib source
  let clones ← mapL (cloneSelected "ElitismSelection") (Py.slice sorted 0 numElites)
  pure (dest ++ clones)

/-- An `ElitismSelection` object. -/
def elitism (size : G → Nat) (numElites : Int) (hib : Bool) : Sel G :=
  ⟨1, elitismSelect size numElites hib⟩

/-- `Subpopulation.get_best_individual` — subpopulation.py:159-165. -/
def bestIndividual (size : G → Nat) (h : List (Ind G)) (hib : Bool) (inds : List Nat) :
    Except Err Nat :=
  match sortedByFitness size h hib inds with
  | .error e => .error e
  | .ok [] => .error .indexError
  | .ok (r :: _) => .ok r

/-- `Subpopulation.get_worst_individual` — subpopulation.py:167-173. -/
def worstIndividual (size : G → Nat) (h : List (Ind G)) (hib : Bool) (inds : List Nat) :
    Except Err Nat :=
  match sortedByFitness size h (!hib) inds with
  | .error e => .error e
  | .ok [] => .error .indexError
  | .ok (r :: _) => .ok r

/-- The pure fitness values of a list of individuals. -/
def pureAll (h : List (Ind G)) : List Nat → Except Err (List FVal)
  | [] => .ok []
  | r :: rs =>
    match pureOf h r with
    | .error e => .error e
    | .ok v =>
      match pureAll h rs with
      | .error e => .error e
      | .ok l => .ok (v :: l)

/-- `Subpopulation.get_average_fitness` — subpopulation.py:175-178: `np.mean` of the pure fitness values.
`none` stands for the NaN of an empty population; non-numbers are a `TypeError`. -/
def averageFitness (h : List (Ind G)) (inds : List Nat) : Except Err (Option ℚ) :=
  match pureAll h inds with
  | .error e => .error e
  | .ok vs =>
    if vs.any (fun v => !v.isNum) then .error .typeError
    else if vs.isEmpty then .ok none
    else .ok (some ((vs.map FVal.toRat).sum / vs.length))

end Verif.Evo
