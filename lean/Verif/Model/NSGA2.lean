import Verif.Py.Random
import Verif.Py.Sort

/-!
# NSGA-II: fitness and front sorting

`eckity/multi_objective_evolution/nsga2_fitness.py`, `nsga2_front_sorting.py`,
`crowding_termination_checker.py`, `moe_best_worst_statistics.py`.

Individuals are references (`Individual` defines neither `__eq__` nor `__hash__`, so dictionaries and sets
compare identities); a heap maps them to their fitness objects.  Objective values are exact rationals
(no NaN, no rounding).  The order in which Python iterates over a `set` is not determined; it is a parameter.
-/

namespace Verif.Moo
open PyM

/-- A crowding value: a number or `float("inf")`. -/
inductive Crowd
  | fin (q : ℚ)
  | inf
deriving DecidableEq

/-- `c + q` for a finite `q`. -/
def Crowd.add : Crowd → ℚ → Crowd
  | .fin c, q => .fin (c + q)
  | .inf, _ => .inf

/-- `a <= b` -/
def Crowd.le : Crowd → Crowd → Bool
  | .fin a, .fin b => decide (a ≤ b)
  | .fin _, .inf => true
  | .inf, .fin _ => false
  | .inf, .inf => true

/-- `a < b` -/
def Crowd.lt : Crowd → Crowd → Bool
  | .fin a, .fin b => decide (a < b)
  | .fin _, .inf => true
  | .inf, _ => false

/-- `higher_is_better`: a bool, or a list with one bool for each objective — nsga2_fitness.py:28-29, 36-37. -/
inductive Dirs
  | same (b : Bool)
  | each (bs : List Bool)
deriving DecidableEq

/-- An `NSGA2Fitness` — nsga2_fitness.py:11-29.  `objs` is `fitness`; the flag `_is_evaluated` is true exactly
if it is not `None` (both are set together in all methods), so it is not stored.  `rank = none` is
`float("inf")`. -/
structure Fit where
  objs : Option (List ℚ)
  dirs : Dirs
  cache : Bool
  relative : Bool
  crowding : Crowd
  rank : Option Nat
deriving DecidableEq

/-- The conversion of a bool into a list — nsga2_fitness.py:28-29, 36-37. -/
def Dirs.fit (n : Nat) : Dirs → Dirs
  | .same b => .each (List.replicate n b)
  | .each bs => .each bs

/-- `NSGA2Fitness.__init__` — nsga2_fitness.py:11-29, fitness.py:29-43. -/
def Fit.new (fitness : Option (List ℚ)) (hib : Dirs) (cache relative : Bool) : Fit where
  objs := fitness
  dirs := match fitness with
    | none => hib
    | some v => hib.fit v.length
  cache := if relative then false else cache
  relative := relative
  crowding := .fin 0
  rank := none

/-- `set_fitness` — nsga2_fitness.py:31-37. -/
def Fit.set (f : Fit) (v : List ℚ) : Except Err Fit :=
  match f.objs with
  | some _ => .error .attributeError
  | none => .ok { f with objs := some v, dirs := f.dirs.fit v.length }

/-- `get_pure_fitness` — nsga2_fitness.py:40-43; `get_augmented_fitness` is the same — fitness.py:52-68. -/
def Fit.pure (f : Fit) : Except Err (List ℚ) :=
  match f.objs with
  | some v => .ok v
  | none => .error .valueError

/-- `set_not_evaluated` — nsga2_fitness.py:46-50. -/
def Fit.reset (f : Fit) : Fit := { f with objs := none, crowding := .fin 0, rank := none }

/-- The copy made by `deepcopy`, which goes through `__getstate__` — nsga2_fitness.py:151-156. -/
def Fit.copy (f : Fit) : Fit := if f.cache then f else { f with objs := none }

/-- `is_fitness_evaluated` — fitness.py:119-129. -/
def Fit.isEvaluated (f : Fit) : Bool := f.relative || f.objs.isSome

/-- `check_comparable_fitnesses`, and the two values it looks at — nsga2_fitness.py:52-64.  The other object
is assumed to be an `NSGA2Fitness` as well. -/
def Fit.comparable (f g : Fit) : Except Err (List ℚ × List ℚ) :=
  if !f.isEvaluated || !g.isEvaluated then .error .valueError
  else match g.pure with
    | .error e => .error e
    | .ok b => match f.pure with
      | .error e => .error e
      | .ok a => if b.length ≠ a.length then .error .valueError else .ok (a, b)

/-- `_o1_at_least_o2` — nsga2_fitness.py:109-125. -/
def atLeast (hib : Bool) (a b : ℚ) : Bool := if hib then decide (b ≤ a) else decide (a ≤ b)

/-- `_o1_better_then_o2` — nsga2_fitness.py:127-143. -/
def betterObj (hib : Bool) (a b : ℚ) : Bool := if hib then decide (b < a) else decide (a < b)

/-- `dominate` — nsga2_fitness.py:93-107.  `zip` stops at the shortest of the three; a bool cannot be
zipped. -/
def Fit.dominate (f g : Fit) : Except Err Bool :=
  match f.comparable g with
  | .error e => .error e
  | .ok (a, b) => match f.dirs with
    | .same _ => .error .typeError
    | .each bs => .ok ((bs.zip (a.zip b)).all (fun z => atLeast z.1 z.2.1 z.2.2) &&
        (bs.zip (a.zip b)).any (fun z => betterObj z.1 z.2.1 z.2.2))

/-- `better_than` — nsga2_fitness.py:66-85. -/
def Fit.betterThan (f g : Fit) : Rand Bool :=
  match f.rank with
  | none => do
    let bit ← Rand.below 2
    PyM.pure (decide (bit = 1))
  | some r => do
    let _ ← ofExcept (f.comparable g)
    PyM.pure (if f.rank = g.rank then g.crowding.lt f.crowding
      else match g.rank with
        | none => false
        | some r' => decide (r' < r))

/-- `equal_to` — nsga2_fitness.py:87-91. -/
def Fit.equalTo (f g : Fit) : Bool := decide (f.rank = g.rank) && decide (f.crowding = g.crowding)

/-! ## Front sorting -/

/-- The fitness objects of the individuals. -/
abbrev Heap := Nat → Fit

/-- Change the fitness object of `r`. -/
def Heap.set (h : Heap) (r : Nat) (f : Fit → Fit) : Heap := fun x => if x = r then f (h x) else h x

/-- Change the fitness objects of a list of individuals, one after the other. -/
def Heap.setAll (h : Heap) (f : Fit → Fit) : List Nat → Heap
  | [] => h
  | r :: rs => Heap.setAll (h.set r f) f rs

/-- `domination_dict`, a `defaultdict` of `DominationCounter`s — nsga2_front_sorting.py:84-85, 106-113. -/
structure Dom where
  dominates : Nat → List Nat
  counter : Nat → Int

/-- The empty `domination_dict`. -/
def Dom.empty : Dom := ⟨fun _ => [], fun _ => 0⟩

/-- `_increase_domination_counter(dominating, dominated)` — nsga2_front_sorting.py:96-98. -/
def Dom.increase (d : Dom) (x y : Nat) : Dom where
  dominates := fun z => if z = x then d.dominates z ++ [y] else d.dominates z
  counter := fun z => if z = y then d.counter z + 1 else d.counter z

/-- `_habdle_domination(ind1, ind2)` — nsga2_front_sorting.py:90-94. -/
def handle (h : Heap) (d : Dom) (x y : Nat) : Except Err Dom :=
  match (h y).dominate (h x) with
  | .error e => .error e
  | .ok true => .ok (d.increase y x)
  | .ok false => match (h x).dominate (h y) with
    | .error e => .error e
    | .ok true => .ok (d.increase x y)
    | .ok false => .ok d

/-- The inner loop of `_init_domination_dict` — nsga2_front_sorting.py:87-88. -/
def handleAll (h : Heap) (x : Nat) : List Nat → Dom → Except Err Dom
  | [], d => .ok d
  | y :: ys, d => match handle h d x y with
    | .error e => .error e
    | .ok d' => handleAll h x ys d'

/-- `_init_domination_dict` — nsga2_front_sorting.py:84-88. -/
def initDom (h : Heap) : List Nat → Dom → Except Err Dom
  | [], d => .ok d
  | x :: xs, d => match handleAll h x xs d with
    | .error e => .error e
    | .ok d' => initDom h xs d'

/-- `_pareto_front_finding` — nsga2_front_sorting.py:100-102. -/
def paretoFront (d : Dom) (source : List Nat) : List Nat := source.filter fun r => decide (d.counter r = 0)

/-- The objective `j` of the individuals of a front, as used for sorting. -/
def keys (h : Heap) (j : Nat) : List Nat → Except Err (List (Nat × ℚ))
  | [] => .ok []
  | r :: rs => match (h r).pure with
    | .error e => .error e
    | .ok v => match v[j]? with
      | none => .error .indexError
      | some q => match keys h j rs with
        | .error e => .error e
        | .ok ks => .ok ((r, q) :: ks)

/-- `ind.fitness.crowding += q` -/
def Heap.addCrowd (h : Heap) (r : Nat) (q : ℚ) : Heap :=
  h.set r fun f => { f with crowding := f.crowding.add q }

/-- `ind.fitness.crowding = c` -/
def Heap.setCrowd (h : Heap) (c : Crowd) (r : Nat) : Heap := h.set r fun f => { f with crowding := c }

/-- The loop over the inner individuals of a sorted front — nsga2_front_sorting.py:76-82, for `d ≠ 0`. -/
def addGaps (d : ℚ) : List (Nat × ℚ) → Heap → Heap
  | a :: b :: c :: rest, h => addGaps d (b :: c :: rest) (h.addCrowd b.1 ((c.2 - a.2) / d))
  | _, h => h

/-- One objective — nsga2_front_sorting.py:72-82: sort the front, mark the two ends, add the gaps. -/
def crowdObj (h : Heap) (front : List Nat) (j : Nat) : Except Err (Heap × List Nat) :=
  match keys h j front with
  | .error e => .error e
  | .ok ks =>
    match Py.sortBy (fun a b => decide (a.2 ≤ b.2)) ks with
    | [] => .error .indexError
    | k :: rest =>
      let last := (k :: rest).getLast (by simp)
      let h' := (h.setCrowd .inf k.1).setCrowd .inf last.1
      let d := last.2 - k.2
      .ok (if d = 0 then h' else addGaps d (k :: rest) h', (k :: rest).map Prod.fst)

/-- The loop over the objectives — nsga2_front_sorting.py:71-82. -/
def crowdObjs (h : Heap) (front : List Nat) : List Nat → Except Err (Heap × List Nat)
  | [] => .ok (h, front)
  | j :: js => match crowdObj h front j with
    | .error e => .error e
    | .ok (h', front') => crowdObjs h' front' js

/-- `_calc_fronts_crowding` — nsga2_front_sorting.py:67-82.  The front is reordered in place, so the new order
is returned.  After an exception the heap is not tracked any more. -/
def calcCrowding (h : Heap) (front : List Nat) : Except Err (Heap × List Nat) :=
  let h0 := h.setAll (fun f => { f with crowding := .fin 0 }) front
  match front with
  | [] => .error .indexError
  | r :: _ => match (h0 r).pure with
    | .error e => .error e
    | .ok v => crowdObjs h0 front (List.range v.length)

/-- The decrements of `_remove_pareto_front` for one dominating individual — nsga2_front_sorting.py:59-60. -/
def Dom.decrease (d : Dom) : List Nat → Dom
  | [] => d
  | y :: ys => Dom.decrease ⟨d.dominates, fun z => if z = y then d.counter z - 1 else d.counter z⟩ ys

/-- The loop of `_remove_pareto_front` — nsga2_front_sorting.py:58-60. -/
def Dom.remove (d : Dom) : List Nat → Dom
  | [] => d
  | x :: xs => Dom.remove (d.decrease (d.dominates x)) xs

/-- `set(source_inds) - set(pareto_front)`, as a list in the order `order` — nsga2_front_sorting.py:61. -/
def remaining (order : List Nat → List Nat) (source front : List Nat) : List Nat :=
  order ((source.filter fun r => decide (r ∉ front)).dedup)

/-- The variables of the loop of `_select`. -/
structure SortState where
  heap : Heap
  dom : Dom
  source : List Nat
  dest : List Nat
  rank : Nat

/-- The part of a front that is taken — nsga2_front_sorting.py:46-51. -/
def cut (h : Heap) (popSize : Int) (dest front : List Nat) : List Nat :=
  if popSize < (front.length + dest.length : Nat) then
    (Py.sortBy (fun a b => (h b).crowding.le (h a).crowding) front).take (popSize - dest.length).toNat
  else front

/-- The body of the loop of `_select` — nsga2_front_sorting.py:41-54.  `order k` is the iteration order of the
set difference in round `k`. -/
def sortStep (order : Nat → List Nat → List Nat) (popSize : Int) (s : SortState) : Except Err SortState :=
  match calcCrowding s.heap (paretoFront s.dom s.source) with
  | .error e => .error e
  | .ok (h, front) =>
    let h' := h.setAll (fun f => { f with rank := some s.rank }) front
    let taken := cut h' popSize s.dest front
    .ok { heap := h', dom := s.dom.remove taken, source := remaining (order s.rank) s.source taken
          dest := s.dest ++ taken, rank := s.rank + 1 }

/-- The loop of `_select` — nsga2_front_sorting.py:40-55.  `none`: not finished after `fuel` rounds. -/
def sortLoop (order : Nat → List Nat → List Nat) (popSize : Int) :
    (fuel : Nat) → SortState → Option (Except Err (Heap × List Nat))
  | fuel, s =>
    if (s.dest.length : Int) < popSize then
      match fuel with
      | 0 => none
      | fuel + 1 => match sortStep order popSize s with
        | .error e => some (.error e)
        | .ok s' => sortLoop order popSize fuel s'
    else some (.ok (s.heap, s.dest))

/-- `if not pop_size: pop_size = len(source_inds) // 2` — nsga2_front_sorting.py:36-37. -/
def wantedSize (source : List Nat) : Option Int → Int
  | none => (source.length / 2 : Nat)
  | some n => if n = 0 then (source.length / 2 : Nat) else n

/-- `_select(source_inds, dest_inds, pop_size)` — nsga2_front_sorting.py:23-55, with at most `fuel` rounds. -/
def select (order : Nat → List Nat → List Nat) (fuel : Nat) (h : Heap) (source dest : List Nat)
    (popSize : Option Int) : Option (Except Err (Heap × List Nat)) :=
  match initDom h source Dom.empty with
  | .error e => some (.error e)
  | .ok d => sortLoop order (wantedSize source popSize) fuel
      { heap := h, dom := d, source := source, dest := dest, rank := 1 }

/-! ## Crowding checker and corner statistics -/

/-- The finite crowding values — crowding_termination_checker.py:42. -/
def finiteCrowding (h : Heap) : List Nat → List ℚ
  | [] => []
  | r :: rs => match (h r).crowding with
    | .fin q => q :: finiteCrowding h rs
    | .inf => finiteCrowding h rs

/-- `max` of a list of numbers, `none` for the empty list. -/
def maxOf : List ℚ → Option ℚ
  | [] => none
  | q :: qs => match maxOf qs with
    | none => some q
    | some m => some (if m < q then q else m)

/-- The entry of `crowdings` for a sub-population — crowding_termination_checker.py:42-46. -/
def subCrowding (h : Heap) (inds : List Nat) : Crowd :=
  match maxOf (finiteCrowding h inds) with
  | some q => .fin q
  | none => .inf

/-- `max` of a list of crowding values. -/
def maxCrowd : Crowd → List Crowd → Crowd
  | m, [] => m
  | m, c :: cs => maxCrowd (if m.lt c then c else m) cs

/-- `_find_max_crowding` — crowding_termination_checker.py:39-47. -/
def findMaxCrowding (h : Heap) (subs : List (List Nat)) : Except Err Crowd :=
  match subs.map (subCrowding h) with
  | [] => .error .valueError
  | c :: cs => .ok (maxCrowd c cs)

/-- `CrowdingTerminationChecker.should_terminate` — crowding_termination_checker.py:18-37. -/
def crowdingTerminate (threshold : ℚ) (h : Heap) (subs : List (List Nat)) : Except Err Bool :=
  match findMaxCrowding h subs with
  | .error e => .error e
  | .ok c => .ok (c.lt (.fin threshold) && decide (c ≠ .fin 0))

/-- The fitness vectors of a list of individuals. -/
def pureAll (h : Heap) : List Nat → Except Err (List (List ℚ))
  | [] => .ok []
  | r :: rs => match (h r).pure with
    | .error e => .error e
    | .ok v => match pureAll h rs with
      | .error e => .error e
      | .ok vs => .ok (v :: vs)

/-- `MOEBestWorstStatistics.get_corners` — moe_best_worst_statistics.py:70-79; the order of the result is that
of a set. -/
def getCorners (order : List (List ℚ) → List (List ℚ)) (h : Heap) (inds : List Nat) (rank : Option Nat) :
    Except Err (List (List ℚ)) :=
  match pureAll h (inds.filter fun r => decide ((h r).rank = rank) && decide ((h r).crowding = .inf)) with
  | .error e => .error e
  | .ok vs =>
    if vs.dedup.length = 1 ∨ vs.dedup.length = 2 then .ok (order vs.dedup) else .error .assertionError

/-- `front_rank` of one individual is at most that of another, `none` being infinity. -/
def rankLe : Option Nat → Option Nat → Bool
  | _, none => true
  | none, some _ => false
  | some a, some b => decide (a ≤ b)

/-- `sorted(list(set(ranks)))[-1]` — moe_best_worst_statistics.py:41-50. -/
def lastRank (h : Heap) : List Nat → Except Err (Option Nat)
  | [] => .error .indexError
  | [r] => .ok (h r).rank
  | r :: rs => match lastRank h rs with
    | .error e => .error e
    | .ok k => .ok (if rankLe k (h r).rank then (h r).rank else k)

/-- What `write_statistics` prints for a sub-population — moe_best_worst_statistics.py:40-67: the last rank, the
size of the first front, its percentage, and the corners of the first and of the last front. -/
structure MoeLine where
  lastRank : Option Nat
  frontSize : Nat
  percent : ℚ
  first : List (List ℚ)
  last : List (List ℚ)

/-- The body of the loop of `MOEBestWorstStatistics.write_statistics` — moe_best_worst_statistics.py:37-67.  The
format string takes all four values. -/
def moeLine (order : List (List ℚ) → List (List ℚ)) (h : Heap) (inds : List Nat) : Except Err MoeLine :=
  match getCorners order h inds (some 1) with
  | .error e => .error e
  | .ok first => match lastRank h inds with
    | .error e => .error e
    | .ok k => match getCorners order h inds k with
      | .error e => .error e
      | .ok last => match pureAll h (inds.filter fun r => decide ((h r).rank = some 1)) with
        | .error e => .error e
        | .ok front => if inds.length = 0 then .error .zeroDivisionError
          else .ok ⟨k, front.length, (front.length : ℚ) / inds.length * 100, first, last⟩

end Verif.Moo
