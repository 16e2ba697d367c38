import Verif.Lemmas.Breeder
import Verif.Lemmas.Evaluator

/-! # Specification of evolutionary runs -/

namespace Verif.Evo
open PyM
variable {G κ : Type}

/-- Contract of a creator: asked for individuals with the fitness direction of `m`, it modifies no existing
individual and returns new, distinct individuals, all compared in the way `m`. -/
def CreatorGood (m : Mode) (create : Nat → Bool → WM G (List Nat)) : Prop :=
  ∀ n s, wlp (create n m.hib) (fun res s' => Ext (fun _ => False) s s' ∧ res.Nodup ∧
    ∀ r ∈ res, s.heap.length ≤ r ∧ r < s'.heap.length ∧ modeAt s' r = some m) s

/-- An ordinary configuration: one sub-population, whose creators, operators and selection method meet
their contracts; the population evaluator uses `executor.map`, whose workers run each task exactly once,
in any order.  The evaluator is arbitrary: it may raise and draw random numbers. -/
structure Cfg.Ordinary (c : Cfg G κ) (sub : SubCfg G) (m : Mode) : Prop where
  subs : c.subs = [sub]
  dir : m.hib = sub.hib
  creators : ∀ create ∈ sub.creators, CreatorGood m create
  sels : ∃ sel rest, sub.sels = sel :: rest ∧ sel.Good ∧ sel.Fills
  ops : ∀ o ∈ sub.ops, o.Good
  sched : ∀ gen n, (c.sched gen n).Perm (List.range n)
  map : c.submit = false

/-- A state in which a run can start: there is no population yet, or a given one made of distinct
individuals compared in the way `m`. -/
def Run.Ready (s : Run G κ) (m : Mode) : Prop :=
  s.inds = [none] ∨ ∃ is, s.inds = [some is] ∧ is.Nodup ∧ ∀ r ∈ is, modeAt s.w r = some m

/-- The event is the end of a population evaluation. -/
def Event.IsEval (e : Event G) : Prop := e.publisher = "population_evaluator" ∧ e.name = "after_operator"

/-- The individuals an observer can see in an event. -/
def Event.Shows (e : Event G) (r : Nat) : Prop := ∃ is, some is ∈ e.snap.inds ∧ r ∈ is

/-- The individual at `r` of a heap, as far as its genome and fitness are concerned. -/
def essence (h : List (Ind G)) (r : Nat) : Option (Nat × G × Fit) :=
  (h[r]?).map fun i => (i.id, i.genome, i.fit)

/-- A world with this heap (`HasScore` and `Beats` only look at the heap). -/
def ofHeap (h : List (Ind G)) : World G := ⟨h, 0, fun _ => 0⟩

/-- `b` is the best individual evaluated in the events `past`, as seen in a later heap: it was shown at
the end of some evaluation; every individual shown at the end of some evaluation had a fitness then,
still has the same genome and fitness, and does not beat `b`. -/
def BestOf (size : G → Nat) (d : Bool) (past : List (Event G)) (heap : List (Ind G)) (b : Nat) : Prop :=
  (∃ e ∈ past, e.IsEval ∧ e.Shows b) ∧
  ∀ e ∈ past, e.IsEval → ∀ r, e.Shows r →
    (∃ x, HasScore size d (ofHeap e.snap.heap) r x) ∧ essence heap r = essence e.snap.heap r ∧
    ¬ Beats size d (ofHeap heap) r b

/-- What C35 says of everything an observer recorded: whenever the algorithm itself publishes an event,
`best_of_run_` is the best individual evaluated so far. -/
def BestAlways (size : G → Nat) (d : Bool) (log : List (Event G)) : Prop :=
  ∀ past e future, log = past ++ e :: future → e.publisher = "algorithm" →
    ∃ b, e.snap.bestOfRun = some b ∧ BestOf size d past e.snap.heap b

/-! ## The course of a run -/

/-- Publisher and name of an event. -/
def Event.tag (e : Event G) : String × String := (e.publisher, e.name)

/-- Events of the initialisation: evaluate, then `init`. -/
def initTags : List (String × String) :=
  [("population_evaluator", "before_operator"), ("population_evaluator", "after_operator"),
   ("algorithm", "init")]

/-- Events of one generation: breed, evaluate, then `after_generation`. -/
def genTags : List (String × String) :=
  [("breeder", "before_operator"), ("breeder", "after_operator"),
   ("population_evaluator", "before_operator"), ("population_evaluator", "after_operator"),
   ("algorithm", "after_generation")]

/-- The event marks the end of the initialisation or of a generation. -/
def Event.isPoint (e : Event G) : Bool :=
  e.tag == ("algorithm", "init") || e.tag == ("algorithm", "after_generation")

/-- Every checker of the configuration has a state. -/
def Cfg.Fits (c : Cfg G κ) (ks : List κ) : Prop :=
  match c.checker with
  | .none => True
  | .one _ => ks.length = 1
  | .many ts => ks.length = ts.length

/-- The termination checkers, in the states `ks`, are shown `e` (population, best individual, generation
number) and decide `v`; their states become `ks'`.  Of a list, every checker is asked, and the decision
is to stop iff one of them says so. -/
def Asked (c : Cfg G κ) (e : Snapshot G) (ks : List κ) (v : Bool) (ks' : List κ) : Prop :=
  match c.checker with
  | .none => v = false ∧ ks' = ks
  | .one t => ∃ k k', ks = [k] ∧ ks' = [k'] ∧ t k e.heap e.inds e.bestOfRun e.genNum = (.ok v, k')
  | .many ts => ks'.length = ks.length ∧ ∃ bs : List Bool, bs.length = ts.length ∧
      (∀ (i : Nat) (t : Checker G κ) (k : κ), ts[i]? = some t → ks[i]? = some k → ∃ b k', bs[i]? = some b ∧ ks'[i]? = some k' ∧
        t k e.heap e.inds e.bestOfRun e.genNum = (.ok b, k')) ∧ (v = true ↔ true ∈ bs)

/-- The checkers are asked after each of the generations `gen, gen + 1, …` with what is seen there
(`snaps`); `stop` tells whether the last answer was to stop, all earlier ones were not. -/
inductive Consultations (c : Cfg G κ) : (gen : Nat) → List (Snapshot G) → List κ → (stop : Bool) →
    List κ → Prop
  | done {gen : Nat} {ks : List κ} : Consultations c gen [] ks false ks
  | stop {gen : Nat} {e : Snapshot G} {ks ks' : List κ} : e.genNum = gen → Asked c e ks true ks' →
      Consultations c gen [e] ks true ks'
  | next {gen : Nat} {e : Snapshot G} {es : List (Snapshot G)} {ks ks' ks'' : List κ} {b : Bool} :
      e.genNum = gen → Asked c e ks false ks' → Consultations c (gen + 1) es ks' b ks'' →
      Consultations c gen (e :: es) ks b ks''

/-- One checker is asked at each of the snapshots in turn, with its answers. -/
inductive Feeds (t : Checker G κ) : List (Snapshot G) → κ → List Bool → κ → Prop
  | nil {k : κ} : Feeds t [] k [] k
  | cons {e : Snapshot G} {es : List (Snapshot G)} {k k' k'' : κ} {b : Bool} {bs : List Bool} :
      t k e.heap e.inds e.bestOfRun e.genNum = (.ok b, k') → Feeds t es k' bs k'' →
      Feeds t (e :: es) k (b :: bs) k''

end Verif.Evo
