import Verif.Model.Parameters
import Verif.Props.Pickle

/-! # C145, C146 — `set_params` against the constructor; clones of estimators -/

namespace Verif.Store
open Evo
variable {G : Type} {C : Classes G} {kw d d' : Attrs G} {serial clock : Nat}

/-! ## C145 -/

/-- Two algorithms have the same attributes, and executors of the same kind and size. -/
def SameAttrs (d d' : Attrs G) : Prop :=
  (∀ k, k ≠ "executor" → Attrs.get d k = Attrs.get d' k) ∧
  ∃ kind workers s s' b b', Attrs.get d "executor" = some (.exec ⟨kind, workers, s, b⟩) ∧
    Attrs.get d' "executor" = some (.exec ⟨kind, workers, s', b'⟩)

/-- C145 as stated: for an estimator around an algorithm made with the arguments `kw`, `set_params(k=v)` gives an algorithm
like the one that the arguments `kw` with `k=v` would have made (at the same time). -/
def C145_statement : Prop :=
  ∀ (G : Type) (C : Classes G) (kw : Attrs G) (serial serial' clock : Nat) (d d' : Attrs G) (k : String) (v : Val G)
    (s : Algs G) (est : Attrs G) (r : Nat), k ∈ parameters →
    construct C serial clock kw = .ok d → construct C serial' clock (Attrs.put kw k v) = .ok d' →
    Attrs.get est "algorithm" = some (.alg r) → s.objs r = d →
    ∃ s', setParams s est [(k, v)] = .ok s' ∧ SameAttrs (s'.objs r) d'

/-- The constructor keeps the argument `v` for `k` as it is, and it does not enter into anything else. -/
def Kept (C : Classes G) (kw : Attrs G) (k : String) (v : Val G) : Prop :=
  k ∈ ["max_generation", "termination_checker", "random_generator", "best_of_run_", "best_of_gen", "worst_of_gen",
    "generation_num", "max_workers"] ∨
  (k = "generation_seed" ∧ v ≠ .none) ∨
  (k = "random_seed" ∧ v ≠ .none ∧ kw.arg "generation_seed" .none ≠ .none) ∨
  (k = "breeder" ∧ v ≠ .none ∧ C.breeder v = true) ∨
  (k = "population_evaluator" ∧ v ≠ .none ∧ C.evaluator v = true) ∨
  (k = "population" ∧ C.population v = .ok v) ∨
  (k = "statistics" ∧ v ≠ .none ∧ C.statistics v = .ok v)

theorem arg_put (kw : Attrs G) (k k' : String) (v dflt : Val G) :
    (Attrs.put kw k v).arg k' dflt = if k' = k then v else kw.arg k' dflt := by
  unfold Attrs.arg
  rw [get_put]
  split <;> rfl

theorem orNew_of_ne {v new : Val G} (h : v ≠ .none) : Val.orNew new v = v := by
  cases v <;> first | rfl | exact absurd rfl h

theorem attributes_put (clock : Nat) {k : String} {v pop pop' stats stats' : Val G} (hk : Kept C kw k v) (hmax : k ≠ "max_workers")
    (hpop : pop' = if k = "population" then v else pop) (hst : stats' = if k = "statistics" then v else stats) :
    attributes C clock (Attrs.put kw k v) pop' stats' = Attrs.put (attributes C clock kw pop stats) k v := by
  subst hpop hst
  rcases hk with hk | ⟨rfl, hv⟩ | ⟨rfl, hv, hg⟩ | ⟨rfl, hv, -⟩ | ⟨rfl, hv, -⟩ | ⟨rfl, -⟩ | ⟨rfl, hv, -⟩
  · simp only [List.mem_cons, List.not_mem_nil, or_false] at hk
    rcases hk with rfl | rfl | rfl | rfl | rfl | rfl | rfl | rfl <;>
      first | exact absurd rfl hmax | simp [attributes, Attrs.put, arg_put]
  · simp [attributes, Attrs.put, arg_put, orNew_of_ne hv]
  · simp [attributes, Attrs.put, arg_put, orNew_of_ne hv, orNew_of_ne hg]
  · simp [attributes, Attrs.put, arg_put, orNew_of_ne hv]
  · simp [attributes, Attrs.put, arg_put, orNew_of_ne hv]
  · simp [attributes, Attrs.put, arg_put]
  · simp [attributes, Attrs.put, arg_put]

theorem attributes_workers (clock : Nat) {v pop stats : Val G} :
    attributes C clock (Attrs.put kw "max_workers" v) pop stats = attributes C clock kw pop stats := by
  simp [attributes, arg_put]

/-- What a successful construction went through. -/
theorem construct_ok (h : construct C serial clock kw = .ok d) : ∃ pop pop' stats kind ex,
    (∀ p ∈ kw, p.1 ∈ parameters) ∧ Attrs.get kw "population" = some pop ∧
    C.breeder (Val.orNew C.newBreeder (kw.arg "breeder" C.defaultBreeder)) = true ∧
    C.evaluator (Val.orNew C.newEvaluator (kw.arg "population_evaluator" .none)) = true ∧
    C.population pop = .ok pop' ∧ C.statistics (Val.orNew C.noStatistics (kw.arg "statistics" .none)) = .ok stats ∧
    kw.arg "executor" (.str "thread") = .str (Kind.name kind) ∧
    newExec kind serial (kw.arg "max_workers" .none) = .ok ex ∧
    d = Attrs.put (Attrs.put (Attrs.put (attributes C clock kw pop' stats) "max_workers" (kw.arg "max_workers" .none))
      "executor" (.exec ex)) "_executor_type" (.str (Kind.name kind)) := by
  unfold construct at h
  split at h
  · cases h
  rename_i hbad
  split at h
  · cases h
  rename_i pop hpop
  split at h
  · cases h
  rename_i hb
  split at h
  · cases h
  rename_i hev
  split at h
  · cases h
  rename_i pop' hpop'
  split at h
  · cases h
  rename_i stats hstats
  split at h
  · rename_i name hname
    have hgood : ∀ p ∈ kw, p.1 ∈ parameters := by
      intro p hp
      by_contra hn
      exact hbad (List.any_eq_true.2 ⟨p, hp, by simpa using hn⟩)
    have key : ∀ kind : Kind, name = kind.name →
        (match newExec kind serial (kw.arg "max_workers" .none) with
          | .error e => .error e
          | .ok ex => .ok (Attrs.put (Attrs.put (Attrs.put (attributes C clock kw pop' stats) "max_workers"
              (kw.arg "max_workers" .none)) "executor" (.exec ex)) "_executor_type" (.str name))) = Except.ok d →
        ∃ pop pop' stats kind ex,
        (∀ p ∈ kw, p.1 ∈ parameters) ∧ Attrs.get kw "population" = some pop ∧
        C.breeder (Val.orNew C.newBreeder (kw.arg "breeder" C.defaultBreeder)) = true ∧
        C.evaluator (Val.orNew C.newEvaluator (kw.arg "population_evaluator" .none)) = true ∧
        C.population pop = .ok pop' ∧ C.statistics (Val.orNew C.noStatistics (kw.arg "statistics" .none)) = .ok stats ∧
        kw.arg "executor" (.str "thread") = .str (Kind.name kind) ∧
        newExec kind serial (kw.arg "max_workers" .none) = .ok ex ∧
        d = Attrs.put (Attrs.put (Attrs.put (attributes C clock kw pop' stats) "max_workers" (kw.arg "max_workers" .none))
          "executor" (.exec ex)) "_executor_type" (.str (Kind.name kind)) := by
      rintro kind rfl h
      split at h
      · cases h
      rename_i ex hex
      cases h
      exact ⟨pop, pop', stats, kind, ex, hgood, hpop, by simpa using hb, by simpa using hev, hpop', hstats, hname, hex, rfl⟩
    unfold initExecutor at h
    dsimp only at h
    by_cases h1 : name = "thread"
    · rw [if_pos h1] at h; exact key .thread h1 h
    · rw [if_neg h1] at h
      by_cases h2 : name = "process"
      · rw [if_pos h2] at h; exact key .process h2 h
      · rw [if_neg h2] at h; cases h
  · cases h

theorem initExecutor_name (kind : Kind) (serial : Nat) (d : Attrs G) (w : Val G) :
    initExecutor serial d kind.name w = match newExec kind serial w with
      | .error e => .error e
      | .ok ex => .ok (Attrs.put (Attrs.put (Attrs.put d "max_workers" w) "executor" (.exec ex)) "_executor_type" (.str kind.name)) := by
  cases kind <;> rfl

theorem mem_put {d : Attrs G} {k : String} {v : Val G} : ∀ p ∈ Attrs.put d k v, p.1 = k ∨ p ∈ d := by
  induction d with
  | nil => intro p hp; simp [Attrs.put] at hp; exact .inl (by rw [hp])
  | cons q d ih =>
    intro p hp
    unfold Attrs.put at hp
    split at hp
    · rcases List.mem_cons.1 hp with rfl | hp
      · exact .inl rfl
      · exact .inr (List.mem_cons_of_mem _ hp)
    · rcases List.mem_cons.1 hp with rfl | hp
      · exact .inr List.mem_cons_self
      · exact (ih p hp).imp_right (List.mem_cons_of_mem _)

/-- What a construction with the required arguments does. -/
theorem construct_eq {pop pop' stats : Val G} {kind : Kind} (hgood : ∀ p ∈ kw, p.1 ∈ parameters)
    (hpop : Attrs.get kw "population" = some pop)
    (hb : C.breeder (Val.orNew C.newBreeder (kw.arg "breeder" C.defaultBreeder)) = true)
    (hev : C.evaluator (Val.orNew C.newEvaluator (kw.arg "population_evaluator" .none)) = true)
    (hp : C.population pop = .ok pop') (hst : C.statistics (Val.orNew C.noStatistics (kw.arg "statistics" .none)) = .ok stats)
    (hk : kw.arg "executor" (.str "thread") = .str kind.name) :
    construct C serial clock kw = match newExec kind serial (kw.arg "max_workers" .none) with
      | .error e => .error e
      | .ok ex => .ok (Attrs.put (Attrs.put (Attrs.put (attributes C clock kw pop' stats) "max_workers"
          (kw.arg "max_workers" .none)) "executor" (.exec ex)) "_executor_type" (.str kind.name)) := by
  unfold construct
  rw [if_neg (by
    intro h
    obtain ⟨p, hp, hn⟩ := List.any_eq_true.1 h
    have := hgood p hp
    simp [this] at hn), hpop]
  dsimp only
  rw [hb, hev]
  simp only [Bool.not_true, Bool.false_eq_true, if_false]
  rw [hp]
  dsimp only
  rw [hst]
  dsimp only
  rw [hk]
  exact initExecutor_name kind serial _ _

theorem kindOf_name (kind : Kind) : kindOf (.str kind.name : Val G) = kind := by cases kind <;> rfl

theorem newExec_serial {kind : Kind} {w : Val G} {ex : Exec} (h : newExec kind serial w = .ok ex) (serial' : Nat) :
    newExec kind serial' w = .ok { ex with serial := serial' } ∧ ex.kind = kind := by
  unfold newExec at h ⊢
  split at h
  · cases h; exact ⟨rfl, rfl⟩
  · split at h
    · cases h
    · cases h; rename_i hn; exact ⟨by rw [if_neg hn], rfl⟩
  · cases h

theorem newExec_error {kind : Kind} {w : Val G} {e : Err} (h : newExec kind serial w = .error e) (serial' : Nat) :
    newExec kind serial' w = .error e := by
  unfold newExec at h ⊢
  split at h
  · cases h
  · split at h
    · cases h; rename_i hn; rw [if_pos hn]
    · cases h
  · cases h; rfl

/-- **C145, the part that holds**: `set_params(k=v)` is like construction with `k=v` for the parameters that the constructor keeps
as they are: it raises what the constructor would raise, and otherwise gives an algorithm with the same attributes. -/
theorem C145_partial (hd : construct C serial clock kw = .ok d) {k : String} {v : Val G} (hk : Kept C kw k v) (serial' : Nat)
    {s : Algs G} {est : Attrs G} {r : Nat} (he : Attrs.get est "algorithm" = some (.alg r)) (hs : s.objs r = d) :
    (∃ e, construct C serial' clock (Attrs.put kw k v) = .error e ∧ setParams s est [(k, v)] = .error e) ∨
    ∃ d' s', construct C serial' clock (Attrs.put kw k v) = .ok d' ∧ setParams s est [(k, v)] = .ok s' ∧
      SameAttrs (s'.objs r) d' := by
  obtain ⟨pop, pop', stats, kind, ex, hgood, hpop, hb, hev, hp, hst, hname, hex, rfl⟩ := construct_ok hd
  have hmem : k ∈ parameters := by
    rcases hk with hk | ⟨rfl, -⟩ | ⟨rfl, -⟩ | ⟨rfl, -⟩ | ⟨rfl, -⟩ | ⟨rfl, -⟩ | ⟨rfl, -⟩
    · simp only [List.mem_cons, List.not_mem_nil, or_false] at hk
      rcases hk with rfl | rfl | rfl | rfl | rfl | rfl | rfl | rfl <;> simp [parameters]
    all_goals simp [parameters]
  have hkexec : k ≠ "executor" ∧ k ≠ "_executor_type" := by
    rcases hk with hk | ⟨rfl, -⟩ | ⟨rfl, -⟩ | ⟨rfl, -⟩ | ⟨rfl, -⟩ | ⟨rfl, -⟩ | ⟨rfl, -⟩
    · simp only [List.mem_cons, List.not_mem_nil, or_false] at hk
      rcases hk with rfl | rfl | rfl | rfl | rfl | rfl | rfl | rfl <;> decide
    all_goals decide
  have hgood' : ∀ p ∈ Attrs.put kw k v, p.1 ∈ parameters := fun p hp => by
    rcases mem_put p hp with h | h
    · exact h ▸ hmem
    · exact hgood p h
  have key : ∀ (pop₁ pop₂ stats₂ : Val G), Attrs.get (Attrs.put kw k v) "population" = some pop₁ → C.population pop₁ = .ok pop₂ →
      C.breeder (Val.orNew C.newBreeder ((Attrs.put kw k v).arg "breeder" C.defaultBreeder)) = true →
      C.evaluator (Val.orNew C.newEvaluator ((Attrs.put kw k v).arg "population_evaluator" .none)) = true →
      C.statistics (Val.orNew C.noStatistics ((Attrs.put kw k v).arg "statistics" .none)) = .ok stats₂ →
      pop₂ = (if k = "population" then v else pop') → stats₂ = (if k = "statistics" then v else stats) →
      (∃ e, construct C serial' clock (Attrs.put kw k v) = .error e ∧ setParams s est [(k, v)] = .error e) ∨
      ∃ d' s', construct C serial' clock (Attrs.put kw k v) = .ok d' ∧ setParams s est [(k, v)] = .ok s' ∧
        SameAttrs (s'.objs r) d' := by
    intro pop₁ pop₂ stats₂ h1 h2 h3 h4 h5 h6 h7
    have hname' : (Attrs.put kw k v).arg "executor" (.str "thread") = .str kind.name := by
      rw [arg_put, if_neg (Ne.symm hkexec.1)]; exact hname
    have hcon := construct_eq (serial := serial') (clock := clock) hgood' h1 h3 h4 h2 h5 hname'
    have hset : setParams s est [(k, v)] =
        match newExec kind s.execs ((Attrs.put kw k v).arg "max_workers" .none) with
        | .error e => .error e
        | .ok ex' => .ok ⟨fun x => if x = r then Attrs.put (Attrs.put (s.objs r) k v) "executor" (.exec ex') else s.objs x, s.execs + 1⟩ := by
      unfold setParams
      rw [he]
      dsimp only
      unfold setState
      have hup : Attrs.update (s.objs r) [(k, v)] = Attrs.put (s.objs r) k v := rfl
      have ht : Attrs.get (Attrs.put (s.objs r) k v) "_executor_type" = some (.str kind.name) := by
        rw [get_put, if_neg (Ne.symm hkexec.2), hs, get_put, if_pos rfl]
      have hw : Attrs.get (Attrs.put (s.objs r) k v) "max_workers" = some ((Attrs.put kw k v).arg "max_workers" .none) := by
        rw [get_put, arg_put]
        by_cases hm : "max_workers" = k
        · rw [if_pos hm, if_pos hm]
        · rw [if_neg hm, if_neg hm, hs, get_put, if_neg (by decide), get_put, if_neg (by decide), get_put, if_pos rfl]
      dsimp only
      rw [hup, ht, hw]
      dsimp only
      rw [kindOf_name]
      cases newExec kind s.execs ((Attrs.put kw k v).arg "max_workers" .none) <;> rfl
    cases hn : newExec kind serial' ((Attrs.put kw k v).arg "max_workers" .none) with
    | error e =>
      rw [hn] at hcon
      rw [newExec_error hn s.execs] at hset
      exact .inl ⟨e, hcon, hset⟩
    | ok ex₂ =>
      rw [hn] at hcon
      obtain ⟨hn', hkind⟩ := newExec_serial hn s.execs
      rw [hn'] at hset
      refine .inr ⟨_, _, hcon, hset, fun k' hk' => ?_, ex₂.kind, ex₂.maxWorkers, s.execs, ex₂.serial, ex₂.shut, ex₂.shut, ?_, ?_⟩
      · dsimp only
        rw [if_pos rfl, hs]
        by_cases hmax : k = "max_workers"
        · subst hmax
          rw [if_neg (by decide)] at h6 h7
          subst h6 h7
          rw [attributes_workers]
          simp only [get_put, arg_put]
          by_cases e1 : k' = "_executor_type"
          · subst e1; simp
          · by_cases e2 : k' = "max_workers"
            · subst e2; simp
            · simp [hk', e1, e2]
        · have hat := attributes_put (C := C) (kw := kw) clock hk hmax h6 h7
          rw [hat]
          have hm' : (Attrs.put kw k v).arg "max_workers" .none = kw.arg "max_workers" .none := by
            rw [arg_put, if_neg (Ne.symm hmax)]
          rw [hm']
          simp only [get_put]
          by_cases e1 : k' = "_executor_type"
          · subst e1; simp [hk', Ne.symm hkexec.2]
          · by_cases e2 : k' = "max_workers"
            · subst e2; simp [Ne.symm hmax]
            · simp [hk', e1, e2]
      · dsimp only
        rw [if_pos rfl, get_put, if_pos rfl]
      · rw [get_put, if_neg (by decide), get_put, if_pos rfl]
  have hpop₀ : k ≠ "population" → Attrs.get (Attrs.put kw k v) "population" = some pop := fun h => by
    rw [get_put, if_neg (Ne.symm h)]; exact hpop
  have harg : ∀ (n : String) (x : Val G), k ≠ n → (Attrs.put kw k v).arg n x = kw.arg n x := fun n x h => by
    rw [arg_put, if_neg (Ne.symm h)]
  have hargk : ∀ x : Val G, (Attrs.put kw k v).arg k x = v := fun x => by rw [arg_put, if_pos rfl]
  by_cases c1 : k = "population"
  · subst c1
    have hv : C.population v = .ok v := by
      rcases hk with hk | ⟨h, -⟩ | ⟨h, -⟩ | ⟨h, -⟩ | ⟨h, -⟩ | ⟨-, h⟩ | ⟨h, -⟩
      · simp at hk
      all_goals first | exact h | exact absurd h (by decide)
    exact key v v stats (by rw [get_put, if_pos rfl]) hv (by rw [harg _ _ (by decide)]; exact hb)
      (by rw [harg _ _ (by decide)]; exact hev) (by rw [harg _ _ (by decide)]; exact hst) (by simp) (by simp)
  · by_cases c2 : k = "statistics"
    · subst c2
      have hv : v ≠ .none ∧ C.statistics v = .ok v := by
        rcases hk with hk | ⟨h, -⟩ | ⟨h, -⟩ | ⟨h, -⟩ | ⟨h, -⟩ | ⟨h, -⟩ | ⟨-, h⟩
        · simp at hk
        all_goals first | exact h | exact absurd h (by decide)
      exact key pop pop' v (hpop₀ (by decide)) hp (by rw [harg _ _ (by decide)]; exact hb)
        (by rw [harg _ _ (by decide)]; exact hev) (by rw [hargk, orNew_of_ne hv.1]; exact hv.2) (by simp) (by simp)
    · have hb' : C.breeder (Val.orNew C.newBreeder ((Attrs.put kw k v).arg "breeder" C.defaultBreeder)) = true := by
        by_cases c3 : k = "breeder"
        · subst c3
          have hv : v ≠ .none ∧ C.breeder v = true := by
            rcases hk with hk | ⟨h, -⟩ | ⟨h, -⟩ | ⟨-, h⟩ | ⟨h, -⟩ | ⟨h, -⟩ | ⟨h, -⟩
            · simp at hk
            all_goals first | exact h | exact absurd h (by decide)
          rw [hargk, orNew_of_ne hv.1]; exact hv.2
        · rw [harg _ _ c3]; exact hb
      have hev' : C.evaluator (Val.orNew C.newEvaluator ((Attrs.put kw k v).arg "population_evaluator" .none)) = true := by
        by_cases c3 : k = "population_evaluator"
        · subst c3
          have hv : v ≠ .none ∧ C.evaluator v = true := by
            rcases hk with hk | ⟨h, -⟩ | ⟨h, -⟩ | ⟨h, -⟩ | ⟨-, h⟩ | ⟨h, -⟩ | ⟨h, -⟩
            · simp at hk
            all_goals first | exact h | exact absurd h (by decide)
          rw [hargk, orNew_of_ne hv.1]; exact hv.2
        · rw [harg _ _ c3]; exact hev
      exact key pop pop' stats (hpop₀ c1) hp hb' hev' (by rw [harg _ _ c2]; exact hst) (by simp [c1]) (by simp [c2])

/-- Classes for the examples: 1 is a population, 2 a subpopulation (put into the population 3), 4 a breeder, 5 a statistics object
(put into the list 6), 7 the empty list. -/
def exClasses : Classes Nat where
  population := fun v => match v with
    | .plain 1 => .ok (.plain 1)
    | .plain 2 => .ok (.plain 3)
    | .plain 3 => .ok (.plain 3)
    | _ => .error .valueError
  statistics := fun v => match v with
    | .plain 5 => .ok (.plain 6)
    | .plain 6 => .ok (.plain 6)
    | .plain 7 => .ok (.plain 7)
    | _ => .error .valueError
  breeder := fun v => match v with
    | .plain 4 => true
    | _ => false
  evaluator := fun v => match v with
    | .evaluator _ => true
    | _ => false
  defaultBreeder := .plain 4
  newBreeder := .plain 4
  newEvaluator := .evaluator none
  defaultGenerator := .plain 8
  noStatistics := .plain 7

/-- `SimpleEvolution(subpopulation, random_seed=5)` -/
def exKw : Attrs Nat := [("population", .plain 2), ("random_seed", .int 5)]

/-- What it makes. -/
def exMade : Attrs Nat :=
  [("population", .plain 3), ("statistics", .plain 7), ("breeder", .plain 4), ("population_evaluator", .evaluator none),
   ("random_generator", .plain 8), ("random_seed", .int 5), ("generation_seed", .int 5), ("generation_num", .int 0),
   ("termination_checker", .none), ("best_of_run_", .none), ("best_of_gen", .none), ("worst_of_gen", .none),
   ("max_generation", .int 500), ("final_generation_", .none), ("max_workers", .none),
   ("executor", .exec ⟨.thread, none, 0, false⟩), ("_executor_type", .str "thread")]

theorem exMade_constructed : construct exClasses 0 1234 exKw = .ok exMade := rfl

/-- An estimator around it. -/
def exWrapper : Attrs Nat := [("algorithm", .alg 0)]

/-- Grid search over `max_generation`. -/
example : ∃ s', setParams ⟨fun _ => exMade, 1⟩ exWrapper [("max_generation", .int 20)] = .ok s' ∧
    ∃ d', construct exClasses 7 1234 (Attrs.put exKw "max_generation" (.int 20)) = .ok d' ∧ SameAttrs (s'.objs 0) d' := by
  rcases C145_partial exMade_constructed (k := "max_generation") (v := .int 20) (.inl (by simp)) 7
    (s := ⟨fun _ => exMade, 1⟩) (est := exWrapper) (r := 0) rfl rfl with ⟨e, h, -⟩ | ⟨d', s', h1, h2, h3⟩
  · cases h
  · exact ⟨s', h2, d', h1, h3⟩

example : ∃ e, setParams ⟨fun _ => exMade, 1⟩ exWrapper [("max_workers", .int 0)] = .error e := ⟨_, rfl⟩

/-- **C145 is false**: `set_params(random_seed=9)` leaves the seed of the generations what it was. -/
theorem C145_refuted : ∃ s' d', setParams ⟨fun _ => exMade, 1⟩ exWrapper [("random_seed", .int 9)] = .ok s' ∧
    construct exClasses 0 1234 (Attrs.put exKw "random_seed" (.int 9)) = .ok d' ∧
    Attrs.get (s'.objs 0) "random_seed" = some (.int 9) ∧ Attrs.get (s'.objs 0) "generation_seed" = some (.int 5) ∧
    Attrs.get d' "random_seed" = some (.int 9) ∧ Attrs.get d' "generation_seed" = some (.int 9) :=
  ⟨_, _, rfl, rfl, rfl, rfl, rfl, rfl⟩

theorem C145_statement_refuted : ¬ C145_statement := by
  intro h
  obtain ⟨s', h1, h2, -⟩ := h Nat exClasses exKw 0 0 1234 exMade _ "random_seed" (.int 9) ⟨fun _ => exMade, 1⟩ exWrapper 0
    (by simp [parameters]) rfl rfl rfl rfl
  obtain ⟨s₁, d₁, e1, e2, -, e4, -, e6⟩ := C145_refuted
  have e1' : s₁ = s' := by rw [h1] at e1; cases e1; rfl
  subst e1'
  have := h2 "generation_seed" (by decide)
  rw [e4] at this
  cases this

/-- C145 fails in other ways, too: the kind of executor cannot be set, a statistics object is not put into a list, and a name that
is no parameter is accepted. -/
theorem C145_refuted_more :
    (∃ s' d', setParams ⟨fun _ => exMade, 1⟩ exWrapper [("executor", .str "process")] = .ok s' ∧
      construct exClasses 0 1234 (Attrs.put exKw "executor" (.str "process")) = .ok d' ∧
      Attrs.get (s'.objs 0) "executor" = some (.exec ⟨.thread, none, 1, false⟩) ∧
      Attrs.get d' "executor" = some (.exec ⟨.process, none, 0, false⟩)) ∧
    (∃ s' d', setParams ⟨fun _ => exMade, 1⟩ exWrapper [("statistics", .plain 5)] = .ok s' ∧
      construct exClasses 0 1234 (Attrs.put exKw "statistics" (.plain 5)) = .ok d' ∧
      Attrs.get (s'.objs 0) "statistics" = some (.plain 5) ∧ Attrs.get d' "statistics" = some (.plain 6)) ∧
    (∃ s', setParams ⟨fun _ => exMade, 1⟩ exWrapper [("max_generations", .int 20)] = .ok s' ∧
      construct exClasses 0 1234 (Attrs.put exKw "max_generations" (.int 20)) = .error .typeError ∧
      Attrs.get (s'.objs 0) "max_generation" = some (.int 500)) :=
  ⟨⟨_, _, rfl, rfl, rfl, rfl⟩, ⟨_, _, rfl, rfl, rfl, rfl⟩, ⟨_, rfl, rfl, rfl⟩⟩

/-! ## C146 -/

/-- C146 as stated: every estimator can be cloned; the clone is not fitted, has an algorithm of its own with the same attributes,
and nothing that was there before changes. -/
def C146_statement : Prop :=
  ∀ (G : Type) (s : Algs G) (est : Attrs G) (r r' : Nat) (kind : Kind) (workers : Option Int), r ≠ r' →
    Attrs.get est "algorithm" = some (.alg r) → (∀ p ∈ est, p.1 = "algorithm" ∨ p.1 = "is_fitted_") → Attrs.Ok est →
    Connected (s.objs r) kind workers →
    ∃ est' s', cloneEst s est r' = .ok (est', s') ∧ isFitted est' = false ∧ Attrs.get est' "algorithm" = some (.alg r') ∧
      SameAttrs (s'.objs r') (s.objs r) ∧ ∀ x, x ≠ r' → s'.objs x = s.objs x

/-- Attributes without an executor and without an individual: what is copied is equal to the original. -/
def Val.Lasting : Val G → Prop
  | .exec _ => False
  | .evaluator (some _) => False
  | .ind _ => False
  | .pop _ => False
  | _ => True

theorem pickle_lasting {d : Attrs G} (h : ∀ p ∈ d, p.2.Lasting) : pickleAttrs d = .ok d := by
  induction d with
  | nil => rfl
  | cons p d ih =>
    obtain ⟨k, v⟩ := p
    have hv : pickleVal v = .ok v := by
      have := h (k, v) List.mem_cons_self
      cases v <;> first | rfl | exact absurd this id | skip
      rename_i ex
      cases ex <;> first | rfl | exact absurd this id
    unfold pickleAttrs
    rw [hv]
    dsimp only
    rw [ih fun p hp => h p (List.mem_cons_of_mem _ hp)]

theorem getParams_eq {est : Attrs G} {r : Nat} (ha : Attrs.get est "algorithm" = some (.alg r))
    (hk : ∀ p ∈ est, p.1 = "algorithm" ∨ p.1 = "is_fitted_") (hok : Attrs.Ok est) :
    getParams est = [("algorithm", .alg r)] := by
  have hmem : ("algorithm", Val.alg r) ∈ est := by
    unfold Attrs.get at ha
    rw [Option.map_eq_some_iff] at ha
    obtain ⟨⟨k, v⟩, hf, hv⟩ := ha
    have h1 := List.mem_of_find?_eq_some hf
    have h2 := List.find?_some hf
    simp only [decide_eq_true_eq] at h2
    dsimp only at hv
    subst hv h2
    exact h1
  have hall : ∀ p ∈ getParams est, p = ("algorithm", Val.alg r) := by
    intro p hp
    unfold getParams at hp
    obtain ⟨h1, h2⟩ := List.mem_filter.1 hp
    have h3 : p.1 = "algorithm" := (hk p h1).resolve_right (by simpa using h2)
    exact List.inj_on_of_nodup_map hok h1 hmem h3
  have hin : ("algorithm", Val.alg r) ∈ getParams est := by
    unfold getParams
    exact List.mem_filter.2 ⟨hmem, by simp⟩
  have hnd : (getParams est).Nodup := (List.Nodup.of_map _ hok).sublist List.filter_sublist
  cases hg : getParams est with
  | nil => rw [hg] at hin; cases hin
  | cons p l =>
    rw [hg] at hall hnd
    have hp := hall p List.mem_cons_self
    cases l with
    | nil => rw [hp]
    | cons q l =>
      have hq := hall q (List.mem_cons_of_mem _ List.mem_cons_self)
      rw [hp, hq] at hnd
      simp at hnd

/-- **C146, the part that holds**: as long as the algorithm has no evaluated individuals and its population evaluator was given no
executor (it was never run), the estimator can be cloned; the clone is not fitted and has an algorithm of its own with the same
attributes and a new executor; and all that was there before is unchanged, also when parameters of the clone are set. -/
theorem C146_partial {s : Algs G} {est : Attrs G} {r r' : Nat} {kind : Kind} {workers : Option Int}
    (ha : Attrs.get est "algorithm" = some (.alg r)) (hk : ∀ p ∈ est, p.1 = "algorithm" ∨ p.1 = "is_fitted_") (hok : Attrs.Ok est)
    (hc : Connected (s.objs r) kind workers) (hl : ∀ p ∈ s.objs r, p.1 ≠ "executor" → p.2.Lasting) :
    ∃ est' s', cloneEst s est r' = .ok (est', s') ∧ isFitted est' = false ∧ Attrs.get est' "algorithm" = some (.alg r') ∧
      SameAttrs (s'.objs r') (s.objs r) ∧
      Attrs.get (s'.objs r') "executor" = some (.exec ⟨kind, workers, s.execs, false⟩) ∧
      (∀ x, x ≠ r' → s'.objs x = s.objs x) ∧
      ∀ params s'', Attrs.Ok params → setParams s' est' params = .ok s'' → ∀ x, x ≠ r' → s''.objs x = s.objs x := by
  obtain ⟨ser, shut, hex⟩ := hc.executor
  have hlast : pickleAttrs ((s.objs r).filter fun p => p.1 ≠ "executor") = .ok ((s.objs r).filter fun p => p.1 ≠ "executor") := by
    refine pickle_lasting fun p hp => ?_
    obtain ⟨h1, h2⟩ := List.mem_filter.1 hp
    exact hl p h1 (by simpa using h2)
  obtain ⟨d, hd⟩ : ∃ d, roundTrip s.execs (s.objs r) = .ok d := by
    unfold roundTrip
    rw [getState_ok hc]
    dsimp only
    rw [hlast]
    dsimp only
    unfold setState
    have hfok : Attrs.Ok ((s.objs r).filter fun p => p.1 ≠ "executor") := hc.keys.sublist (List.filter_sublist.map _)
    have h1 : Attrs.get (Attrs.update [] ((s.objs r).filter fun p => p.1 ≠ "executor")) "_executor_type" = some (.str kind.name) := by
      rw [get_update _ _ hfok, get_filter, if_neg (by decide), hc.type]; rfl
    have h2 : Attrs.get (Attrs.update [] ((s.objs r).filter fun p => p.1 ≠ "executor")) "max_workers" = some (sizeVal workers) := by
      rw [get_update _ _ hfok, get_filter, if_neg (by decide), hc.size]; rfl
    dsimp only
    rw [h1, h2]
    dsimp only
    rw [kindOf_name]
    cases workers with
    | none => exact ⟨_, rfl⟩
    | some n =>
      have := hc.positive n rfl
      unfold sizeVal newExec
      dsimp only
      rw [if_neg (by omega)]
      exact ⟨_, rfl⟩
  obtain ⟨hr1, hr2⟩ := C57_restored_partial hc hd
  have hcl : cloneEst s est r' = .ok ([("algorithm", .alg r')], ⟨fun x => if x = r' then d else s.objs x, s.execs + 1⟩) := by
    unfold cloneEst
    rw [getParams_eq ha hk hok]
    dsimp only
    rw [if_pos rfl, hd]
  refine ⟨_, _, hcl, rfl, rfl, ⟨fun k hk' => ?_, kind, workers, s.execs, ser, false, shut, ?_, hex⟩, ?_, fun x hx => ?_, ?_⟩
  · dsimp only
    rw [if_pos rfl]
    rcases hr1 k hk' with ⟨e1, e2⟩ | ⟨v, v', e1, e2, e3⟩
    · rw [e1, e2]
    · have hv : v.Lasting := by
        unfold Attrs.get at e1
        rw [Option.map_eq_some_iff] at e1
        obtain ⟨p, hf, rfl⟩ := e1
        have h2 := List.find?_some hf
        simp only [decide_eq_true_eq] at h2
        exact hl p (List.mem_of_find?_eq_some hf) (h2 ▸ hk')
      have : pickleVal v = .ok v := by
        cases v <;> first | rfl | exact absurd hv id | skip
        rename_i ex
        cases ex <;> first | rfl | exact absurd hv id
      rw [this] at e3
      cases e3
      rw [e1, e2]
  · dsimp only; rw [if_pos rfl]; exact hr2
  · dsimp only; rw [if_pos rfl]; exact hr2
  · dsimp only; rw [if_neg hx]
  · intro params s'' hp hset x hx
    have := (C59_set_params_partial hp (r := r') rfl hset).1 x hx
    rw [this]
    dsimp only
    rw [if_neg hx]

example : ∃ est' s', cloneEst ⟨fun _ => exMade, 1⟩ exWrapper 1 = .ok (est', s') ∧ isFitted est' = false ∧
    SameAttrs (s'.objs 1) exMade := by
  obtain ⟨est', s', h1, h2, -, h3, -⟩ := C146_partial (s := ⟨fun _ => exMade, 1⟩) (est := exWrapper) (r := 0) (r' := 1) (kind := .thread)
    (workers := none) rfl (by simp [exWrapper]) (by simp [Attrs.Ok, exWrapper])
    ⟨by simp [Attrs.Ok, exMade], rfl, rfl, by simp, 0, false, rfl⟩ (by simp [exMade, Val.Lasting])
  exact ⟨est', s', h1, h2, h3⟩

/-- **C146 is false**: the estimator cannot be cloned — and so not cross-validated — once it was fitted: `TypeError`. -/
theorem C146_refuted {s : Algs G} {est : Attrs G} {r r' : Nat} {kind : Kind} {workers : Option Int} (hd : Connected d kind workers)
    (hs : s.objs r = connect d)
    (ha : Attrs.get est "algorithm" = some (.alg r)) (hk : ∀ p ∈ est, p.1 = "algorithm" ∨ p.1 = "is_fitted_") (hok : Attrs.Ok est) :
    cloneEst s est r' = .error .typeError := by
  unfold cloneEst
  rw [getParams_eq ha hk hok]
  dsimp only
  rw [if_pos rfl, hs, C57_after_initialize_partial hd]

theorem exMade_connected : Connected exMade .thread none :=
  ⟨by simp [Attrs.Ok, exMade], rfl, rfl, by simp, 0, false, rfl⟩

example : cloneEst ⟨fun _ => connect exMade, 1⟩ [("algorithm", .alg 0), ("is_fitted_", .bool true)] 1 = .error .typeError :=
  C146_refuted exMade_connected rfl rfl (by simp) (by simp [Attrs.Ok])

theorem C146_statement_refuted : ¬ C146_statement := by
  intro h
  obtain ⟨est', s', h1, -⟩ := h Nat ⟨fun _ => connect exMade, 1⟩ exWrapper 0 1 .thread none (by decide) rfl (by simp [exWrapper])
    (by simp [Attrs.Ok, exWrapper])
    ⟨by simp [Attrs.Ok, exMade, connect, Attrs.get, Attrs.put], rfl, rfl, by simp, 0, false, rfl⟩
  rw [C146_refuted (r := 0) exMade_connected rfl rfl (by simp [exWrapper]) (by simp [Attrs.Ok, exWrapper])] at h1
  cases h1

end Verif.Store
