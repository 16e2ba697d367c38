import Verif.Model.Pickle

/-! # C57, C59, C71 — saving and restoring algorithms and estimators -/

namespace Verif.Store
open Evo
variable {G : Type} {d d' st : Attrs G} {serial : Nat}

/-! ## Dictionaries -/

theorem get_put (d : Attrs G) (k k' : String) (v : Val G) :
    Attrs.get (Attrs.put d k v) k' = if k' = k then some v else Attrs.get d k' := by
  induction d with
  | nil =>
    by_cases h : k' = k
    · subst h; simp [Attrs.put, Attrs.get]
    · have h' : ¬ k = k' := fun e => h e.symm
      simp [Attrs.put, Attrs.get, h, h']
  | cons p d ih =>
    unfold Attrs.put
    by_cases hp : p.1 = k
    · rw [if_pos hp]
      by_cases h : k' = k
      · subst h; simp [Attrs.get]
      · have h1 : ¬ k = k' := fun e => h e.symm
        have h2 : ¬ p.1 = k' := fun e => h (e.symm.trans hp)
        simp [Attrs.get, h, h1, h2]
    · rw [if_neg hp]
      by_cases h2 : p.1 = k'
      · have h : ¬ k' = k := fun e => hp (h2.trans e)
        simp [Attrs.get, h, h2]
      · have e1 : Attrs.get (p :: Attrs.put d k v) k' = Attrs.get (Attrs.put d k v) k' := by
          simp [Attrs.get, h2]
        have e2 : Attrs.get (p :: d) k' = Attrs.get d k' := by simp [Attrs.get, h2]
        rw [e1, e2, ih]

/-- Every attribute name occurs once. -/
def Attrs.Ok (d : Attrs G) : Prop := (d.map Prod.fst).Nodup

theorem get_update (d e : Attrs G) (he : Attrs.Ok e) (k : String) :
    Attrs.get (Attrs.update d e) k = (Attrs.get e k).or (Attrs.get d k) := by
  induction e generalizing d with
  | nil => simp [Attrs.update, Attrs.get]
  | cons p e ih =>
    unfold Attrs.Ok at he
    rw [List.map_cons, List.nodup_cons] at he
    have h1 : Attrs.update d (p :: e) = Attrs.update (Attrs.put d p.1 p.2) e := rfl
    rw [h1, ih _ he.2, get_put]
    by_cases h : k = p.1
    · subst h
      have : Attrs.get e p.1 = none := by
        unfold Attrs.get
        rw [Option.map_eq_none_iff, List.find?_eq_none]
        intro q hq hc
        exact he.1 (List.mem_map.2 ⟨q, hq, by simpa using hc⟩)
      rw [this]
      simp [Attrs.get]
    · have h' : ¬ p.1 = k := fun e => h e.symm
      simp [Attrs.get, h, h']

theorem get_filter (d : Attrs G) (k k' : String) :
    Attrs.get (d.filter fun p => p.1 ≠ k) k' = if k' = k then none else Attrs.get d k' := by
  unfold Attrs.get
  rw [List.find?_filter]
  by_cases h : k' = k
  · subst h
    rw [if_pos rfl, Option.map_eq_none_iff, List.find?_eq_none]
    intro q _
    simp
  · rw [if_neg h]
    congr 1
    congr 1
    funext p
    by_cases h2 : p.1 = k' <;> simp [h2, h]

theorem get_pickle {d d' : Attrs G} (h : pickleAttrs d = .ok d') (k : String) :
    match Attrs.get d k with
    | none => Attrs.get d' k = none
    | some v => ∃ v', pickleVal v = .ok v' ∧ Attrs.get d' k = some v' := by
  induction d generalizing d' with
  | nil =>
    simp only [pickleAttrs, Except.ok.injEq] at h
    subst h
    simp [Attrs.get]
  | cons p d ih =>
    obtain ⟨k0, v0⟩ := p
    unfold pickleAttrs at h
    cases hv : pickleVal v0 with
    | error e => rw [hv] at h; simp at h
    | ok v0' =>
      rw [hv] at h
      dsimp only at h
      cases hd : pickleAttrs d with
      | error e => rw [hd] at h; simp at h
      | ok d0 =>
        rw [hd] at h
        simp only [Except.ok.injEq] at h
        subst h
        by_cases hk : k0 = k
        · subst hk
          simp only [Attrs.get, List.find?_cons, decide_true, Option.map_some]
          exact ⟨v0', hv, rfl⟩
        · have e1 : Attrs.get ((k0, v0) :: d) k = Attrs.get d k := by simp [Attrs.get, hk]
          have e2 : Attrs.get ((k0, v0') :: d0) k = Attrs.get d0 k := by simp [Attrs.get, hk]
          rw [e1, e2]
          exact ih hd

theorem pickle_keys {d d' : Attrs G} (h : pickleAttrs d = .ok d') : d'.map Prod.fst = d.map Prod.fst := by
  induction d generalizing d' with
  | nil => simp only [pickleAttrs, Except.ok.injEq] at h; subst h; rfl
  | cons p d ih =>
    obtain ⟨k0, v0⟩ := p
    unfold pickleAttrs at h
    cases hv : pickleVal v0 with
    | error e => rw [hv] at h; simp at h
    | ok v0' =>
      rw [hv] at h
      dsimp only at h
      cases hd : pickleAttrs d with
      | error e => rw [hd] at h; simp at h
      | ok d0 =>
        rw [hd] at h
        simp only [Except.ok.injEq] at h
        subst h
        simp [ih hd]

theorem pickle_error {d : Attrs G} {e : Err} (h : pickleAttrs d = .error e) : e = .typeError := by
  have hval : ∀ {v : Val G} {e}, pickleVal v = .error e → e = .typeError := by
    intro v e hv
    unfold pickleVal at hv
    split at hv <;> simp_all
  induction d with
  | nil => simp [pickleAttrs] at h
  | cons p d ih =>
    obtain ⟨k0, v0⟩ := p
    unfold pickleAttrs at h
    cases hv : pickleVal v0 with
    | error e => rw [hv] at h; simp only [Except.error.injEq] at h; subst h; exact hval hv
    | ok v0' =>
      rw [hv] at h
      dsimp only at h
      cases hd : pickleAttrs d with
      | error e => rw [hd] at h; simp only [Except.error.injEq] at h; subst h; exact ih hd
      | ok d0 => rw [hd] at h; simp at h

/-! ## C57 -/

/-- The names of the two kinds. -/
def Kind.name : Kind → String
  | .thread => "thread"
  | .process => "process"

/-- `None` or a number. -/
def sizeVal : Option Int → Val G
  | none => .none
  | some n => .int n

/-- The executor attributes of an algorithm fit together, as `__init__` makes them: `max_workers` is `None` or a
positive number, `_executor_type` is one of the two kinds and `executor` is an executor of that kind and size. -/
structure Connected (d : Attrs G) (kind : Kind) (workers : Option Int) : Prop where
  keys : Attrs.Ok d
  type : Attrs.get d "_executor_type" = some (.str kind.name)
  size : Attrs.get d "max_workers" = some (sizeVal workers)
  positive : ∀ n, workers = some n → 0 < n
  executor : ∃ serial shut, Attrs.get d "executor" = some (.exec ⟨kind, workers, serial, shut⟩)

theorem put_keys (d : Attrs G) (k : String) (v : Val G) (h : Attrs.Ok d) : Attrs.Ok (Attrs.put d k v) := by
  unfold Attrs.Ok at *
  have hmem : ∀ (d : Attrs G) x, x ∈ (Attrs.put d k v).map Prod.fst → x = k ∨ x ∈ d.map Prod.fst := by
    intro d
    induction d with
    | nil => intro x hx; simp [Attrs.put] at hx; exact .inl hx
    | cons p d ih =>
      intro x hx
      unfold Attrs.put at hx
      split at hx
      · simp only [List.map_cons, List.mem_cons] at hx ⊢
        rcases hx with hx | hx
        · exact .inl hx
        · exact .inr (.inr hx)
      · simp only [List.map_cons, List.mem_cons] at hx ⊢
        rcases hx with hx | hx
        · exact .inr (.inl hx)
        · rcases ih x hx with h | h
          · exact .inl h
          · exact .inr (.inr h)
  induction d with
  | nil => simp [Attrs.put]
  | cons p d ih =>
    rw [List.map_cons, List.nodup_cons] at h
    unfold Attrs.put
    split
    · rename_i hp
      rw [List.map_cons, List.nodup_cons]
      exact ⟨hp ▸ h.1, h.2⟩
    · rename_i hp
      rw [List.map_cons, List.nodup_cons]
      refine ⟨fun hx => ?_, ih h.2⟩
      rcases hmem d _ hx with h1 | h1
      · exact hp h1
      · exact h.1 h1

/-- C57: the constructor connects the algorithm to an executor of the kind asked for, and remembers the kind. -/
theorem C57_constructed {executor : String} {w : Val G} (hd : Attrs.Ok d)
    (h : initExecutor serial d executor w = .ok d') : ∃ kind workers, executor = kind.name ∧ Connected d' kind workers := by
  unfold initExecutor at h
  dsimp only at h
  have key : ∀ kind name, executor = name → (name = kind.name) →
      (match newExec kind serial w with
        | .error e => .error e
        | .ok ex => .ok (Attrs.put (Attrs.put (Attrs.put d "max_workers" w) "executor" (.exec ex)) "_executor_type" (.str executor)))
        = Except.ok d' → ∃ kind workers, executor = kind.name ∧ Connected d' kind workers := by
    rintro kind name rfl hname h
    cases hx : newExec kind serial w with
    | error e => rw [hx] at h; simp at h
    | ok ex =>
      rw [hx] at h
      simp only [Except.ok.injEq] at h
      subst h
      have hk := put_keys _ "_executor_type" (.str executor) (put_keys _ "executor" (.exec ex) (put_keys d "max_workers" w hd))
      unfold newExec at hx
      split at hx
      · simp only [Except.ok.injEq] at hx
        subst hx
        refine ⟨kind, none, hname, hk, ?_, ?_, by simp, serial, false, ?_⟩
        · simp [get_put, ← hname]
        · simp [get_put, sizeVal]
        · simp [get_put]
      · split at hx
        · simp at hx
        · rename_i n hn
          simp only [Except.ok.injEq] at hx
          subst hx
          refine ⟨kind, some n, hname, hk, ?_, ?_, ?_, serial, false, ?_⟩
          · simp [get_put, ← hname]
          · simp [get_put, sizeVal]
          · intro k hkn; simp only [Option.some.injEq] at hkn; omega
          · simp [get_put]
      · simp at hx
  by_cases h1 : executor = "thread"
  · rw [if_pos h1] at h
    exact key .thread "thread" h1 rfl h
  · rw [if_neg h1] at h
    by_cases h2 : executor = "process"
    · rw [if_pos h2] at h
      exact key .process "process" h2 rfl h
    · rw [if_neg h2] at h
      simp at h

example : ∃ (d' : Attrs Unit) (kind : Kind) (workers : Option Int), initExecutor 0 [] "process" (.int 3) = .ok d' ∧
    "process" = kind.name ∧ Connected d' kind workers := by
  obtain ⟨kind, workers, h⟩ := C57_constructed (G := Unit) (d := []) (serial := 0) (executor := "process") (w := .int 3) (by simp [Attrs.Ok]) rfl
  exact ⟨_, kind, workers, rfl, h⟩

theorem getState_ok {kind : Kind} {workers : Option Int} (hc : Connected d kind workers) :
    getState d = .ok (d.filter fun p => p.1 ≠ "executor") := by
  obtain ⟨serial, shut, h⟩ := hc.executor
  unfold getState Attrs.del
  rw [h]

/-- C57 as stated, for algorithms as `__init__` and `initialize` leave them. -/
def C57_statement : Prop :=
  ∀ (G : Type) (d : Attrs G) (kind : Kind) (workers : Option Int) (serial : Nat), Connected d kind workers →
    ∃ d', roundTrip serial d = .ok d' ∧ (∀ k, k ≠ "executor" → Attrs.get d' k = Attrs.get d k) ∧
      Attrs.get d' "executor" = some (.exec ⟨kind, workers, serial, false⟩)

/-- C57, the part that holds: if the copy succeeds at all, the restored algorithm has the copies of all fields, and
a new, running executor of the same kind and worker count. -/
theorem C57_restored_partial {kind : Kind} {workers : Option Int} (hc : Connected d kind workers)
    (h : roundTrip serial d = .ok d') :
    (∀ k, k ≠ "executor" → (Attrs.get d k = none ∧ Attrs.get d' k = none) ∨
      ∃ v v', Attrs.get d k = some v ∧ Attrs.get d' k = some v' ∧ pickleVal v = .ok v') ∧
    Attrs.get d' "executor" = some (.exec ⟨kind, workers, serial, false⟩) := by
  unfold roundTrip at h
  rw [getState_ok hc] at h
  dsimp only at h
  cases hp : pickleAttrs (d.filter fun p => p.1 ≠ "executor") with
  | error e => rw [hp] at h; simp at h
  | ok st =>
    rw [hp] at h
    dsimp only at h
    have hkeys : Attrs.Ok st := by
      unfold Attrs.Ok
      rw [pickle_keys hp]
      exact hc.keys.sublist (List.filter_sublist.map _)
    have hget : ∀ k, Attrs.get (Attrs.update [] st) k = Attrs.get st k := fun k => by
      rw [get_update _ _ hkeys]; simp [Attrs.get]
    have hfield : ∀ k, k ≠ "executor" → (Attrs.get d k = none ∧ Attrs.get st k = none) ∨
        ∃ v v', Attrs.get d k = some v ∧ Attrs.get st k = some v' ∧ pickleVal v = .ok v' := by
      intro k hk
      have h1 := get_pickle hp k
      rw [get_filter, if_neg hk] at h1
      cases hv : Attrs.get d k with
      | none => rw [hv] at h1; exact .inl ⟨rfl, h1⟩
      | some v =>
        rw [hv] at h1
        obtain ⟨v', h2, h3⟩ := h1
        exact .inr ⟨v, v', rfl, h3, h2⟩
    have htype : Attrs.get st "_executor_type" = Attrs.get d "_executor_type" := by
      rcases hfield "_executor_type" (by decide) with ⟨h1, -⟩ | ⟨v, v', h1, h2, h3⟩
      · rw [hc.type] at h1; simp at h1
      · rw [h1, h2]
        rw [hc.type] at h1
        simp only [Option.some.injEq] at h1
        subst h1
        simp only [pickleVal, Except.ok.injEq] at h3
        rw [h3]
    have hwork : Attrs.get st "max_workers" = Attrs.get d "max_workers" := by
      rcases hfield "max_workers" (by decide) with ⟨h1, -⟩ | ⟨v, v', h1, h2, h3⟩
      · rw [hc.size] at h1; simp at h1
      · rw [h1, h2]
        rw [hc.size] at h1
        simp only [Option.some.injEq] at h1
        subst h1
        cases workers <;> simp only [sizeVal, pickleVal, Except.ok.injEq] at h3 ⊢ <;> rw [h3]
    unfold setState at h
    dsimp only at h
    rw [hget, hget, htype, hwork, hc.type, hc.size] at h
    dsimp only at h
    have hexec : newExec (kindOf (.str kind.name : Val G)) serial (sizeVal workers : Val G) = .ok ⟨kind, workers, serial, false⟩ := by
      have hk : kindOf (.str kind.name : Val G) = kind := by cases kind <;> rfl
      rw [hk]
      cases workers with
      | none => rfl
      | some n =>
        have := hc.positive n rfl
        simp only [newExec, sizeVal]
        rw [if_neg (by omega)]
    rw [hexec] at h
    simp only [Except.ok.injEq] at h
    subst h
    refine ⟨fun k hk => ?_, by rw [get_put, if_pos rfl]⟩
    rw [get_put, if_neg hk, hget]
    exact hfield k hk

/-- What can be pickled. -/
theorem pickleAttrs_ok (d : Attrs G) : (∃ d', pickleAttrs d = .ok d') ↔
    ∀ p ∈ d, (∀ ex, p.2 ≠ .exec ex) ∧ ∀ ex, p.2 ≠ .evaluator (some ex) := by
  induction d with
  | nil => simp [pickleAttrs]
  | cons p d ih =>
    obtain ⟨k, v⟩ := p
    have hv : (∃ v', pickleVal v = .ok v') ↔ (∀ ex, v ≠ .exec ex) ∧ ∀ ex, v ≠ .evaluator (some ex) := by
      cases v with
      | evaluator ex => cases ex <;> simp [pickleVal]
      | _ => simp [pickleVal]
    rw [List.forall_mem_cons, ← ih, ← hv]
    rw [pickleAttrs]
    cases hp : pickleVal v with
    | error e => simp
    | ok v' => cases hd : pickleAttrs d <;> simp

/-- C57, the part that holds: the copy succeeds if and only if no field but `executor` holds an executor, be it directly
or as the executor of the evaluator of populations. -/
theorem C57_iff_partial {kind : Kind} {workers : Option Int} (hc : Connected d kind workers) :
    (∃ d', roundTrip serial d = .ok d') ↔
      ∀ p ∈ d, p.1 ≠ "executor" → (∀ ex, p.2 ≠ .exec ex) ∧ ∀ ex, p.2 ≠ .evaluator (some ex) := by
  have hset : ∀ st, pickleAttrs (d.filter fun p => p.1 ≠ "executor") = .ok st → ∃ d', setState serial [] st = .ok d' := by
    intro st hp
    have hkeys : Attrs.Ok st := by
      unfold Attrs.Ok
      rw [pickle_keys hp]
      exact hc.keys.sublist (List.filter_sublist.map _)
    have hget : ∀ k, Attrs.get (Attrs.update [] st) k = Attrs.get st k := fun k => by
      rw [get_update _ _ hkeys]; simp [Attrs.get]
    have htype : Attrs.get st "_executor_type" = some (.str kind.name) := by
      have h1 := get_pickle hp "_executor_type"
      rw [get_filter, if_neg (by decide), hc.type] at h1
      obtain ⟨v', h2, h3⟩ := h1
      simp only [pickleVal, Except.ok.injEq] at h2
      rw [h3, ← h2]
    have hwork : Attrs.get st "max_workers" = some (sizeVal workers) := by
      have h1 := get_pickle hp "max_workers"
      rw [get_filter, if_neg (by decide), hc.size] at h1
      obtain ⟨v', h2, h3⟩ := h1
      rw [h3]
      cases workers <;> simp only [sizeVal, pickleVal, Except.ok.injEq] at h2 ⊢ <;> rw [h2]
    have hexec : ∃ ex, newExec (kindOf (.str kind.name : Val G)) serial (sizeVal workers : Val G) = .ok ex := by
      cases workers with
      | none => exact ⟨_, rfl⟩
      | some n =>
        have := hc.positive n rfl
        simp only [newExec, sizeVal]
        rw [if_neg (by omega)]
        exact ⟨_, rfl⟩
    obtain ⟨ex, hexec⟩ := hexec
    unfold setState
    dsimp only
    rw [hget, hget, htype, hwork]
    dsimp only
    rw [hexec]
    exact ⟨_, rfl⟩
  have hfil : (∃ st, pickleAttrs (d.filter fun p => p.1 ≠ "executor") = .ok st) ↔
      ∀ p ∈ d, p.1 ≠ "executor" → (∀ ex, p.2 ≠ .exec ex) ∧ ∀ ex, p.2 ≠ .evaluator (some ex) := by
    rw [pickleAttrs_ok]
    simp only [List.mem_filter, decide_eq_true_eq, and_imp]
  rw [← hfil]
  unfold roundTrip
  rw [getState_ok hc]
  dsimp only
  cases hp : pickleAttrs (d.filter fun p => p.1 ≠ "executor") with
  | error e => simp
  | ok st => simpa using hset st hp

/-- C57, the part that holds: the copy of a value is the value, except that individuals lose the fitness values
that are not cached. -/
theorem C57_values_partial (v : Val G) :
    (∀ ex, v ≠ .exec ex) → (∀ ex, v ≠ .evaluator (some ex)) →
    (∀ i, v = .ind i → i.fit.cache = true ∨ i.fit.evaluated = false ∧ i.fit.value = .none) →
    (∀ subs, v = .pop subs → ∀ l ∈ subs, ∀ i ∈ l, i.fit.cache = true ∨ i.fit.evaluated = false ∧ i.fit.value = .none) →
    pickleVal v = .ok v := by
  intro h1 h2 h3 h4
  have hfit : ∀ i : Ind G, (i.fit.cache = true ∨ i.fit.evaluated = false ∧ i.fit.value = .none) → pickleInd i = i := by
    intro i hi
    unfold pickleInd Fit.getstate
    rcases hi with hi | ⟨hi, hv⟩
    · rw [if_pos hi]
    · split
      · rfl
      · rw [← hi, ← hv]
  cases v with
  | exec e => exact absurd rfl (h1 e)
  | evaluator ex =>
    cases ex with
    | none => rfl
    | some ex => exact absurd rfl (h2 ex)
  | ind i => simp only [pickleVal]; rw [hfit i (h3 i rfl)]
  | pop subs =>
    simp only [pickleVal]
    have : subs.map (·.map pickleInd) = subs := by
      conv_rhs => rw [← List.map_id subs]
      refine List.map_congr_left fun l hl => ?_
      conv_rhs => rw [id_eq, ← List.map_id l]
      exact List.map_congr_left fun i hi => hfit i (h4 subs rfl l hl i hi)
    rw [this]
  | _ => rfl

/-- C57, what happens otherwise: without an executor, the algorithm cannot be pickled: `KeyError`. -/
theorem C57_without_executor_partial (d : Attrs G) (h : Attrs.get d "executor" = none) :
    roundTrip serial d = .error .keyError := by
  unfold roundTrip getState Attrs.del
  rw [h]

example : roundTrip 7 ([("max_workers", .int 4)] : Attrs Nat) = .error .keyError := C57_without_executor_partial _ rfl

/-- C57, what happens otherwise: once the algorithm was initialised (`evolve` was called), its population
evaluator holds the executor, and the algorithm cannot be pickled: `TypeError`. -/
theorem C57_after_initialize_partial {kind : Kind} {workers : Option Int} (hc : Connected d kind workers) :
    roundTrip serial (connect d) = .error .typeError := by
  obtain ⟨ser, shut, hex⟩ := hc.executor
  have hconn : connect d = Attrs.put d "population_evaluator" (.evaluator (some ⟨kind, workers, ser, shut⟩)) := by
    unfold connect; rw [hex]
  have hc' : Connected (connect d) kind workers := by
    rw [hconn]
    refine ⟨put_keys _ _ _ hc.keys, ?_, ?_, hc.positive, ser, shut, ?_⟩
    · rw [get_put, if_neg (by decide)]; exact hc.type
    · rw [get_put, if_neg (by decide)]; exact hc.size
    · rw [get_put, if_neg (by decide)]; exact hex
  unfold roundTrip
  rw [getState_ok hc']
  dsimp only
  cases hp : pickleAttrs ((connect d).filter fun p => p.1 ≠ "executor") with
  | error e => dsimp only; rw [pickle_error hp]
  | ok st =>
    exfalso
    have h1 := get_pickle hp "population_evaluator"
    rw [get_filter, if_neg (by decide), hconn, get_put, if_pos rfl] at h1
    obtain ⟨v', h2, -⟩ := h1
    simp [pickleVal] at h2

/-- An algorithm as `__init__` leaves it. -/
def exAlg : Attrs Nat :=
  [("max_generation", .int 500), ("population_evaluator", .evaluator none), ("best_of_run_", .none),
   ("max_workers", .int 4), ("executor", .exec ⟨.thread, some 4, 0, false⟩), ("_executor_type", .str "thread")]

theorem exAlg_connected : Connected exAlg .thread (some 4) :=
  ⟨by simp [Attrs.Ok, exAlg], rfl, rfl, fun n h => by simp at h; omega, 0, false, rfl⟩

example : initExecutor 0 [("max_generation", .int 500), ("population_evaluator", .evaluator none), ("best_of_run_", .none)]
    "thread" (.int 4) = .ok exAlg := rfl

example : roundTrip 7 exAlg = .ok [("max_generation", .int 500), ("population_evaluator", .evaluator none), ("best_of_run_", .none),
   ("max_workers", .int 4), ("_executor_type", .str "thread"), ("executor", .exec ⟨.thread, some 4, 7, false⟩)] := rfl

example : roundTrip 7 (connect exAlg) = .error .typeError := C57_after_initialize_partial exAlg_connected

example := C57_iff_partial (serial := 7) exAlg_connected

/-- C57 is false: an algorithm that has been initialised cannot be pickled. -/
theorem C57_refuted : ¬ C57_statement := by
  intro h
  have hc : Connected (connect exAlg) .thread (some 4) :=
    ⟨by simp [Attrs.Ok, exAlg, connect, Attrs.get, Attrs.put], rfl, rfl, fun n h => by simp at h; omega, 0, false, rfl⟩
  obtain ⟨d', h1, -⟩ := h Nat (connect exAlg) .thread (some 4) 7 hc
  rw [C57_after_initialize_partial exAlg_connected] at h1
  simp at h1

/-- C57 is false also without that: the fitness of the best individual is lost (`cache` is off by default). -/
theorem C57_refuted_fitness : ∃ i : Ind Nat, i.fit.evaluated = true ∧ i.fit.getPure = .ok (.num 3) ∧
    ∃ d', roundTrip 7 (Attrs.put exAlg "best_of_run_" (.ind i)) = .ok d' ∧
      ∃ i', Attrs.get d' "best_of_run_" = some (.ind i') ∧ i'.fit.getPure = .error .valueError :=
  ⟨⟨1, 0, 5, ⟨.num 3, true, false, false, false, none⟩, -1, [], [], false, []⟩, rfl, rfl, _, rfl, _, rfl, rfl⟩

/-! ## C59 -/

/-- C59 as stated: the parameters an estimator reports can be set again without an effect, and the algorithm can
be exchanged. -/
def C59_statement : Prop :=
  ∀ (G : Type) (s : Algs G) (est : Attrs G) (r : Nat) (kind : Kind) (workers : Option Int),
    Attrs.get est "algorithm" = some (.alg r) → Connected (s.objs r) kind workers →
    (∃ s', setParams s est (getParams est) = .ok s' ∧ ∀ k, Attrs.get (s'.objs r) k = Attrs.get (s.objs r) k) ∧
    ∀ r', ∃ s', setParams s est [("algorithm", .alg r')] = .ok s' ∧ Attrs.get est "algorithm" = some (.alg r')

/-- C59: `get_params` reports the algorithm, and never `is_fitted_`. -/
theorem C59_get_params_partial (est : Attrs G) (k : String) :
    Attrs.get (getParams est) k = if k = "is_fitted_" then none else Attrs.get est k := by
  unfold getParams
  exact get_filter est "is_fitted_" k

/-- C59, what happens instead: `set_params` sets the attributes of the wrapped algorithm (whatever they are) and
gives it a new executor; other algorithms are left alone, and so is the estimator. -/
theorem C59_set_params_partial {s s' : Algs G} {est params : Attrs G} {r : Nat} (hp : Attrs.Ok params)
    (hr : Attrs.get est "algorithm" = some (.alg r)) (h : setParams s est params = .ok s') :
    (∀ x, x ≠ r → s'.objs x = s.objs x) ∧
    (∀ k, k ≠ "executor" → Attrs.get (s'.objs r) k = (Attrs.get params k).or (Attrs.get (s.objs r) k)) ∧
    ∃ kind workers, Attrs.get (s'.objs r) "executor" = some (.exec ⟨kind, workers, s.execs, false⟩) := by
  unfold setParams at h
  rw [hr] at h
  dsimp only at h
  unfold setState at h
  dsimp only at h
  split at h
  · simp at h
  · rename_i d hd
    simp only [Except.ok.injEq] at h
    subst h
    split at hd
    · rename_i t w ht hw
      split at hd
      · simp at hd
      · rename_i ex hex
        simp only [Except.ok.injEq] at hd
        subst hd
        refine ⟨fun x hx => by dsimp only; rw [if_neg hx], fun k hk => ?_, ?_⟩
        · dsimp only
          rw [if_pos rfl, get_put, if_neg hk, get_update _ _ hp]
        · dsimp only
          rw [if_pos rfl]
          refine ⟨ex.kind, ex.maxWorkers, ?_⟩
          rw [get_put, if_pos rfl]
          unfold newExec at hex
          split at hex
          · simp only [Except.ok.injEq] at hex; subst hex; rfl
          · split at hex
            · simp at hex
            · simp only [Except.ok.injEq] at hex; subst hex; rfl
          · simp at hex
    · simp at hd

/-- The hypotheses of `C59_statement` can be met. -/
def exAlgs : Algs Nat := ⟨fun _ => exAlg, 3⟩

def exEst : Attrs Nat := [("algorithm", .alg 0), ("is_fitted_", .bool true)]

/-- C59 is false: `set_params(algorithm=a)` does not change the algorithm. -/
theorem C59_refuted : ¬ C59_statement := by
  intro h
  obtain ⟨s', -, h2⟩ := (h Nat exAlgs exEst 0 .thread (some 4) rfl exAlg_connected).2 1
  simp [exEst, Attrs.get] at h2

/-- C59: the first half is false, too: setting the reported parameters again replaces the executor. -/
theorem C59_refuted_round_trip : ∃ s', setParams exAlgs exEst (getParams exEst) = .ok s' ∧
    Attrs.get (s'.objs 0) "executor" = some (.exec ⟨.thread, some 4, 3, false⟩) ∧
    Attrs.get (exAlgs.objs 0) "executor" = some (.exec ⟨.thread, some 4, 0, false⟩) ∧
    Attrs.get (s'.objs 0) "algorithm" = some (.alg 0) ∧ Attrs.get (exAlgs.objs 0) "algorithm" = none :=
  ⟨_, rfl, rfl, rfl, rfl, rfl⟩

/-! ## C71 -/

/-- C71 as stated: a fitted estimator is still fitted after pickling. -/
def C71_statement : Prop := ∀ (G : Type) (est : Attrs G), isFitted est = true → isFitted (restoreEstimator est) = true

/-- C71, what happens instead: no restored estimator is fitted; its other attributes are kept. -/
theorem C71_restored_partial (est : Attrs G) (he : Attrs.Ok est) : isFitted (restoreEstimator est) = false ∧
    ∀ k, k ≠ "is_fitted_" → Attrs.get (restoreEstimator est) k = Attrs.get est k := by
  have hk : Attrs.Ok (getParams est) := he.sublist (List.filter_sublist.map _)
  constructor
  · unfold isFitted restoreEstimator
    rw [get_update _ _ hk, C59_get_params_partial, if_pos rfl]
    rfl
  · intro k hk'
    unfold restoreEstimator
    rw [get_update _ _ hk, C59_get_params_partial, if_neg hk']
    simp [Attrs.get]

/-- C71 is false. -/
theorem C71_refuted : ¬ C71_statement := by
  intro h
  have h1 := h Nat exEst rfl
  rw [(C71_restored_partial exEst (by simp [Attrs.Ok, exEst])).1] at h1
  simp at h1

end Verif.Store
