import Verif.Model.Publisher
import Mathlib.Data.List.Basic

/-! # C43: subscriptions -/

namespace Verif.Pub
open PyM
set_option linter.unusedSectionVars false
variable {C : Type} [DecidableEq C]

/-- What an observer of the calls expects to be registered for event `e`: the subscriptions made, in
order, without those unregistered later. -/
def registered (e : String) : List (Call C × Except Err (Option Nat)) → List (Nat × Option C)
  | [] => []
  | (.register e' cb, .ok (some i)) :: rest =>
    if e' = e ∧ ∀ x ∈ rest, x.1 ≠ Call.unregister e i then (i, cb) :: registered e rest
    else registered e rest
  | _ :: rest => registered e rest

/-- The ids handed out in a history. -/
def ids (hist : List (Call C × Except Err (Option Nat))) : List Nat :=
  hist.filterMap fun x => match x.2 with
    | .ok (some i) => some i
    | _ => none

theorem lookup_assign {α β : Type} [DecidableEq α] (d : List (α × β)) (k k' : α) (v : β) :
    lookup (assign d k v) k' = if k = k' then some v else lookup d k' := by
  induction d with
  | nil => by_cases h : k = k' <;> simp [assign, lookup, h]
  | cons p d ih =>
    obtain ⟨q, w⟩ := p
    unfold assign
    by_cases hq : q = k
    · subst hq
      by_cases h : q = k' <;> simp [lookup, h]
    · rw [if_neg hq]
      by_cases h : q = k'
      · subst h
        have : ¬ k = q := fun h => hq h.symm
        simp [lookup, this]
      · have := ih
        unfold lookup at this ⊢
        simp only [List.find?_cons, h, decide_false]
        exact this

theorem assign_fresh {α β : Type} [DecidableEq α] (d : List (α × β)) (k : α) (v : β)
    (h : ∀ p ∈ d, p.1 ≠ k) : assign d k v = d ++ [(k, v)] := by
  induction d with
  | nil => rfl
  | cons p d ih =>
    obtain ⟨q, w⟩ := p
    unfold assign
    rw [if_neg (h (q, w) (by simp)), ih fun p hp => h p (by simp [hp])]
    rfl

theorem lookup_none {α β : Type} [DecidableEq α] (d : List (α × β)) (k : α) :
    lookup d k = none ↔ k ∉ d.map (·.1) := by
  unfold lookup
  simp only [Option.map_eq_none_iff, List.find?_eq_none, decide_eq_true_eq, List.mem_map, not_exists, not_and]

theorem lookup_empty (names : List String) (d : List (String × List (Nat × Stored C))) (e : String)
    (hd : ∀ e, lookup d e = none ∨ lookup d e = some []) :
    lookup (names.foldl (fun d n => assign d n []) d) e = if e ∈ names then some [] else lookup d e := by
  induction names generalizing d with
  | nil => simp
  | cons n names ih =>
    rw [List.foldl_cons, ih]
    · rw [lookup_assign]
      by_cases h1 : e ∈ names
      · simp [h1]
      · by_cases h2 : n = e
        · simp [h2]
        · have h3 : ¬ e = n := fun h => h2 h.symm
          simp [h1, h2, h3]
    · intro e'
      rw [lookup_assign]
      by_cases h2 : n = e' <;> simp [h2, hd]

theorem registered_snoc_register (e e' : String) (cb : Option C) (i : Nat)
    (hist : List (Call C × Except Err (Option Nat))) :
    registered e (hist ++ [(.register e' cb, .ok (some i))]) =
      registered e hist ++ if e' = e then [(i, cb)] else [] := by
  induction hist with
  | nil => by_cases h : e' = e <;> simp [registered, h]
  | cons x hist ih =>
    obtain ⟨c, r⟩ := x
    cases c with
    | unregister e₁ i₁ => simpa [registered] using ih
    | register e₁ cb₁ =>
      rcases r with _ | _ | j
      · simpa [registered] using ih
      · simpa [registered] using ih
      · simp only [List.cons_append, registered, ih]
        have : (∀ x ∈ hist ++ [(Call.register e' cb, (Except.ok (some i) : Except Err (Option Nat)))],
            x.1 ≠ Call.unregister e j) ↔ ∀ x ∈ hist, x.1 ≠ Call.unregister e j := by
          simp [or_imp, forall_and]
        simp only [this]
        split <;> simp

theorem registered_snoc_failed (e e' : String) (cb : Option C) (er : Err)
    (hist : List (Call C × Except Err (Option Nat))) :
    registered e (hist ++ [(.register e' cb, .error er)]) = registered e hist := by
  induction hist with
  | nil => simp [registered]
  | cons x hist ih =>
    obtain ⟨c, r⟩ := x
    cases c with
    | unregister e₁ i₁ => simpa [registered] using ih
    | register e₁ cb₁ =>
      rcases r with _ | _ | j
      · simpa [registered] using ih
      · simpa [registered] using ih
      · simp only [List.cons_append, registered, ih]
        have : (∀ x ∈ hist ++ [(Call.register e' cb, (Except.error er : Except Err (Option Nat)))],
            x.1 ≠ Call.unregister e j) ↔ ∀ x ∈ hist, x.1 ≠ Call.unregister e j := by
          simp [or_imp, forall_and]
        simp only [this]

theorem registered_snoc_unregister (e e' : String) (i : Nat) (res : Except Err (Option Nat))
    (hist : List (Call C × Except Err (Option Nat))) :
    registered e (hist ++ [(.unregister e' i, res)]) =
      if e' = e then (registered e hist).filter (fun p => p.1 ≠ i) else registered e hist := by
  induction hist with
  | nil => by_cases h : e' = e <;> simp [registered, h]
  | cons x hist ih =>
    obtain ⟨c, r⟩ := x
    cases c with
    | unregister e₁ i₁ => simpa [registered] using ih
    | register e₁ cb₁ =>
      rcases r with _ | _ | j
      · simpa [registered] using ih
      · simpa [registered] using ih
      · simp only [List.cons_append, registered, ih]
        have : (∀ x ∈ hist ++ [(Call.unregister e' i, res)], x.1 ≠ Call.unregister e j) ↔
            (∀ x ∈ hist, x.1 ≠ Call.unregister e j) ∧ ¬ (e' = e ∧ i = j) := by
          simp [or_imp, forall_and]
        simp only [this]
        by_cases h1 : e₁ = e ∧ ∀ x ∈ hist, x.1 ≠ Call.unregister e j
        · rw [if_pos h1]
          by_cases h3 : e' = e
          · by_cases h4 : i = j
            · rw [if_neg fun h => h.2.2 ⟨h3, h4⟩, if_pos h3, if_pos h3, List.filter_cons,
                if_neg (by simp [h4])]
            · rw [if_pos ⟨h1.1, h1.2, fun h => h4 h.2⟩, if_pos h3, if_pos h3, List.filter_cons,
                if_pos (by simpa using fun h => h4 h.symm)]
          · rw [if_pos ⟨h1.1, h1.2, fun h => h3 h.1⟩, if_neg h3, if_neg h3]
        · rw [if_neg h1]
          have : ¬ (e₁ = e ∧ (∀ x ∈ hist, x.1 ≠ Call.unregister e j) ∧ ¬ (e' = e ∧ i = j)) :=
            fun h => h1 ⟨h.1, h.2.1⟩
          rw [if_neg this]

/-- The state of the publisher after a history. -/
structure Reflects (names : List String) (hist : List (Call C × Except Err (Option Nat))) (r : Registry C) :
    Prop where
  known : ∀ e, e ∈ names → lookup r.events e = some ((registered e hist).map fun p => (p.1, stored p.2))
  unknown : ∀ e, e ∉ names → lookup r.events e = none
  none : ∀ e, e ∉ names → registered e hist = []
  below : ∀ e, ∀ p ∈ registered e hist, p.1 < r.customersId
  ids : ids hist = List.range r.customersId

theorem ids_snoc (hist : List (Call C × Except Err (Option Nat))) (c : Call C) (res : Except Err (Option Nat)) :
    ids (hist ++ [(c, res)]) = ids hist ++ match res with
      | .ok (some i) => [i]
      | _ => [] := by
  unfold ids
  rw [List.filterMap_append]
  congr 1
  rcases res with _ | _ | i <;> rfl

theorem perform_reflects {names : List String} {hist : List (Call C × Except Err (Option Nat))} {r r' : Registry C}
    (h : Reflects names hist r) (c : Call C) {res : Except Err (Option Nat)} (hp : perform c r = (res, r')) :
    Reflects names (hist ++ [(c, res)]) r' ∧
    (∀ e cb, c = .register e cb → res = if e ∈ names then .ok (some r.customersId) else .error .keyError) ∧
    (∀ e i, c = .unregister e i → res = if i ∈ (registered e hist).map (·.1) ∧ e ∈ names then .ok none
      else .error .keyError) ∧
    (∀ er, res = .error er → r' = r) := by
  cases c with
  | register e cb =>
    by_cases he : e ∈ names
    · have hl := h.known e he
      have hfresh : ∀ p ∈ (registered e hist).map (fun p => (p.1, stored p.2)), p.1 ≠ r.customersId := by
        intro p hp
        obtain ⟨q, hq, rfl⟩ := List.mem_map.1 hp
        have := h.below e q hq
        dsimp only
        omega
      have hrun : perform (.register e cb) r = (.ok (some r.customersId),
          { events := assign r.events e (((registered e hist).map fun p => (p.1, stored p.2)) ++ [(r.customersId, stored cb)])
            customersId := r.customersId + 1 }) := by
        unfold perform register
        simp only [bind, PyM.bind, PyM.get, hl, PyM.set, pure, PyM.pure]
        rw [assign_fresh _ _ _ hfresh]
      rw [hrun] at hp
      simp only [Prod.mk.injEq] at hp
      obtain ⟨rfl, rfl⟩ := hp
      refine ⟨⟨?_, ?_, ?_, ?_, ?_⟩, ?_, by simp, by simp⟩
      · intro e' he'
        dsimp only
        rw [lookup_assign, registered_snoc_register]
        by_cases h1 : e = e'
        · subst h1; simp
        · simp [h1, h.known e' he']
      · intro e' he'
        dsimp only
        rw [lookup_assign, if_neg (by rintro rfl; exact he' he)]
        exact h.unknown e' he'
      · intro e' he'
        rw [registered_snoc_register, if_neg (by rintro rfl; exact he' he), h.none e' he']
        rfl
      · intro e' p hp
        rw [registered_snoc_register, List.mem_append] at hp
        dsimp only
        rcases hp with hp | hp
        · have := h.below e' p hp; omega
        · split at hp
          · simp only [List.mem_singleton] at hp; subst hp; dsimp only; omega
          · simp at hp
      · rw [ids_snoc, h.ids, List.range_succ]
      · rintro e₁ cb₁ h1; cases h1; simp [he]
    · have hl := h.unknown e he
      have hrun : perform (.register e cb) r = (.error .keyError, r) := by
        unfold perform register
        simp only [bind, PyM.bind, PyM.get, hl, raise]
      rw [hrun] at hp
      simp only [Prod.mk.injEq] at hp
      obtain ⟨rfl, rfl⟩ := hp
      refine ⟨⟨?_, h.unknown, ?_, ?_, ?_⟩, ?_, by simp, by simp⟩
      · intro e' he'; rw [registered_snoc_failed]; exact h.known e' he'
      · intro e' he'; rw [registered_snoc_failed]; exact h.none e' he'
      · intro e' p hp; rw [registered_snoc_failed] at hp; exact h.below e' p hp
      · rw [ids_snoc, h.ids]; simp
      · rintro e₁ cb₁ h1; cases h1; simp [he]
  | unregister e i =>
    by_cases he : e ∈ names
    · have hl := h.known e he
      by_cases hi : i ∈ (registered e hist).map (·.1)
      · have hne : ∃ x, lookup ((registered e hist).map fun p => (p.1, stored p.2)) i = some x := by
          rw [← Option.isSome_iff_exists, Option.isSome_iff_ne_none]
          intro hc
          rw [lookup_none] at hc
          apply hc
          simpa using hi
        obtain ⟨x, hx⟩ := hne
        have hrun : perform (.unregister e i) r = (.ok none, Registry.mk (assign r.events e
            (((registered e hist).filter (fun p => p.1 ≠ i)).map fun p => (p.1, stored p.2))) r.customersId) := by
          unfold perform unregister
          simp only [bind, PyM.bind, PyM.get, hl, hx, PyM.set, pure, PyM.pure]
          rw [List.filter_map]
          rfl
        rw [hrun] at hp
        simp only [Prod.mk.injEq] at hp
        obtain ⟨rfl, rfl⟩ := hp
        refine ⟨⟨?_, ?_, ?_, ?_, ?_⟩, by simp, ?_, by simp⟩
        · intro e' he'
          dsimp only
          rw [lookup_assign, registered_snoc_unregister]
          by_cases h1 : e = e'
          · subst h1; simp
          · simp [h1, h.known e' he']
        · intro e' he'
          dsimp only
          rw [lookup_assign, if_neg (by rintro rfl; exact he' he)]
          exact h.unknown e' he'
        · intro e' he'
          rw [registered_snoc_unregister, h.none e' he']
          simp
        · intro e' p hp
          rw [registered_snoc_unregister] at hp
          dsimp only
          split at hp
          · exact h.below e' p (List.mem_filter.1 hp).1
          · exact h.below e' p hp
        · rw [ids_snoc, h.ids]; simp
        · rintro e₁ i₁ h1; cases h1; rw [if_pos ⟨hi, he⟩]
      · have hnone : lookup ((registered e hist).map fun p => (p.1, stored p.2)) i = none := by
          rw [lookup_none]; simpa using hi
        have hrun : perform (.unregister e i) r = (.error .keyError, r) := by
          unfold perform unregister
          simp only [bind, PyM.bind, PyM.get, hl, hnone, raise]
        rw [hrun] at hp
        simp only [Prod.mk.injEq] at hp
        obtain ⟨rfl, rfl⟩ := hp
        have hfil : ∀ e', registered e' (hist ++ [(Call.unregister e i, .error .keyError)]) = registered e' hist := by
          intro e'
          rw [registered_snoc_unregister]
          split
          · rename_i h1
            subst h1
            rw [List.filter_eq_self]
            intro p hp
            simp only [ne_eq, decide_not, Bool.not_eq_eq_eq_not, Bool.not_true, decide_eq_false_iff_not]
            rintro rfl
            exact hi (List.mem_map_of_mem hp)
          · rfl
        refine ⟨⟨?_, h.unknown, ?_, ?_, ?_⟩, by simp, ?_, by simp⟩
        · intro e' he'; rw [hfil]; exact h.known e' he'
        · intro e' he'; rw [hfil]; exact h.none e' he'
        · intro e' p hp; rw [hfil] at hp; exact h.below e' p hp
        · rw [ids_snoc, h.ids]; simp
        · rintro e₁ i₁ h1; cases h1; rw [if_neg fun h => hi h.1]
    · have hl := h.unknown e he
      have hrun : perform (.unregister e i) r = (.error .keyError, r) := by
        unfold perform unregister
        simp only [bind, PyM.bind, PyM.get, hl, raise]
      rw [hrun] at hp
      simp only [Prod.mk.injEq] at hp
      obtain ⟨rfl, rfl⟩ := hp
      refine ⟨⟨?_, h.unknown, ?_, ?_, ?_⟩, by simp, ?_, by simp⟩
      · intro e' he'
        rw [registered_snoc_unregister, if_neg (by rintro rfl; exact he he')]
        exact h.known e' he'
      · intro e' he'
        rw [registered_snoc_unregister, h.none e' he']
        simp
      · intro e' p hp
        rw [registered_snoc_unregister] at hp
        split at hp
        · exact h.below e' p (List.mem_filter.1 hp).1
        · exact h.below e' p hp
      · rw [ids_snoc, h.ids]; simp
      · rintro e₁ i₁ h1; cases h1; rw [if_neg fun h => he h.2]

theorem performAll_reflects {names : List String} (cs : List (Call C)) {past hist : List (Call C × Except Err (Option Nat))}
    {r r' : Registry C} (h : Reflects names past r) (hp : performAll cs r = (hist, r')) :
    Reflects names (past ++ hist) r' ∧ hist.map (·.1) = cs := by
  induction cs generalizing past hist r with
  | nil =>
    simp only [performAll, Prod.mk.injEq] at hp
    obtain ⟨rfl, rfl⟩ := hp
    simpa using h
  | cons c cs ih =>
    unfold performAll at hp
    rcases hc : perform c r with ⟨res, r₁⟩
    rcases ha : performAll cs r₁ with ⟨hist', r₂⟩
    simp only [hc, ha, Prod.mk.injEq] at hp
    obtain ⟨rfl, rfl⟩ := hp
    obtain ⟨h1, h2⟩ := ih (perform_reflects h c hc).1 ha
    exact ⟨by simpa using h1, by simp [h2]⟩

theorem new_reflects (names : List String) :
    Reflects (names ++ ["before_operator", "after_operator"]) ([] : List (Call C × Except Err (Option Nat))) (new names) := by
  have hl : ∀ e, lookup (new (C := C) names).events e =
      if e ∈ names ++ ["before_operator", "after_operator"] then some [] else none := by
    intro e
    unfold new emptyEvents
    dsimp only
    rw [lookup_empty _ _ _ (fun e => .inl rfl)]
    rfl
  refine ⟨fun e he => by rw [hl, if_pos he]; rfl, fun e he => by rw [hl, if_neg he], fun _ _ => rfl, ?_, rfl⟩
  intro e p hp
  simp [registered] at hp

variable {names : List String} {cs : List (Call C)} {hist : List (Call C × Except Err (Option Nat))} {r : Registry C}

theorem callAll_callbacks (l : List (Nat × Option C)) (h : ∀ p ∈ l, p.2 ≠ none) :
    callAll (l.map fun p => (p.1, stored p.2)) = (l.filterMap (·.2), .ok ()) := by
  induction l with
  | nil => rfl
  | cons p l ih =>
    obtain ⟨i, cb⟩ := p
    cases cb with
    | none => exact absurd rfl (h (i, none) (by simp))
    | some c =>
      simp only [List.map_cons]
      rw [show stored (some c) = Stored.callback c from rfl]
      simp only [callAll, ih fun p hp => h p (by simp [hp])]
      rfl

/-- C43: after any sequence of calls on a new publisher, publishing one of its events calls exactly the
callbacks registered and not unregistered since, once each, in the order of their registration (if all of
them were given a callback). -/
theorem C43_publish (h : performAll cs (new names) = (hist, r)) {e : String}
    (he : e ∈ names ++ ["before_operator", "after_operator"]) (hcb : ∀ p ∈ registered e hist, p.2 ≠ none) :
    publish r e = ((registered e hist).filterMap (·.2), .ok ()) := by
  obtain ⟨hr, -⟩ := performAll_reflects cs (new_reflects names) h
  unfold publish
  rw [hr.known e he]
  exact callAll_callbacks _ hcb

/-- C43: other events are a `KeyError`. -/
theorem C43_unknown_event (h : performAll cs (new names) = (hist, r)) {e : String}
    (he : e ∉ names ++ ["before_operator", "after_operator"]) :
    publish r e = ([], .error .keyError) := by
  obtain ⟨hr, -⟩ := performAll_reflects cs (new_reflects names) h
  unfold publish
  rw [hr.unknown e he]

/-- C43: the ids returned by `register` are 0, 1, 2, … — unique over all events. -/
theorem C43_ids (h : performAll cs (new names) = (hist, r)) : ids hist = List.range (ids hist).length := by
  obtain ⟨hr, -⟩ := performAll_reflects cs (new_reflects names) h
  have := hr.ids
  rw [List.nil_append] at this
  rw [this, List.length_range]

/-- C43: `unregister` succeeds exactly for a current subscription of that event, and raises `KeyError`
otherwise, in which case nothing changes. -/
theorem C43_unregister (h : performAll cs (new names) = (hist, r)) (e : String) (i : Nat) :
    (i ∈ (registered e hist).map (·.1) → ∃ r', unregister e i r = (.ok (), r')) ∧
    (i ∉ (registered e hist).map (·.1) → unregister e i r = (.error .keyError, r)) := by
  obtain ⟨hr, -⟩ := performAll_reflects cs (new_reflects names) h
  rw [List.nil_append] at hr
  rcases hu : unregister e i r with ⟨res, r'⟩
  have hp : perform (Call.unregister e i) r = (match res with
      | .ok _ => .ok none
      | .error er => .error er, r') := by
    unfold perform
    simp only [bind, PyM.bind, hu]
    cases res <;> rfl
  obtain ⟨-, -, h3, h4⟩ := perform_reflects hr _ hp
  have h3 := h3 e i rfl
  have hknown : i ∈ (registered e hist).map (·.1) → e ∈ names ++ ["before_operator", "after_operator"] := by
    intro hi
    by_contra hcon
    rw [hr.none e hcon] at hi
    simp at hi
  constructor
  · intro hi
    rw [if_pos ⟨hi, hknown hi⟩] at h3
    cases res with
    | ok u => exact ⟨r', rfl⟩
    | error er => simp at h3
  · intro hi
    rw [if_neg fun h => hi h.1] at h3
    cases res with
    | ok u => simp at h3
    | error er =>
      simp only [Except.error.injEq] at h3
      subst h3
      rw [h4 _ rfl]

/-- Registering never fails for an event of the publisher, and always (`KeyError`) for another one. -/
theorem C43_register (h : performAll cs (new names) = (hist, r)) (e : String) (cb : Option C) :
    (e ∈ names ++ ["before_operator", "after_operator"] → ∃ r', register e cb r = (.ok (ids hist).length, r')) ∧
    (e ∉ names ++ ["before_operator", "after_operator"] → register e cb r = (.error .keyError, r)) := by
  obtain ⟨hr, -⟩ := performAll_reflects cs (new_reflects names) h
  rw [List.nil_append] at hr
  rcases hu : register e cb r with ⟨res, r'⟩
  have hp : perform (Call.register e cb) r = (match res with
      | .ok i => .ok (some i)
      | .error er => .error er, r') := by
    unfold perform
    simp only [bind, PyM.bind, hu]
    cases res <;> rfl
  obtain ⟨-, h3, -, h4⟩ := perform_reflects hr _ hp
  have h3 := h3 e cb rfl
  constructor
  · intro hi
    rw [if_pos hi] at h3
    cases res with
    | ok u =>
      simp only [Except.ok.injEq, Option.some.injEq] at h3
      subst h3
      exact ⟨r', by rw [hr.ids, List.length_range]⟩
    | error er => simp at h3
  · intro hi
    rw [if_neg hi] at h3
    cases res with
    | ok u => simp at h3
    | error er =>
      simp only [Except.error.injEq] at h3
      subst h3
      rw [h4 _ rfl]

/-- A call changes only the event it names. -/
theorem C43_isolated (h : performAll cs (new names) = (hist, r)) (c : Call C) {res : Except Err (Option Nat)}
    {r' : Registry C} (hp : perform c r = (res, r')) {e : String}
    (hc : (∀ cb, c ≠ .register e cb) ∧ ∀ i, c ≠ .unregister e i) : publish r' e = publish r e := by
  obtain ⟨hr, -⟩ := performAll_reflects cs (new_reflects names) h
  rw [List.nil_append] at hr
  obtain ⟨hr', hres, -, -⟩ := perform_reflects hr c hp
  unfold publish
  by_cases he : e ∈ names ++ ["before_operator", "after_operator"]
  · rw [hr.known e he, hr'.known e he]
    congr 3
    cases c with
    | register e' cb =>
      have hne : e' ≠ e := by rintro rfl; exact hc.1 cb rfl
      rcases res with er | _ | i
      · rw [registered_snoc_failed]
      · have := hres e' cb rfl
        split at this <;> simp at this
      · rw [registered_snoc_register, if_neg hne, List.append_nil]
    | unregister e' i =>
      rw [registered_snoc_unregister, if_neg (by rintro rfl; exact hc.2 i rfl)]
  · rw [hr.unknown e he, hr'.unknown e he]

/-- The remark behind the restriction in `C43_publish`: registering without a callback makes every later
publication of the event a `TypeError`, after the callbacks registered before it were called. -/
theorem C67_raises_partial {l₁ l₂ : List (Nat × Option C)} {i : Nat} (h : performAll cs (new names) = (hist, r))
    {e : String} (he : e ∈ names ++ ["before_operator", "after_operator"])
    (hreg : registered e hist = l₁ ++ (i, none) :: l₂) (h1 : ∀ p ∈ l₁, p.2 ≠ none) :
    publish r e = (l₁.filterMap (·.2), .error .typeError) := by
  obtain ⟨hr, -⟩ := performAll_reflects cs (new_reflects names) h
  unfold publish
  rw [hr.known e he]
  rw [List.nil_append, hreg]
  dsimp only
  clear hreg
  induction l₁ with
  | nil => rfl
  | cons p l₁ ih =>
    obtain ⟨j, cb⟩ := p
    cases cb with
    | none => exact absurd rfl (h1 (j, none) (by simp))
    | some c =>
      simp only [List.cons_append, List.map_cons]
      rw [show stored (some c) = Stored.callback c from rfl]
      simp only [callAll]
      rw [ih fun p hp => h1 p (by simp [hp])]
      rfl

/-- The claim C67: after any sequence of calls publishing one of the publisher's events calls all callbacks
registered and not unregistered since, skipping the subscriptions made without a callback. -/
def C67_statement : Prop :=
  ∀ (names : List String) (cs : List (Call Nat)) (hist : List (Call Nat × Except Err (Option Nat)))
    (r : Registry Nat) (e : String), performAll cs (new names) = (hist, r) →
    e ∈ names ++ ["before_operator", "after_operator"] →
    publish r e = ((registered e hist).filterMap (·.2), .ok ())

/-- C67 is false of the code: the default callback is the set `{lambda _: None}`, which cannot be called. -/
theorem C67_refuted : ¬ C67_statement := by
  intro h
  have := h ["init"] [.register "init" none, .register "init" (some 7)] _ _ "init" rfl (by decide)
  revert this
  decide +kernel

/-! ## Instances -/

/-- Callbacks are numbers here. -/
def exCalls : List (Call Nat) :=
  [.register "init" (some 10), .register "after_operator" (some 20), .register "init" (some 30),
   .unregister "init" 1, .unregister "init" 0, .register "nonsense" (some 40), .register "init" (some 50)]

example : (performAll exCalls (new ["init"])).1.map (·.2) =
    [.ok (some 0), .ok (some 1), .ok (some 2), .error .keyError, .ok none, .error .keyError, .ok (some 3)] := by
  decide +kernel

example : registered "init" (performAll exCalls (new ["init"])).1 = [(2, some 30), (3, some 50)] := by
  decide +kernel

example : registered "init" (performAll [.register "init" (some 3), .register "init" none,
    .register "init" (some (7 : Nat))] (new ["init"])).1 = [(0, some 3)] ++ (1, none) :: [(2, some 7)] := by
  decide +kernel

example : publish (performAll exCalls (new ["init"])).2 "init" = ([30, 50], .ok ()) := by
  decide +kernel

end Verif.Pub
