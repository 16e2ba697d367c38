import Verif.Props.Publisher

/-! # C99: publishers made from an existing dictionary of events -/

namespace Verif.Pub
open PyM
set_option linter.unusedSectionVars false
variable {C : Type} [DecidableEq C] {d : List (String × List (Nat × Stored C))}

/-- The subscribers of event `e`. -/
def subscribers (r : Registry C) (e : String) : List (Nat × Stored C) := (lookup r.events e).getD []

theorem mem_assign {α β : Type} [DecidableEq α] {d : List (α × β)} {k : α} {v : β} {p : α × β} (hp : p ∈ d)
    (hk : p.1 ≠ k) : p ∈ assign d k v := by
  induction d with
  | nil => cases hp
  | cons q d ih =>
    obtain ⟨q1, q2⟩ := q
    unfold assign
    rcases List.mem_cons.1 hp with rfl | hp
    · rw [if_neg hk]; simp
    · split
      · exact List.mem_cons_of_mem _ hp
      · exact List.mem_cons_of_mem _ (ih hp)

theorem lookup_mem {α β : Type} [DecidableEq α] {d : List (α × β)} {k : α} {v : β} (h : lookup d k = some v) :
    (k, v) ∈ d := by
  unfold lookup at h
  obtain ⟨p, hp, rfl⟩ := Option.map_eq_some_iff.1 h
  have h1 := List.find?_some hp
  have h2 := List.mem_of_find?_eq_some hp
  simp only [decide_eq_true_eq] at h1
  obtain ⟨p1, p2⟩ := p
  simp only at h1
  subst h1
  exact h2

/-- One call keeps every subscription whose id is neither the counter nor unregistered. -/
theorem perform_keeps (c : Call C) (r : Registry C) {e : String} {p : Nat × Stored C} (hp : p ∈ subscribers r e)
    (hid : r.customersId ≠ p.1) (hc : c ≠ .unregister e p.1) :
    p ∈ subscribers (perform c r).2 e ∧ (perform c r).2.customersId ≤ r.customersId + 1 := by
  cases c with
  | register e' cb =>
    simp only [perform, register, bind, PyM.bind, PyM.get]
    cases hl : lookup r.events e' with
    | none => exact ⟨hp, by simp [raise]⟩
    | some subs =>
      simp only [bind, PyM.bind, PyM.set, pure, PyM.pure]
      refine ⟨?_, Nat.le_refl _⟩
      unfold subscribers
      simp only [lookup_assign]
      by_cases he : e' = e
      · subst he
        simp only [if_true, Option.getD_some]
        refine mem_assign ?_ (Ne.symm hid)
        unfold subscribers at hp
        rw [hl] at hp
        exact hp
      · rw [if_neg he]
        exact hp
  | unregister e' i =>
    simp only [perform, unregister, bind, PyM.bind, PyM.get]
    cases hl : lookup r.events e' with
    | none => exact ⟨hp, by simp [raise]⟩
    | some subs =>
      dsimp only
      cases hl2 : lookup subs i with
      | none => exact ⟨hp, by simp [raise]⟩
      | some v =>
        simp only [PyM.set, pure, PyM.pure]
        refine ⟨?_, Nat.le_succ _⟩
        unfold subscribers
        simp only [lookup_assign]
        by_cases he : e' = e
        · subst he
          simp only [if_true, Option.getD_some, List.mem_filter, decide_eq_true_eq]
          unfold subscribers at hp
          rw [hl] at hp
          refine ⟨hp, fun h => hc (by rw [h])⟩
        · rw [if_neg he]
          exact hp

theorem performAll_keeps (cs : List (Call C)) (r : Registry C) {e : String} {p : Nat × Stored C}
    (hp : p ∈ subscribers r e) (hid : r.customersId + cs.length ≤ p.1) (hc : ∀ c ∈ cs, c ≠ .unregister e p.1) :
    p ∈ subscribers (performAll cs r).2 e := by
  induction cs generalizing r with
  | nil => exact hp
  | cons c cs ih =>
    simp only [List.length_cons] at hid
    obtain ⟨h1, h2⟩ := perform_keeps c r hp (by omega) (hc c (by simp))
    unfold performAll
    exact ih (perform c r).2 h1 (by omega) fun c' hc' => hc c' (by simp [hc'])

/-- C99: a publisher made from a dictionary of events calls the subscribers of that dictionary, in their order, as long
as nobody registers. -/
theorem C99_restored_partial {e : String} {subs : List (Nat × Stored C)} (h : lookup d e = some subs) :
    publish (restore d) e = callAll subs := by
  simp [publish, restore, h]

/-- C99: after at most `n` calls of `register` and `unregister`, every subscription of the dictionary with an id
of at least `n` that was not unregistered is still there. -/
theorem C99_kept_partial (cs : List (Call C)) {e : String} {subs : List (Nat × Stored C)} {p : Nat × Stored C}
    (h : lookup d e = some subs) (hp : p ∈ subs) (hid : cs.length ≤ p.1) (hc : Call.unregister e p.1 ∉ cs) :
    p ∈ subscribers (performAll cs (restore d)).2 e :=
  performAll_keeps cs (restore d) (by simp [subscribers, restore, h, hp]) (by simpa [restore] using hid)
    fun c hm he => hc (he ▸ hm)

/-- C99: what goes wrong: the first registration for an event whose subscriber 0 is in the dictionary puts the new
callback in its place; nobody is added. -/
theorem C99_replaced {e : String} {s : Stored C} {rest : List (Nat × Stored C)} (h : lookup d e = some ((0, s) :: rest))
    (cb : Option C) :
    (register e cb (restore d)).1 = .ok 0 ∧
      subscribers (register e cb (restore d)).2 e = (0, stored cb) :: rest := by
  simp only [register, bind, PyM.bind, PyM.get, restore, h, PyM.set, pure, PyM.pure, subscribers, lookup_assign, assign,
    if_true, Option.getD_some, and_self]

/-- C99 in full: registering on a restored publisher keeps all subscriptions of the dictionary. -/
def C99_statement : Prop :=
  ∀ (d : List (String × List (Nat × Stored Nat))) (e : String) (subs : List (Nat × Stored Nat)) (cb : Nat),
    lookup d e = some subs → ∀ p ∈ subs, p ∈ subscribers (register e (some cb) (restore d)).2 e

/-- C99 is false of the code: a restored publisher with one subscriber (callback 5) for `after_operator`; registering
callback 6 removes it. -/
theorem C99_refuted : ¬ C99_statement := by
  intro h
  have := h [("after_operator", [(0, .callback 5)])] "after_operator" _ 6 rfl (0, .callback 5) (by simp)
  revert this
  decide +kernel

/-! ## Instances -/

/-- The dictionary of a publisher with three registrations, the first of which was undone. -/
def exDict : List (String × List (Nat × Stored Nat)) :=
  [("before_operator", [(1, .callback 10)]), ("after_operator", [(2, .callback 20)])]

example : publish (restore exDict) "after_operator" = ([20], .ok ()) := by decide +kernel

example := C99_kept_partial (d := exDict) [.register "after_operator" (some 7), .unregister "before_operator" 1]
  (e := "after_operator") rfl (p := (2, .callback 20)) (by simp) (by simp) (by simp)

example := C99_replaced (d := [("after_operator", [(0, .callback 5), (3, .callback 8)])]) (e := "after_operator") rfl (some 6)

end Verif.Pub
