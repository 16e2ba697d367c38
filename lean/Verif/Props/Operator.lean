import Verif.Model.Operator
import Verif.Props.Publisher

/-! # C96: what `act` does -/

namespace Verif.Pub
variable {C β : Type} [DecidableEq C] {names : List String} {a : Arity} {cs : List (Call C)} {o : Oper C}
  {hist : List (Call C × Except Err (Option Nat))}

/-- The payload is what an operator of this arity takes: a list of that many individuals, or, for arity 1,
anything that is not a list. -/
def Fits (a : Arity) : Payload → Prop
  | .single => a = .int 1
  | .list n => a = .int n

theorem assertArity_ok {p : Payload} : o.assertArity p = .ok () ↔ Fits o.arity p := by
  cases p with
  | single => simp [Oper.assertArity, Fits]
  | list n => simp [Oper.assertArity, Fits, eq_comm]

theorem assertArity_error {p : Payload} (h : ¬ Fits o.arity p) : o.assertArity p = .error .valueError := by
  cases p with
  | single => simp only [Fits] at h; simp [Oper.assertArity, h]
  | list n => simp only [Fits] at h; simp [Oper.assertArity, Ne.symm h]

theorem perform_dict {c : Call C} {r : Registry C} :
    Oper.perform c ⟨a, .dict r.events, r.customersId⟩ =
      ((perform c r).1, ⟨a, .dict (perform c r).2.events, (perform c r).2.customersId⟩) := rfl

theorem performAll_dict (cs : List (Call C)) (r : Registry C) :
    Oper.performAll cs ⟨a, .dict r.events, r.customersId⟩ =
      ((performAll cs r).1, ⟨a, .dict (performAll cs r).2.events, (performAll cs r).2.customersId⟩) := by
  induction cs generalizing r with
  | nil => rfl
  | cons c cs ih =>
    unfold Oper.performAll performAll
    rw [perform_dict]
    dsimp only
    rw [ih]

/-- An operator with default events behaves like a publisher with the same history. -/
theorem performAll_operator (h : Oper.performAll cs (operatorInit a none names) = (hist, o)) :
    o.arity = a ∧ ∃ r, performAll cs (new names) = (hist, r) ∧ ∀ e, o.publish e = publish r e := by
  have : (operatorInit a none names : Oper C) = ⟨a, .dict (new names : Registry C).events, (new names : Registry C).customersId⟩ := rfl
  rw [this, performAll_dict] at h
  simp only [Prod.mk.injEq] at h
  obtain ⟨rfl, rfl⟩ := h
  exact ⟨rfl, _, rfl, fun e => rfl⟩

/-- C96: an operator created without `events` whose subscribers were all given callbacks: `act` calls the
current subscribers of `before_operator` in the order of their registration, applies the operator once, calls
the current subscribers of `after_operator`, and returns what the operator returned.  If the operator raises,
the exception leaves `act` and the subscribers of `after_operator` are not called.  If the payload does not fit
the arity, `act` raises `ValueError` and nothing is called or applied. -/
theorem C96_act_partial (h : Oper.performAll cs (operatorInit a none names) = (hist, o))
    (hcb : ∀ e, ∀ p ∈ registered e hist, p.2 ≠ none) (p : Payload) (apply : Except Err β) :
    (¬ Fits a p → o.act p apply = ([], .error .valueError)) ∧
    (Fits a p →
      let before := ((registered "before_operator" hist).filterMap (·.2)).map (Step.called "before_operator")
      let after := ((registered "after_operator" hist).filterMap (·.2)).map (Step.called "after_operator")
      (∀ e, apply = .error e → o.act p apply = (before ++ [.applied], .error e)) ∧
      ∀ b, apply = .ok b → o.act p apply = (before ++ [.applied] ++ after, .ok b)) := by
  obtain ⟨ha, r, hr, hpub⟩ := performAll_operator h
  constructor
  · intro hf
    rw [← ha] at hf
    simp [Oper.act, assertArity_error hf]
  · intro hf
    rw [← ha] at hf
    have h1 := C43_publish hr (e := "before_operator") (by simp) (hcb _)
    have h2 := C43_publish hr (e := "after_operator") (by simp) (hcb _)
    refine ⟨fun e he => ?_, fun b hb => ?_⟩
    · subst he
      unfold Oper.act
      rw [assertArity_ok.2 hf, hpub, h1]
    · subst hb
      unfold Oper.act
      rw [assertArity_ok.2 hf, hpub, hpub, h1, h2]

/-- C96: the arity of genetic operators. -/
theorem C96_arity {n : Nat} (p : Payload) :
    Fits (.int n) p ↔ (p = .list n ∨ p = .single ∧ n = 1) := by
  cases p <;> simp [Fits, eq_comm]

/-- C96: an operator created with a list of custom events cannot be used: registering for any event, also for
one of the list, raises `TypeError`, and so does `act`, before the operator is applied. -/
theorem C96_custom_events {n : Nat} {l : List String} (h : Oper.performAll cs (geneticOperatorInit n (some l)) = (hist, o)) :
    o = geneticOperatorInit n (some l) ∧ (∀ x ∈ hist, x.2 = .error .typeError) ∧
    ∀ (p : Payload) (apply : Except Err β), Fits (.int n) p → o.act p apply = ([], .error .typeError) := by
  have key : ∀ cs : List (Call C), ∀ hist o, Oper.performAll cs (geneticOperatorInit n (some l)) = (hist, o) →
      o = geneticOperatorInit n (some l) ∧ ∀ x ∈ hist, x.2 = .error .typeError := by
    intro cs
    induction cs with
    | nil =>
      intro hist o h
      simp only [Oper.performAll, Prod.mk.injEq] at h
      obtain ⟨rfl, rfl⟩ := h
      simp
    | cons c cs ih =>
      intro hist o h
      unfold Oper.performAll at h
      have hp : Oper.perform c (geneticOperatorInit n (some l)) = (.error .typeError, geneticOperatorInit n (some l)) := rfl
      rw [hp] at h
      simp only [Prod.mk.injEq] at h
      obtain ⟨rfl, rfl⟩ := h
      obtain ⟨h1, h2⟩ := ih _ _ rfl
      refine ⟨h1, ?_⟩
      intro x hx
      rcases List.mem_cons.1 hx with rfl | hx
      · rfl
      · exact h2 x hx
  obtain ⟨rfl, h2⟩ := key cs hist o h
  refine ⟨rfl, h2, fun p apply hf => ?_⟩
  have := assertArity_ok (o := (geneticOperatorInit n (some l) : Oper C)).2 hf
  unfold Oper.act
  rw [this]
  rfl

/-- C96: `act` of a creator raises `ValueError` whatever it is given, and calls nobody. -/
theorem C96_creator {ev : EventsArg} (h : Oper.performAll cs (creatorInit ev) = (hist, o)) (p : Payload) :
    creatorAct o p = ([], .error .valueError) := by
  obtain ⟨ha, -⟩ := performAll_operator (names := []) h
  have hf : ¬ Fits o.arity p := by
    rw [ha]; cases p <;> simp [Fits]
  simp [creatorAct, Oper.act, assertArity_error hf]

/-- C96: a creator has the events `before_operator` and `after_operator` only, whatever list it was given. -/
theorem C96_creator_events {ev : EventsArg} (h : Oper.performAll cs (creatorInit ev) = (hist, o)) {e : String}
    (he : e ≠ "before_operator" ∧ e ≠ "after_operator") (cb : Option C) :
    (Oper.perform (.register e cb) o).1 = .error .keyError ∧ o.publish e = ([], .error .keyError) := by
  have hn : e ∉ [] ++ ["before_operator", "after_operator"] := by simp [he.1, he.2]
  have h' := h
  have : (creatorInit ev : Oper C) = ⟨.other ev, .dict (new [] : Registry C).events, (new [] : Registry C).customersId⟩ := rfl
  rw [this, performAll_dict] at h'
  simp only [Prod.mk.injEq] at h'
  obtain ⟨h1, rfl⟩ := h'
  have hr : performAll cs (new [] : Registry C) = (hist, (performAll cs (new [])).2) := by rw [← h1]
  have hreg := (C43_register hr e cb).2 hn
  constructor
  · rw [perform_dict]
    dsimp only
    unfold perform
    simp only [bind, PyM.bind, hreg]
  · exact C43_unknown_event hr hn

/-- C96: a selection method cannot be used through `act`: whatever `events` it was given, and also without, registering
for any event raises `TypeError`, and `act` raises for every payload without selecting anything - `ValueError` for the
pair (source individuals, destination individuals) as a list, `TypeError` for a payload that fits the arity. -/
theorem C96_selection {ev : EventsArg} (h : Oper.performAll cs (selectionInit ev) = (hist, o)) :
    (∀ x ∈ hist, x.2 = .error .typeError) ∧
    ∀ (p : Payload) (apply : Except Err β),
      o.act p apply = ([], .error (if p = .single ∨ p = .list 1 then .typeError else .valueError)) := by
  obtain ⟨rfl, h2, h3⟩ := C96_custom_events (β := β) (n := 1) (l := ev.getD ["after_selection"]) h
  refine ⟨h2, fun p apply => ?_⟩
  by_cases hp : Fits (.int 1) p
  · rw [h3 p apply hp, if_pos]
    cases p with
    | single => exact .inl rfl
    | list n => simp only [Fits, Arity.int.injEq] at hp; exact .inr (by rw [← hp])
  · have := assertArity_error (o := (geneticOperatorInit 1 (some (ev.getD ["after_selection"])) : Oper C)) hp
    unfold Oper.act
    rw [this, if_neg]
    rintro (rfl | rfl) <;> exact hp rfl

/-- The claim C96 in full: for every genetic operator, created with or without a list of custom events, `act`
applies the operator and returns its result, for a payload that fits the arity. -/
def C96_statement : Prop :=
  ∀ (n : Nat) (ev : EventsArg) (p : Payload) (b : Nat), Fits (.int n) p →
    ((geneticOperatorInit n ev : Oper Nat).act p (.ok b)).2 = .ok b

theorem C96_refuted : ¬ C96_statement := by
  intro h
  have := h 2 (some ["after_mutation"]) (.list 2) 7 rfl
  revert this
  decide +kernel

/-! ## Instances -/

def exActCalls : List (Call Nat) :=
  [.register "before_operator" (some 10), .register "after_operator" (some 20), .register "before_operator" (some 30),
   .register "after_operator" (some 40), .unregister "after_operator" 1]

example : ∀ e, ∀ p ∈ registered e (Oper.performAll exActCalls (geneticOperatorInit 2 none)).1, p.2 ≠ none := by
  intro e p hp
  by_cases h1 : "before_operator" = e
  · subst h1; revert p; decide +kernel
  · by_cases h2 : "after_operator" = e
    · subst h2; revert p; decide +kernel
    · have : (Oper.performAll exActCalls (geneticOperatorInit 2 none)).1 =
        [(.register "before_operator" (some 10), .ok (some 0)), (.register "after_operator" (some 20), .ok (some 1)),
         (.register "before_operator" (some 30), .ok (some 2)), (.register "after_operator" (some 40), .ok (some 3)),
         (.unregister "after_operator" 1, .ok none)] := by decide +kernel
      rw [this] at hp
      simp [registered, h1, h2] at hp

example : ((Oper.performAll exActCalls (geneticOperatorInit 2 none)).2.act (.list 2) (.ok "result")) =
    ([.called "before_operator" 10, .called "before_operator" 30, .applied, .called "after_operator" 40], .ok "result") := by
  decide +kernel

example : ((Oper.performAll exActCalls (geneticOperatorInit 2 none)).2.act (.list 3) (.ok "result")) =
    ([], .error .valueError) := by decide +kernel

example : (Oper.performAll exActCalls (geneticOperatorInit 1 (some ["after_mutation"]))).1.map (·.2) =
    List.replicate 5 (.error .typeError) := by decide +kernel

example := C96_custom_events (β := Nat) (C := Nat) (cs := exActCalls) (n := 1) (l := ["after_mutation"]) rfl

example := C96_selection (β := Nat) (C := Nat) (cs := exActCalls) (ev := none) rfl

example := C96_creator (C := Nat) (cs := exActCalls) (ev := some ["after_creation"]) rfl .single

example := C96_creator_events (C := Nat) (cs := exActCalls) (ev := some ["after_creation"]) rfl
  (e := "after_creation") (by decide) (some 7)

end Verif.Pub
