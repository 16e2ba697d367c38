import Verif.Spec.History

/-! # What operations keep, whether or not they raise -/

namespace Verif.PyM
variable {σ τ α β : Type}

theorem bind_of_ok {m : PyM σ α} {f : α → PyM σ β} {s s' : σ} {a : α} (h : m s = (.ok a, s')) :
    (m >>= f) s = f a s' := by
  change (match m s with | (.ok a, s') => f a s' | (.error e, s') => (.error e, s')) = _
  rw [h]

theorem bind_of_error {m : PyM σ α} {f : α → PyM σ β} {s s' : σ} {e : Err} (h : m s = (.error e, s')) :
    (m >>= f) s = (.error e, s') := by
  change (match m s with | (.ok a, s') => f a s' | (.error e, s') => (.error e, s')) = _
  rw [h]

/-- The computation leaves `φ` of the state unchanged, also if it raises. -/
def Keeps (φ : σ → τ) (m : PyM σ α) : Prop := ∀ s, φ (m s).2 = φ s

namespace Keeps
variable {φ : σ → τ}

theorem pure (a : α) : Keeps φ (Pure.pure a : PyM σ α) := fun _ => rfl

theorem raise (e : Err) : Keeps φ (PyM.raise e : PyM σ α) := fun _ => rfl

theorem bind {m : PyM σ α} {f : α → PyM σ β} (hm : Keeps φ m) (hf : ∀ a, Keeps φ (f a)) :
    Keeps φ (m >>= f) := by
  intro s
  have h := hm s
  rcases hms : m s with ⟨r, s'⟩
  rw [hms] at h
  cases r with
  | error e =>
    rw [bind_of_error hms]; exact h
  | ok a =>
    rw [bind_of_ok hms, hf a s']; exact h

theorem mapL {f : α → PyM σ β} (hf : ∀ a, Keeps φ (f a)) (xs : List α) : Keeps φ (PyM.mapL f xs) := by
  induction xs with
  | nil => exact Keeps.pure _
  | cons x xs ih => exact (hf x).bind fun _ => ih.bind fun _ => Keeps.pure _

theorem forL {f : α → PyM σ Unit} (hf : ∀ a, Keeps φ (f a)) (xs : List α) : Keeps φ (PyM.forL f xs) := by
  induction xs with
  | nil => exact Keeps.pure _
  | cons x xs ih => exact (hf x).bind fun _ => ih

theorem ite {c : Prop} [Decidable c] {m₁ m₂ : PyM σ α} (h1 : Keeps φ m₁) (h2 : Keeps φ m₂) :
    Keeps φ (if c then m₁ else m₂) := by split <;> assumption

end Keeps
end Verif.PyM

namespace Verif.Evo
open PyM
variable {G : Type} {α : Type}

/-- Ids and fitness objects of all individuals, and the id counter. -/
def fitColumn (s : World G) : List (Nat × Fit) × Nat := (s.heap.map fun i => (i.id, i.fit), s.nextId)

theorem keeps_rand (m : Rand α) : Keeps (fitColumn (G := G)) (rand m) := fun _ => rfl

theorem keeps_deref (r : Nat) : Keeps (fitColumn (G := G)) (deref r) := by
  intro s
  unfold deref
  rw [bind_of_ok (show PyM.get s = (.ok s, s) from rfl)]
  cases s.heap[r]? <;> rfl

theorem map_modify_eq {β : Type} {φ : Ind G → β} {f : Ind G → Ind G} (hf : ∀ i, φ (f i) = φ i)
    (h : List (Ind G)) (r : Nat) : (h.modify r f).map φ = h.map φ := by
  apply List.ext_getElem?
  intro n
  simp only [List.getElem?_map, List.getElem?_modify]
  cases h[n]? with
  | none => rfl
  | some i => by_cases hn : r = n <;> simp [hn, hf]

theorem keeps_update {f : Ind G → Ind G} (hf : ∀ i, (f i).id = i.id ∧ (f i).fit = i.fit) (r : Nat) :
    Keeps fitColumn (update r f) := by
  intro s
  change (_, _) = (_, _)
  refine Prod.ext ?_ rfl
  exact map_modify_eq (φ := fun i => (i.id, i.fit)) (fun i => by simp [hf i]) s.heap r

theorem keeps_inPlace (name : String) (p : ℚ) (arity : Nat) (f : List G → Rand (Option (List G)))
    (refs : List Nat) : Keeps fitColumn ((Op.inPlace name p arity f).apply refs) := by
  refine Keeps.bind (Keeps.mapL (fun r => (keeps_deref r).bind fun i => Keeps.pure _) refs) fun gs => ?_
  refine (keeps_rand _).bind fun r => ?_
  cases r with
  | none => exact Keeps.pure _
  | some gs' =>
    refine Keeps.bind (Keeps.forL (fun p => keeps_update ?_ _) _) fun _ => Keeps.pure _
    exact fun i => ⟨rfl, rfl⟩

theorem resetAll_heap (refs : List Nat) (s : World G) :
    ∃ s', forL setNotEvaluated refs s = (.ok (), s') ∧ s'.nextId = s.nextId ∧ s'.tape = s.tape ∧
      s'.heap.length = s.heap.length ∧
      ∀ r, s'.heap[r]? = (s.heap[r]?).map fun i =>
        if r ∈ refs then { i with fit := i.fit.setNotEvaluated } else i := by
  induction refs generalizing s with
  | nil => exact ⟨s, rfl, rfl, rfl, rfl, fun r => by simp⟩
  | cons a refs ih =>
    obtain ⟨s', h1, h2, h3, h4, h5⟩ := ih
      { s with heap := s.heap.modify a (fun i => { i with fit := i.fit.setNotEvaluated }) }
    refine ⟨s', h1, h2, h3, by simpa using h4, fun r => ?_⟩
    rw [h5 r, List.getElem?_modify]
    cases s.heap[r]? with
    | none => rfl
    | some i =>
      by_cases hr : a = r
      · subst hr; simp [Fit.setNotEvaluated]
      · have : ¬ r = a := fun h => hr h.symm
        simp [hr, this]

/-- The individuals at `refs` have no fitness. -/
def Unset (refs : List Nat) (s : World G) : Prop :=
  ∀ r ∈ refs, ∀ i, s.heap[r]? = some i → i.fit.setNotEvaluated = i.fit

/-- The fitness column after an operator has fired, whatever it did then. -/
theorem applyOperator_column {s s' : World G} {refs : List Nat} {o : Op G} {u : ℚ}
    (ho : ∀ s₁ : World G, Unset refs s₁ → fitColumn (o.apply refs s₁).2 = fitColumn s₁)
    {t : Tape} {res : Except Err (List Nat)} (hu : Rand.random s.tape = (.ok u, t)) (hp : u ≤ o.probability)
    (h : applyOperator o refs s = (res, s')) :
    s'.nextId = s.nextId ∧ s'.heap.length = s.heap.length ∧
      ∀ r, (s'.heap[r]?).map (fun i => (i.id, i.fit)) = (s.heap[r]?).map fun i =>
        (i.id, if r ∈ refs then i.fit.setNotEvaluated else i.fit) := by
  obtain ⟨s₁, e1, n1, -, l1, h1⟩ := resetAll_heap refs { s with tape := t }
  have hkeep : fitColumn s' = fitColumn s₁ := by
    have hrun : applyOperator o refs s =
        ((do
          match ← o.apply refs with
          | none => raise .typeError
          | some res => do
            let ids ← mapL (fun r => do let i ← deref r; pure i.id) refs
            forL (fun r => update r (record o.name ids)) res
            pure res) : WM G (List Nat)) s₁ := by
      unfold applyOperator
      have hr : (rand Rand.random : WM G ℚ) s = (.ok u, { s with tape := t }) := by
        simp [rand, zoom, hu]
      rw [bind_of_ok hr]
      have hp' : u ≤ o.probability := hp
      rw [if_pos hp', bind_of_ok e1]
      rfl
    rw [hrun] at h
    have hun : Unset refs s₁ := by
      intro r hr i hi
      rw [h1 r] at hi
      obtain ⟨j, -, rfl⟩ := Option.map_eq_some_iff.1 hi
      simp [hr, Fit.setNotEvaluated]
    have ha := ho s₁ hun
    rcases hrun₂ : o.apply refs s₁ with ⟨r₂, s₂⟩
    simp only [hrun₂] at ha
    cases r₂ with
    | error e =>
      rw [bind_of_error hrun₂] at h
      cases h
      exact ha
    | ok r =>
      rw [bind_of_ok hrun₂] at h
      cases r with
      | none =>
        cases h
        exact ha
      | some l =>
        have hk : Keeps fitColumn ((do
            let ids ← mapL (fun r => do let i ← deref r; pure i.id) refs
            forL (fun r => update r (record o.name ids)) l
            pure l) : WM G (List Nat)) := by
          refine Keeps.bind (Keeps.mapL (fun r => (keeps_deref r).bind fun i => Keeps.pure _) refs) fun ids => ?_
          exact Keeps.bind (Keeps.forL (fun r => keeps_update (f := record o.name ids) (fun i => ⟨rfl, rfl⟩) r) l) fun _ => Keeps.pure _
        have := hk s₂
        simp only at h
        rw [h] at this
        exact this.trans ha
  have hheap : s'.heap.map (fun i => (i.id, i.fit)) = s₁.heap.map (fun i => (i.id, i.fit)) :=
    congrArg Prod.fst hkeep
  refine ⟨?_, ?_, fun r => ?_⟩
  · have : s'.nextId = s₁.nextId := congrArg Prod.snd hkeep
    rw [this, n1]
  · have := congrArg List.length hheap
    simp only [List.length_map] at this
    rw [this, l1]
  · rw [← List.getElem?_map, hheap, List.getElem?_map, h1 r, Option.map_map]
    congr 1
    funext i
    by_cases hr : r ∈ refs <;> simp [hr]

theorem applyOperator_skipped {o : Op G} {s s' : World G} {refs : List Nat} {u : ℚ}
    {t : Tape} {res : Except Err (List Nat)}
    (hu : Rand.random s.tape = (.ok u, t)) (hp : o.probability < u)
    (h : applyOperator o refs s = (res, s')) : res = .ok refs ∧ s' = { s with tape := t } := by
  have hr : (rand Rand.random : WM G ℚ) s = (.ok u, { s with tape := t }) := by
    simp [rand, zoom, hu]
  have : applyOperator o refs s = (.ok refs, { s with tape := t }) := by
    unfold applyOperator
    rw [bind_of_ok hr, if_neg (not_le.2 hp)]
    rfl
  rw [this] at h
  simp only [Prod.mk.injEq] at h
  exact ⟨h.1.symm, h.2.symm⟩

theorem inPlace_column (name : String) (p : ℚ) (arity : Nat) (f : List G → Rand (Option (List G))) (refs : List Nat)
    (s : World G) : fitColumn ((Op.inPlace name p arity f).apply refs s).2 = fitColumn s :=
  keeps_inPlace name p arity f refs s

theorem keeps_putGenomes (refs : List Nat) (gs : List G) : Keeps fitColumn (putGenomes refs gs) :=
  Keeps.forL (fun (p : Nat × G) => keeps_update (f := fun i => { i with genome := p.2 }) (fun _ => ⟨rfl, rfl⟩) _) _

theorem Unset.of_column {refs : List Nat} {s s' : World G} (h : Unset refs s) (e : fitColumn s' = fitColumn s) :
    Unset refs s' := by
  intro r hr i hi
  have hheap : s'.heap.map (fun i => (i.id, i.fit)) = s.heap.map (fun i => (i.id, i.fit)) := congrArg Prod.fst e
  have := congrArg (fun l => l[r]?) hheap
  simp only [List.getElem?_map, hi, Option.map_some] at this
  cases hx : s.heap[r]? with
  | none => simp [hx] at this
  | some x =>
    simp only [hx, Option.map_some, Option.some.injEq, Prod.mk.injEq] at this
    rw [this.2]
    exact h r hr x hx

/-- Handing over to another operator does nothing more to the fitness objects. -/
theorem withFallback_column (name name' : String) (p p' : ℚ) (arity arity' : Nat) (f : List G → Rand (Bool × List G))
    (f' : List G → Rand (Option (List G))) (refs : List Nat) (s : World G) (h : Unset refs s) :
    fitColumn ((Op.withFallback name p arity f (Op.inPlace name' p' arity' f')).apply refs s).2 = fitColumn s := by
  have key : ∀ {α β : Type} (m : WM G α) (k : α → WM G β), Keeps fitColumn m → ∀ s, Unset refs s →
      (∀ a s, Unset refs s → fitColumn (k a s).2 = fitColumn s) → fitColumn ((m >>= k) s).2 = fitColumn s := by
    intro α β m k hm s h hk
    have h1 := hm s
    cases hr : m s with
    | mk r s₁ =>
      rw [hr] at h1
      cases r with
      | error e => rw [bind_of_error hr]; exact h1
      | ok a => rw [bind_of_ok hr]; exact (hk a s₁ (h.of_column h1)).trans h1
  unfold Op.withFallback
  refine key _ _ (Keeps.mapL (fun r => (keeps_deref r).bind fun i => Keeps.pure _) refs) s h fun gs s h => ?_
  refine key _ _ (keeps_rand _) s h fun a s h => key _ _ (keeps_putGenomes _ _) s h fun _ s₁ hun => ?_
  cases a.1 with
  | true => rfl
  | false =>
    simp only [Bool.false_eq_true, if_false]
    obtain ⟨u, t, hu, -⟩ := Rand.random_ensures s₁.tape
    cases hrun : applyOperator (Op.inPlace name' p' arity' f') refs s₁ with
    | mk res s₂ =>
      have hcol : fitColumn s₂ = fitColumn s₁ := by
        by_cases hp : u ≤ p'
        · obtain ⟨h1, -, h3⟩ := applyOperator_column (fun s _ => inPlace_column name' p' arity' f' refs s) hu hp hrun
          refine Prod.ext ?_ h1
          apply List.ext_getElem?
          intro r
          simp only [fitColumn, List.getElem?_map]
          rw [h3 r]
          cases hx : s₁.heap[r]? with
          | none => rfl
          | some x =>
            by_cases hr : r ∈ refs
            · simp [hr, hun r hr x hx]
            · simp [hr]
        · obtain ⟨-, rfl⟩ := applyOperator_skipped (o := Op.inPlace name' p' arity' f') hu (not_le.1 hp) hrun
          rfl
      cases res with
      | error e => rw [bind_of_error hrun]; exact hcol
      | ok l => rw [bind_of_ok hrun]; exact hcol

/-- The fitness column after an operator of the library has fired, whatever it did then. -/
theorem applyOperator_fired {s s' : World G} {refs : List Nat} {o : Op G} (ho : o.Plain) {u : ℚ}
    {t : Tape} {res : Except Err (List Nat)} (hu : Rand.random s.tape = (.ok u, t)) (hp : u ≤ o.probability)
    (h : applyOperator o refs s = (res, s')) :
    s'.nextId = s.nextId ∧ s'.heap.length = s.heap.length ∧
      ∀ r, (s'.heap[r]?).map (fun i => (i.id, i.fit)) = (s.heap[r]?).map fun i =>
        (i.id, if r ∈ refs then i.fit.setNotEvaluated else i.fit) := by
  refine applyOperator_column ?_ hu hp h
  cases ho with
  | inPlace name p arity f => exact fun s _ => inPlace_column name p arity f refs s
  | withFallback name name' p p' arity arity' f f' => exact fun s hs => withFallback_column _ _ _ _ _ _ _ _ _ s hs

end Verif.Evo
