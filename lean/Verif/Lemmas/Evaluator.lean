import Verif.Props.Selection

/-! # Lemmas about population evaluation -/

namespace Verif.PyM
variable {σ α β : Type}

theorem mapL_const {f : α → PyM σ β} {g : α → β} {s : σ} (xs : List α)
    (h : ∀ x ∈ xs, f x s = (.ok (g x), s)) : mapL f xs s = (.ok (xs.map g), s) := by
  induction xs with
  | nil => rfl
  | cons x xs ih =>
    unfold mapL
    rw [bind_of_ok (h x (by simp)), bind_of_ok (ih fun y hy => h y (by simp [hy]))]
    rfl

/-- Computations that leave the state alone: the first exception, or all results. -/
theorem mapL_pure {f : α → PyM σ β} {g : α → Except Err β} {s : σ} (xs : List α)
    (h : ∀ x ∈ xs, f x s = (g x, s)) :
    (∃ x ∈ xs, ∃ e, g x = .error e ∧ mapL f xs s = (.error e, s)) ∨
    (∀ x ∈ xs, ∃ y, g x = .ok y) := by
  induction xs with
  | nil => exact .inr (by simp)
  | cons x xs ih =>
    cases hg : g x with
    | error e =>
      left
      refine ⟨x, by simp, e, hg, ?_⟩
      unfold mapL
      exact bind_of_error (by rw [h x (by simp), hg])
    | ok y =>
      rcases ih fun z hz => h z (by simp [hz]) with ⟨z, hz, e, he, hm⟩ | hok
      · left
        refine ⟨z, by simp [hz], e, he, ?_⟩
        unfold mapL
        rw [bind_of_ok (show f x s = (.ok y, s) by rw [h x (by simp), hg]), bind_of_error hm]
      · right
        intro z hz
        simp only [List.mem_cons] at hz
        rcases hz with rfl | hz
        · exact ⟨y, hg⟩
        · exact hok z hz

theorem forL_map {γ : Type} (f : β → PyM σ Unit) (g : γ → β) (xs : List γ) :
    forL f (xs.map g) = forL (fun x => f (g x)) xs := by
  induction xs with
  | nil => rfl
  | cons x xs ih => simp only [List.map_cons, forL, ih]

end Verif.PyM

namespace Verif.Evo
open PyM
variable {G : Type} {size : G → Nat} {d : Bool} {s s' : World G}

theorem zip_map_self {β : Type} (val : Nat → β) (l : List Nat) :
    l.zip (l.map val) = l.map fun r => (r, val r) := by
  induction l with
  | nil => rfl
  | cons r rs ih => simp only [List.map_cons, List.zip_cons_cons, ih]

theorem bestLoop_eq (b : Nat) (rest : List Nat) : bestLoop size b rest = winnerLoop (G := G) size b rest := by
  induction rest generalizing b with
  | nil => rfl
  | cons p ps ih =>
    unfold bestLoop winnerLoop
    congr 1
    funext v
    exact ih _

theorem find_result {α : Type} (g : Nat → α) (i : Nat) (l : List Nat) (h : i ∈ l) :
    (l.map fun j => (j, g j)).find? (fun p => p.1 == i) = some (i, g i) := by
  induction l with
  | nil => simp at h
  | cons j l ih =>
    by_cases hj : j = i
    · subst hj; simp
    · simp only [List.map_cons]
      rw [List.find?_cons_of_neg (by simpa using hj)]
      refine ih ?_
      simp only [List.mem_cons] at h
      exact h.resolve_left fun h => hj h.symm

/-- The results are delivered in the order of the individuals, whatever the order of the workers. -/
theorem executorMap_wp {σ α : Type} {s : σ} {order refs : List Nat} (hp : order.Perm (List.range refs.length))
    {task : Nat → PyM σ α} {val : Nat → α} {I : σ → Prop} (hI : I s)
    (ht : ∀ r ∈ refs, ∀ s, I s → wp (task r) (fun v s' => v = val r ∧ I s') s) :
    wp (executorMap order task refs) (fun vs s' => vs = refs.map val ∧ I s') s := by
  unfold executorMap
  rw [wp_bind]
  have h1 : wp (mapL (runTask task refs) order) (fun rs s' =>
      rs = order.map (fun i => (i, val (refs.getD i 0))) ∧ I s') s := by
    refine wp_mapL (I := fun is rs s' => rs = is.map (fun i => (i, val (refs.getD i 0))) ∧ I s')
      ⟨rfl, hI⟩ ?_
    rintro pre i post rs s₁ horder ⟨rfl, hI₁⟩
    have hlt : i < refs.length := by simpa using hp.subset (a := i) (by simp [horder])
    have hg : refs[i]? = some refs[i] := List.getElem?_eq_getElem hlt
    have hgd : refs.getD i 0 = refs[i] := by simp [List.getD, hg]
    unfold runTask
    rw [hg]
    dsimp only
    rw [wp_bind]
    refine (ht _ (List.getElem_mem hlt) s₁ hI₁).mono ?_
    rintro v s₂ ⟨rfl, hI₂⟩
    rw [wp_pure]
    exact ⟨by rw [List.map_append, List.map_singleton, hgd], hI₂⟩
  refine h1.mono ?_
  rintro rs s₁ ⟨rfl, hI₁⟩
  have h2 : ∀ i ∈ List.range refs.length,
      lookupResult (order.map fun j => (j, val (refs.getD j 0))) i s₁ = (.ok (val (refs.getD i 0)), s₁) := by
    intro i hi
    unfold lookupResult
    rw [find_result _ _ _ (hp.symm.subset hi)]
    rfl
  refine ⟨_, _, mapL_const _ h2, ?_, hI₁⟩
  apply List.ext_getElem?
  intro n
  simp only [List.getElem?_map]
  by_cases hn : n < refs.length <;> simp [hn]

/-- If no task changes the state, the results are those of the individuals, in their order, whatever the
order of the workers. -/
theorem executorMap_const {α : Type} {order refs : List Nat} (hp : order.Perm (List.range refs.length))
    {task : Nat → WM G α} {val : Nat → α} (ht : ∀ r ∈ refs, task r s = (.ok (val r), s)) :
    executorMap order task refs s = (.ok (refs.map val), s) := by
  obtain ⟨vs, s', e, rfl, rfl⟩ := executorMap_wp (task := task) (val := val) (I := fun s₁ => s₁ = s) (s := s) hp rfl (by
    rintro r hr _ rfl
    exact ⟨_, _, ht r hr, rfl, rfl⟩)
  exact e

/-- Setting the fitness of several individuals, one after the other. -/
theorem setAll_heap (val : Nat → FVal) (refs : List Nat) (s : World G) :
    ∃ s', forL (fun r => setFitness r (val r)) refs s = (.ok (), s') ∧ s'.nextId = s.nextId ∧
      s'.tape = s.tape ∧ s'.heap.length = s.heap.length ∧
      ∀ r, s'.heap[r]? = (s.heap[r]?).map fun i =>
        if r ∈ refs then { i with fit := i.fit.setFitness (val r) } else i := by
  induction refs generalizing s with
  | nil => exact ⟨s, rfl, rfl, rfl, rfl, fun r => by simp⟩
  | cons a refs ih =>
    obtain ⟨s', e, h1, h2, h3, h4⟩ :=
      ih { s with heap := s.heap.modify a (fun i => { i with fit := i.fit.setFitness (val a) }) }
    refine ⟨s', ?_, h1, h2, by simpa using h3, fun r => ?_⟩
    · unfold forL
      rw [bind_of_ok (show setFitness a (val a) s = (.ok (), _) from rfl)]
      exact e
    · rw [h4]
      simp only [List.getElem?_modify]
      cases hr : s.heap[r]? with
      | none => rfl
      | some i =>
        by_cases hra : a = r
        · subst hra
          by_cases hm : a ∈ refs <;> simp [hm, Fit.setFitness]
        · have hra' : ¬ r = a := fun h => hra h.symm
          simp [hra, hra']

/-- The task of one individual. -/
theorem runEval_eq {c : SubCfg G} {r : Nat} {i : Ind G} {v : ℚ} (hi : s.heap[r]? = some i)
    (hd : ∀ t, c.evaluate i.genome t = (.ok v, t)) : runEval c r s = (.ok v, s) := by
  unfold runEval
  have : deref r s = (.ok i, s) := by
    unfold deref
    rw [bind_of_ok (show PyM.get s = (.ok s, s) from rfl), hi]
    rfl
  rw [bind_of_ok this]
  unfold rand zoom
  rw [hd]

end Verif.Evo
