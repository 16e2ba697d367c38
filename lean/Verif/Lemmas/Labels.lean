import Verif.Py.Rel
import Verif.Model.FPSelection
import Verif.Lemmas.Represent
import Verif.Lemmas.History
import Verif.Lemmas.Breeder

/-! # Runs do not look at the labels of individuals

`Twin m' m`: started in worlds that are the same up to the labels of individuals (ids, `cloned_from`, `parents`) and the number
of ids given out, the two computations do the same up to labels. -/

namespace Verif.Evo
open PyM
variable {G κ : Type} {size : G → Nat}

/-- The individual without its labels. -/
def Ind.bare (i : Ind G) : Ind G := { i with id := 0, clonedFrom := 0, parents := [] }

/-- The two worlds are the same up to labels. -/
structure Unlabelled (w' w : World G) : Prop where
  heap : w'.heap.map Ind.bare = w.heap.map Ind.bare
  tape : w'.tape = w.tape

theorem Unlabelled.get {w' w : World G} (h : Unlabelled w' w) (r : Nat) :
    (w'.heap[r]?).map Ind.bare = (w.heap[r]?).map Ind.bare := by
  have := congrArg (fun l => l[r]?) h.heap
  simpa using this

theorem Unlabelled.length {w' w : World G} (h : Unlabelled w' w) : w'.heap.length = w.heap.length := by
  have := congrArg List.length h.heap
  simpa using this

/-- Both do the same up to labels.  After an exception nothing is said about the worlds. -/
abbrev Twin {α β : Type} (R : α → β → Prop) (m' : WM G α) (m : WM G β) : Prop := Rel Unlabelled (fun _ _ => True) R m' m

theorem twin_raise {α β : Type} {R : α → β → Prop} (e : Err) : Twin (G := G) R (raise e) (raise e) := Rel.raise (fun _ _ _ => trivial) e

theorem deref_twin (r : Nat) : Twin (fun i j : Ind G => i.bare = j.bare) (deref r) (deref r) := by
  unfold deref
  refine Rel.get_bind fun w' w hw => ?_
  have := hw.get r
  revert this
  cases w'.heap[r]? with
  | none =>
    cases w.heap[r]? with
    | none => intro _; exact twin_raise _
    | some j => intro h; simp at h
  | some i =>
    cases w.heap[r]? with
    | none => intro h; simp at h
    | some j => intro h; exact Rel.pure (by simpa using h)

theorem bare_genome {i j : Ind G} (h : i.bare = j.bare) : i.genome = j.genome :=
  (congrArg Ind.genome h : i.bare.genome = j.bare.genome)
theorem bare_fit {i j : Ind G} (h : i.bare = j.bare) : i.fit = j.fit :=
  (congrArg Ind.fit h : i.bare.fit = j.bare.fit)

theorem rand_twin {α : Type} (m : Rand α) : Twin (G := G) Eq (rand m) (rand m) := by
  intro w' w hw
  have e : ∀ v : World G, rand m v = ((m v.tape).1, { v with tape := (m v.tape).2 }) := fun _ => rfl
  rw [e, e, hw.tape]
  rcases m w.tape with ⟨r, t⟩
  cases r with
  | error e => exact ⟨rfl, trivial⟩
  | ok a => exact ⟨rfl, hw.heap, rfl⟩

theorem reading_twin {α : Type} {g : List (Ind G) → Except Err α}
    (h : ∀ h' h : List (Ind G), h'.map Ind.bare = h.map Ind.bare → g h' = g h) : Twin Eq (reading g) (reading g) := by
  unfold reading
  exact Rel.get_bind fun w' w hw => Rel.ofExcept (fun _ _ _ => trivial) (h _ _ hw.heap)

theorem update_twin {g' g : Ind G → Ind G} (r : Nat) (h : ∀ i j : Ind G, i.bare = j.bare → (g' i).bare = (g j).bare) :
    Twin (fun _ _ => True) (update r g') (update r g) := by
  unfold update
  refine Rel.modify fun w' w hw => ⟨?_, hw.tape⟩
  apply List.ext_getElem?
  intro n
  have := hw.get n
  simp only [List.getElem?_map, List.getElem?_modify]
  revert this
  cases w'.heap[n]? with
  | none =>
    cases w.heap[n]? with
    | none => intro _; rfl
    | some j => intro h; simp at h
  | some i =>
    cases w.heap[n]? with
    | none => intro h; simp at h
    | some j =>
      intro hij
      have hij' : i.bare = j.bare := by simpa using hij
      by_cases hr : r = n
      · simp [hr, h i j hij']
      · simp [hr, hij']

theorem takeId_twin : Twin (G := G) (fun _ _ => True) takeId takeId := fun _ _ hw => ⟨trivial, hw.heap, hw.tape⟩

/-- An id more or less makes no difference. -/
theorem takeId_any {α β : Type} {R : α → β → Prop} {m' : WM G α} {m : WM G β} (h : Twin R m' m) :
    Twin R (do let _ ← takeId; m') m := fun w' w hw => h { w' with nextId := w'.nextId + 1 } w ⟨hw.heap, hw.tape⟩

theorem alloc_twin {i j : Ind G} (h : i.bare = j.bare) : Twin Eq (alloc i) (alloc j) := by
  intro w' w hw
  refine ⟨hw.length, ?_, hw.tape⟩
  show (w'.heap ++ [i]).map Ind.bare = (w.heap ++ [j]).map Ind.bare
  simp [hw.heap, h]

theorem clone_twin (r : Nat) : Twin (G := G) Eq (clone r) (clone r) := by
  unfold clone
  refine Rel.bind (deref_twin r) fun i j h => Rel.bind takeId_twin fun _ _ _ => alloc_twin ?_
  obtain ⟨a1, a2, a3, a4, a5, a6, a7, a8, a9⟩ := i
  obtain ⟨b1, b2, b3, b4, b5, b6, b7, b8, b9⟩ := j
  simp only [Ind.bare, Ind.mk.injEq] at h ⊢
  obtain ⟨-, h2, h3, h4, -, h6, h7, h8, -⟩ := h
  subst h2 h3 h4 h6 h7 h8
  simp

theorem bare_selectedBy (name : String) {i j : Ind G} (h : i.bare = j.bare) :
    ({ i with selectedBy := i.selectedBy ++ [name] } : Ind G).bare = ({ j with selectedBy := j.selectedBy ++ [name] } : Ind G).bare := by
  obtain ⟨a1, a2, a3, a4, a5, a6, a7, a8, a9⟩ := i
  obtain ⟨b1, b2, b3, b4, b5, b6, b7, b8, b9⟩ := j
  simp only [Ind.bare, Ind.mk.injEq] at h ⊢
  simp [h]

theorem bare_setFit (g : Fit → Fit) {i j : Ind G} (h : i.bare = j.bare) :
    ({ i with fit := g i.fit } : Ind G).bare = ({ j with fit := g j.fit } : Ind G).bare := by
  obtain ⟨a1, a2, a3, a4, a5, a6, a7, a8, a9⟩ := i
  obtain ⟨b1, b2, b3, b4, b5, b6, b7, b8, b9⟩ := j
  simp only [Ind.bare, Ind.mk.injEq] at h ⊢
  simp [h]

theorem bare_setGenome (x : G) {i j : Ind G} (h : i.bare = j.bare) :
    ({ i with genome := x } : Ind G).bare = ({ j with genome := x } : Ind G).bare := by
  obtain ⟨a1, a2, a3, a4, a5, a6, a7, a8, a9⟩ := i
  obtain ⟨b1, b2, b3, b4, b5, b6, b7, b8, b9⟩ := j
  simp only [Ind.bare, Ind.mk.injEq] at h ⊢
  simp [h]

theorem bare_setGen (x : Nat) {i j : Ind G} (h : i.bare = j.bare) :
    ({ i with gen := x } : Ind G).bare = ({ j with gen := x } : Ind G).bare := by
  obtain ⟨a1, a2, a3, a4, a5, a6, a7, a8, a9⟩ := i
  obtain ⟨b1, b2, b3, b4, b5, b6, b7, b8, b9⟩ := j
  simp only [Ind.bare, Ind.mk.injEq] at h ⊢
  simp [h]

theorem bare_record (name : String) (ids' ids : List Nat) {i j : Ind G} (h : i.bare = j.bare) :
    (record name ids' i).bare = (record name ids j).bare := by
  obtain ⟨a1, a2, a3, a4, a5, a6, a7, a8, a9⟩ := i
  obtain ⟨b1, b2, b3, b4, b5, b6, b7, b8, b9⟩ := j
  simp only [Ind.bare, Ind.mk.injEq, record] at h ⊢
  simp [h]

theorem cloneSelected_twin (name : String) (r : Nat) : Twin (G := G) Eq (cloneSelected name r) (cloneSelected name r) := by
  unfold cloneSelected
  refine Rel.bind (clone_twin r) fun c' c hc => ?_
  subst hc
  exact Rel.bind (update_twin c' fun i j h => bare_selectedBy name h) fun _ _ _ => Rel.pure rfl

theorem setNotEvaluated_twin (r : Nat) : Twin (G := G) (fun _ _ => True) (setNotEvaluated r) (setNotEvaluated r) := by
  unfold setNotEvaluated
  exact update_twin r fun i j h => bare_setFit _ h

theorem setFitness_twin (r : Nat) (v : FVal) : Twin (G := G) (fun _ _ => True) (setFitness r v) (setFitness r v) := by
  unfold setFitness
  exact update_twin r fun i j h => bare_setFit (·.setFitness v) h

/-! ## Fitness -/

theorem bare_get {h' h : List (Ind G)} (e : h'.map Ind.bare = h.map Ind.bare) (r : Nat) :
    (h'[r]? = none ∧ h[r]? = none) ∨ ∃ i j, h'[r]? = some i ∧ h[r]? = some j ∧ i.bare = j.bare := by
  have := congrArg (fun l => l[r]?) e
  simp only [List.getElem?_map] at this
  revert this
  cases h'[r]? with
  | none =>
    cases h[r]? with
    | none => intro _; exact Or.inl ⟨rfl, rfl⟩
    | some j => intro h; simp at h
  | some i =>
    cases h[r]? with
    | none => intro h; simp at h
    | some j => intro h; exact Or.inr ⟨i, j, rfl, rfl, by simpa using h⟩

theorem betterOf_bare {h' h : List (Ind G)} (e : h'.map Ind.bare = h.map Ind.bare) (r : Nat) (o : Option Nat) :
    betterOf size h' r o = betterOf size h r o := by
  unfold betterOf
  cases o with
  | none => rfl
  | some o =>
    rcases bare_get e r with ⟨h1, h2⟩ | ⟨i, j, h1, h2, h3⟩
    · simp only [h1, h2]
    · rcases bare_get e o with ⟨g1, g2⟩ | ⟨i', j', g1, g2, g3⟩
      · simp only [h1, h2, g1, g2]
      · simp only [h1, h2, g1, g2, bare_genome h3, bare_fit h3, bare_genome g3, bare_fit g3]

theorem augOf_bare {h' h : List (Ind G)} (e : h'.map Ind.bare = h.map Ind.bare) (r : Nat) : augOf size h' r = augOf size h r := by
  unfold augOf
  rcases bare_get e r with ⟨h1, h2⟩ | ⟨i, j, h1, h2, h3⟩
  · simp only [h1, h2]
  · simp only [h1, h2, bare_genome h3, bare_fit h3]

theorem keyed_bare {h' h : List (Ind G)} (e : h'.map Ind.bare = h.map Ind.bare) (rs : List Nat) : keyed size h' rs = keyed size h rs := by
  induction rs with
  | nil => rfl
  | cons r rs ih => simp only [keyed, augOf_bare e, ih]

theorem sortedByFitness_bare {h' h : List (Ind G)} (e : h'.map Ind.bare = h.map Ind.bare) (rev : Bool) (rs : List Nat) :
    sortedByFitness size h' rev rs = sortedByFitness size h rev rs := by
  unfold sortedByFitness
  rw [keyed_bare e]

theorem worstIndividual_bare {h' h : List (Ind G)} (e : h'.map Ind.bare = h.map Ind.bare) (hib : Bool) (rs : List Nat) :
    worstIndividual size h' hib rs = worstIndividual size h hib rs := by
  unfold worstIndividual
  rw [sortedByFitness_bare e]

theorem scoresOf_bare {h' h : List (Ind G)} (e : h'.map Ind.bare = h.map Ind.bare) (rs : List Nat) :
    scoresOf size h' rs = scoresOf size h rs := by
  unfold scoresOf
  rw [keyed_bare e]

theorem betterOf_twin (r : Nat) (o : Option Nat) : Twin Eq (reading fun h => betterOf size h r o) (reading fun h => betterOf size h r o) :=
  reading_twin fun _ _ e => betterOf_bare e r o

/-! ## Selection -/

/-- Clones are put at the end of the heap. -/
theorem cloneSelected_at (name : String) (r : Nat) (w : World G) :
    wlp (cloneSelected name r) (fun c w' => c = w.heap.length ∧ w'.heap.length = w.heap.length + 1) w := by
  intro c w' h
  cases hi : w.heap[r]? with
  | none =>
    have : deref r w = (.error .attributeError, w) := by
      unfold deref
      simp only [PyM.bind_run, PyM.get, hi]
      rfl
    simp [cloneSelected, clone, PyM.bind_run, this] at h
  | some i =>
    have : deref r w = (.ok i, w) := by
      unfold deref
      simp only [PyM.bind_run, PyM.get, hi]
      rfl
    have hc : clone r w = (.ok w.heap.length, { w with
        heap := w.heap ++ [{ i with
          fit := i.fit.getstate
          clonedFrom := i.id
          parents := if i.updateParents then [] else i.parents
          id := w.nextId }]
        nextId := w.nextId + 1 }) := by
      unfold clone
      rw [bind_of_ok this]
      rfl
    unfold cloneSelected at h
    rw [bind_of_ok hc] at h
    refine ⟨(Except.ok.inj (congrArg Prod.fst h)).symm, ?_⟩
    have e : _ = w' := congrArg Prod.snd h
    rw [← e]
    show (List.modify _ _ _).length = _
    simp

/-- Whatever a list of clonings returns is new and distinct. -/
theorem clonings_distinct {ι : Type} {f : ι → WM G Nat}
    (hf : ∀ x w, wlp (f x) (fun c w' => c = w.heap.length ∧ w'.heap.length = w.heap.length + 1) w) (xs : List ι) (w : World G) :
    wlp (mapL f xs) (fun l w' => l = List.range' w.heap.length xs.length ∧ w'.heap.length = w.heap.length + xs.length) w := by
  induction xs generalizing w with
  | nil => simp [PyM.mapL]
  | cons x xs ih =>
    unfold PyM.mapL
    rw [wlp_bind]
    refine (hf x w).mono fun c w1 h1 => ?_
    rw [wlp_bind]
    refine (ih w1).mono fun l w2 h2 => ?_
    rw [wlp_pure]
    rw [h1.1, h2.1, h2.2, h1.2]
    exact ⟨by simp [List.range'_succ], by simp; omega⟩

/-- The two selection methods do the same up to labels, and select distinct new individuals. -/
structure Sel.Twins (sel' sel : Sel G) : Prop where
  arity : sel'.arity = sel.arity
  select : ∀ source dest, Twin Eq (sel'.select source dest) (sel.select source dest)
  distinct : ∀ source dest (w : World G), dest.Nodup → (∀ r ∈ dest, r < w.heap.length) →
    wlp (sel.select source dest) (fun res _ => res.Nodup) w

theorem nodup_append_range' {dest : List Nat} {n k : Nat} (h : dest.Nodup) (hd : ∀ r ∈ dest, r < n) :
    (dest ++ List.range' n k).Nodup := by
  refine List.nodup_append.2 ⟨h, List.nodup_range', fun a ha b hb => ?_⟩
  have h1 := hd a ha
  have h2 := (List.mem_range'_1.1 hb).1
  omega

theorem winnerLoop_twin (w : Nat) (ps : List Nat) : Twin (G := G) Eq (winnerLoop size w ps) (winnerLoop size w ps) := by
  induction ps generalizing w with
  | nil => exact Rel.pure rfl
  | cons p ps ih =>
    simp only [winnerLoop]
    refine Rel.bind (betterOf_twin p _) fun b' b hb => ?_
    subst hb
    exact ih _

theorem pickWinner_twin (t : List Nat) : Twin (G := G) Eq (pickWinner size t) (pickWinner size t) := by
  cases t with
  | nil => exact twin_raise _
  | cons t ts =>
    refine Rel.bind (winnerLoop_twin t ts) fun w' w hw => ?_
    subst hw
    exact cloneSelected_twin _ _

theorem reading_wlp {α : Type} (g : List (Ind G) → Except Err α) (w : World G) : wlp (reading g) (fun _ w' => w' = w) w := by
  intro a w' h
  unfold reading at h
  rw [bind_of_ok (show (PyM.get w : Except Err (World G) × World G) = (.ok w, w) from rfl)] at h
  cases hg : g w.heap with
  | error e => rw [hg] at h; cases h
  | ok v => rw [hg] at h; cases h; rfl

theorem winnerLoop_still (b : Nat) (ps : List Nat) (w : World G) : wlp (winnerLoop size b ps) (fun _ w' => w' = w) w := by
  induction ps generalizing b with
  | nil => simp [winnerLoop]
  | cons p ps ih =>
    simp only [winnerLoop]
    rw [wlp_bind]
    refine (reading_wlp _ w).mono fun v w' h => ?_
    subst h
    exact ih _

theorem pickWinner_at (t : List Nat) (w : World G) :
    wlp (pickWinner size t) (fun c w' => c = w.heap.length ∧ w'.heap.length = w.heap.length + 1) w := by
  cases t with
  | nil => intro a w' h; cases h
  | cons t ts =>
    unfold pickWinner
    dsimp only
    rw [wlp_bind]
    refine (winnerLoop_still t ts w).mono fun c w' h => ?_
    subst h
    exact cloneSelected_at _ _ _

theorem rand_wlp {α : Type} (m : Rand α) (w : World G) : wlp (rand m) (fun _ w' => w'.heap = w.heap) w := by
  intro a w' h
  have e : rand m w = ((m w.tape).1, { w with tape := (m w.tape).2 }) := rfl
  rw [e] at h
  have e' : _ = w' := congrArg Prod.snd h
  rw [← e']

theorem tournament_twins (z : Nat) (replace : Bool) : Sel.Twins (tournament size z replace) (tournament size z replace) := by
  refine ⟨rfl, fun source dest => ?_, fun source dest w hd hl => ?_⟩
  · show Twin Eq (tournamentSelect _ _ _ _ _) (tournamentSelect _ _ _ _ _)
    unfold tournamentSelect
    refine Rel.ite (fun _ => twin_raise _) fun _ => Rel.bind (rand_twin _) fun tours' tours ht => ?_
    subst ht
    refine Rel.bind (Rel.mapL tours' fun t _ => pickWinner_twin t) fun ws' ws hw => Rel.pure ?_
    rw [hw]
  · show wlp (tournamentSelect _ _ _ _ _) _ w
    unfold tournamentSelect
    split
    · intro a w' h; cases h
    · rw [wlp_bind]
      refine (rand_wlp _ w).mono fun tours w1 h1 => ?_
      rw [wlp_bind]
      refine (clonings_distinct pickWinner_at tours w1).mono fun l w2 h2 => ?_
      rw [wlp_pure, h2.1]
      exact nodup_append_range' hd (by rw [h1]; exact hl)

theorem elitismSelect_twin (n : Int) (hib : Bool) (source dest : List Nat) :
    Twin (G := G) Eq (elitismSelect size n hib source dest) (elitismSelect size n hib source dest) := by
  unfold elitismSelect
  refine Rel.bind (reading_twin fun _ _ e => sortedByFitness_bare e hib source) fun l' l hl => ?_
  subst hl
  refine Rel.bind (Rel.mapL _ fun r _ => cloneSelected_twin _ r) fun cs' cs hc => Rel.pure ?_
  rw [hc]

theorem elitismSelect_at (n : Int) (hib : Bool) (source dest : List Nat) (w : World G) :
    wlp (elitismSelect size n hib source dest) (fun res w' => ∃ k, res = dest ++ List.range' w.heap.length k ∧
      w'.heap.length = w.heap.length + k) w := by
  unfold elitismSelect
  rw [wlp_bind]
  refine (reading_wlp _ w).mono fun l w1 h1 => ?_
  subst h1
  rw [wlp_bind]
  refine (clonings_distinct (cloneSelected_at "ElitismSelection") (Py.slice l 0 n) w1).mono fun cs w2 h2 => ?_
  rw [wlp_pure]
  exact ⟨_, by rw [h2.1], h2.2⟩

theorem elitism_twins (n : Int) (hib : Bool) : Sel.Twins (elitism size n hib) (elitism size n hib) := by
  refine ⟨rfl, elitismSelect_twin n hib, fun source dest w hd hl => ?_⟩
  refine (elitismSelect_at n hib source dest w).mono ?_
  rintro res w' ⟨k, rfl, -⟩
  exact nodup_append_range' hd hl

theorem cloneAt_at (source : List Nat) (k : Nat) (w : World G) :
    wlp (cloneAt source k) (fun c w' => c = w.heap.length ∧ w'.heap.length = w.heap.length + 1) w := by
  unfold cloneAt
  cases source[k]? with
  | none => intro a w' h; cases h
  | some r => exact cloneSelected_at _ _ _

theorem ofExcept_wlp {α : Type} (r : Except Err α) (w : World G) : wlp (PyM.ofExcept r) (fun _ w' => w' = w) w := by
  intro a w' h
  cases r with
  | error e => cases h
  | ok v => cases h; rfl

theorem fitnessProportionate_twins (hib : Bool) : Sel.Twins (fitnessProportionate size hib) (fitnessProportionate size hib) := by
  refine ⟨rfl, fun source dest => ?_, fun source dest w hd hl => ?_⟩
  · show Twin Eq (fpSelect _ _ _ _) (fpSelect _ _ _ _)
    unfold fpSelect
    refine Rel.bind (reading_twin fun _ _ e => scoresOf_bare e source) fun l' l h => ?_
    subst h
    refine Rel.bind (Rel.ofExcept (fun _ _ _ => trivial) rfl) fun p' p h => ?_
    subst h
    refine Rel.bind (Rel.ofExcept (fun _ _ _ => trivial) rfl) fun _ _ _ => ?_
    refine Rel.bind (rand_twin _) fun ks' ks h => ?_
    subst h
    refine Rel.bind (Rel.mapL _ fun k _ => ?_) fun cs' cs h => Rel.pure (by rw [h])
    unfold cloneAt
    cases source[k]? with
    | none => exact twin_raise _
    | some r => exact cloneSelected_twin _ r
  · show wlp (fpSelect _ _ _ _) _ w
    unfold fpSelect
    rw [wlp_bind]
    refine (reading_wlp _ w).mono fun l w1 h1 => ?_
    subst h1
    rw [wlp_bind]
    refine (ofExcept_wlp _ w1).mono fun p w2 h2 => ?_
    subst h2
    rw [wlp_bind]
    refine (ofExcept_wlp _ w2).mono fun _ w3 h3 => ?_
    subst h3
    rw [wlp_bind]
    refine (rand_wlp _ w3).mono fun ks w4 h4 => ?_
    rw [wlp_bind]
    refine (clonings_distinct (cloneAt_at source) ks w4).mono fun cs w5 h5 => ?_
    rw [wlp_pure, h5.1]
    exact nodup_append_range' hd (by rw [h4]; exact hl)

/-! ## Operators -/

/-- `apply` of an operator as `apply_operator` uses it: iterating over `None` is a `TypeError`. -/
def Op.demand (o : Op G) (refs : List Nat) : WM G (List Nat) := do
  match ← o.apply refs with
  | none => raise .typeError
  | some l => pure l

/-- The two operators do the same up to labels, and return the individuals they were given. -/
structure Op.Twins (o' o : Op G) : Prop where
  name : o'.name = o.name
  probability : o'.probability = o.probability
  arity : o'.arity = o.arity
  apply : ∀ refs, refs.Nodup → Twin (fun a b => a = refs ∧ b = refs) (o'.demand refs) (o.demand refs)

theorem applyOperator_demand (o : Op G) (inds : List Nat) : applyOperator o inds = (do
    let u ← rand Rand.random
    if u ≤ o.probability then do
      forL setNotEvaluated inds
      let res ← o.demand inds
      let ids ← mapL (fun r => do let i ← deref r; pure i.id) inds
      forL (fun r => update r (record o.name ids)) res
      pure res
    else pure inds) := by
  unfold applyOperator
  congr 1
  funext u
  split
  · congr 1
    funext _
    unfold Op.demand
    funext w
    simp only [PyM.bind_run]
    rcases o.apply inds w with ⟨r, w'⟩
    cases r with
    | error e => rfl
    | ok v => cases v <;> rfl
  · rfl

theorem applyOperator_twin {o' o : Op G} (ho : Op.Twins o' o) {inds : List Nat} (hn : inds.Nodup) :
    Twin (fun a b => a = inds ∧ b = inds) (applyOperator o' inds) (applyOperator o inds) := by
  rw [applyOperator_demand, applyOperator_demand]
  refine Rel.bind (rand_twin _) fun u' u hu => ?_
  subst hu
  rw [ho.probability]
  refine Rel.ite (fun _ => ?_) fun _ => Rel.pure ⟨rfl, rfl⟩
  refine Rel.bind (Rel.forL inds fun r _ => setNotEvaluated_twin r) fun _ _ _ => Rel.bind (ho.apply inds hn) fun a b hab => ?_
  obtain ⟨rfl, rfl⟩ := hab
  refine Rel.bind (Rel.mapL_any _ fun r _ => Rel.bind (deref_twin r) fun i j _ => Rel.pure trivial) fun ids' ids _ => ?_
  rw [ho.name]
  exact Rel.bind (Rel.forL _ fun r _ => update_twin r fun i j h => bare_record _ _ _ h) fun _ _ _ => Rel.pure ⟨rfl, rfl⟩

theorem genomes_twin (refs : List Nat) : Twin (G := G) Eq (genomes refs) (genomes refs) :=
  Rel.mapL refs fun r _ => Rel.bind (deref_twin r) fun _ _ h => Rel.pure (bare_genome h)

theorem putGenomes_twin (refs : List Nat) (gs : List G) : Twin (fun _ _ => True) (putGenomes refs gs) (putGenomes refs gs) :=
  Rel.forL _ fun p _ => update_twin p.1 fun i j h => bare_setGenome p.2 h

theorem inPlace_twins (name : String) (pr : ℚ) (ar : Nat) (g : List G → Rand (Option (List G))) :
    Op.Twins (Op.inPlace name pr ar g) (Op.inPlace name pr ar g) := by
  refine ⟨rfl, rfl, rfl, fun refs _ => ?_⟩
  unfold Op.demand Op.inPlace
  dsimp only
  refine Rel.bind (R := fun a b => a = b ∧ ∀ l, a = some l → l = refs) ?_ fun a b hab => ?_
  · refine Rel.bind (genomes_twin refs) fun gs' gs hg => ?_
    subst hg
    refine Rel.bind (rand_twin _) fun r' r hr => ?_
    subst hr
    cases r' with
    | none => exact Rel.pure ⟨rfl, by simp⟩
    | some l => exact Rel.bind (putGenomes_twin refs l) fun _ _ _ => Rel.pure ⟨rfl, by simp⟩
  · obtain ⟨rfl, h⟩ := hab
    cases a with
    | none => exact twin_raise _
    | some l => exact Rel.pure ⟨h l rfl, h l rfl⟩

theorem withFallback_twins (name : String) (pr : ℚ) (ar : Nat) (g : List G → Rand (Bool × List G)) {inner' inner : Op G}
    (hi : Op.Twins inner' inner) : Op.Twins (Op.withFallback name pr ar g inner') (Op.withFallback name pr ar g inner) := by
  refine ⟨rfl, rfl, rfl, fun refs hn => ?_⟩
  unfold Op.demand Op.withFallback
  dsimp only
  refine Rel.bind (R := fun a b => a = b ∧ a = some refs) ?_ fun a b hab => ?_
  · refine Rel.bind (genomes_twin refs) fun gs' gs hg => ?_
    subst hg
    refine Rel.bind (rand_twin _) fun r' r hr => ?_
    subst hr
    obtain ⟨b, gs2⟩ := r'
    refine Rel.bind (putGenomes_twin refs gs2) fun _ _ _ => ?_
    cases b with
    | true => exact Rel.pure ⟨rfl, rfl⟩
    | false =>
      refine Rel.bind (applyOperator_twin hi hn) fun a b hab => Rel.pure ?_
      obtain ⟨rfl, rfl⟩ := hab
      exact ⟨rfl, rfl⟩
  · obtain ⟨rfl, rfl⟩ := hab
    exact Rel.pure ⟨rfl, rfl⟩

theorem setSlice_slice {α : Type} (xs : List α) (a b : Int) : Py.setSlice xs a b (Py.slice xs a b) = xs := by
  obtain ⟨A, C, h1, h2⟩ := slice_split xs a b
  rw [h2]
  exact h1.symm

theorem applyChunks_twin {o' o : Op G} (ho : Op.Twins o' o) (starts : List Nat) {inds : List Nat} (hn : inds.Nodup) :
    Twin (fun a b => a = inds ∧ b = inds) (applyChunks o' starts inds) (applyChunks o starts inds) := by
  induction starts with
  | nil => exact Rel.pure ⟨rfl, rfl⟩
  | cons i is ih =>
    unfold applyChunks
    rw [ho.arity]
    have hs : (Py.slice inds (i : Int) ((i + o.arity : Nat) : Int)).Nodup := by
      obtain ⟨A, C, h1, -⟩ := slice_split inds (i : Int) ((i + o.arity : Nat) : Int)
      rw [h1] at hn
      exact (List.nodup_append.1 (List.nodup_append.1 hn).1).2.1
    refine Rel.bind (applyOperator_twin ho hs) fun a b hab => ?_
    obtain ⟨rfl, rfl⟩ := hab
    rw [setSlice_slice]
    exact ih

theorem applyOperators_twin {ops' ops : List (Op G)} (ho : List.Forall₂ Op.Twins ops' ops) {inds : List Nat} (hn : inds.Nodup) :
    Twin Eq (applyOperators ops' inds) (applyOperators ops inds) := by
  induction ho with
  | nil => exact Rel.pure rfl
  | cons h _ ih =>
    unfold applyOperators
    rw [h.arity]
    refine Rel.ite (fun _ => twin_raise _) fun _ => Rel.bind (applyChunks_twin h _ hn) fun a b hab => ?_
    obtain ⟨rfl, rfl⟩ := hab
    exact ih

theorem checkArities_twin (n : Nat) (as : List Nat) : Twin (G := G) (fun _ _ => True) (checkArities n as) (checkArities n as) := by
  induction as with
  | nil => exact Rel.pure trivial
  | cons a as ih => exact Rel.ite (fun _ => twin_raise _) fun _ => Rel.ite (fun _ => twin_raise _) fun _ => ih

/-! ## Creation -/

/-- The two creators make the same individuals up to labels. -/
def CreatorTwins (create' create : Nat → Bool → WM G (List Nat)) : Prop := ∀ n hib, Twin Eq (create' n hib) (create n hib)

theorem createIndividuals_twins (empty : G) (genome : Rand G) (fit : Bool → Fit) (up : Bool) :
    CreatorTwins (createIndividuals empty genome fit up) (createIndividuals empty genome fit up) := by
  intro n hib
  unfold createIndividuals
  refine Rel.bind (Rel.mapL _ fun _ _ => ?_) fun refs' refs hr => ?_
  · unfold newInd
    exact Rel.bind takeId_twin fun _ _ _ => alloc_twin rfl
  · subst hr
    refine Rel.bind (Rel.forL _ fun r _ => ?_) fun _ _ _ => Rel.pure rfl
    refine Rel.bind (rand_twin _) fun g' g hg => ?_
    subst hg
    exact update_twin r fun i j h => bare_setGenome _ h

theorem halfCreate_twins {grow full : Nat → Nat → Bool → WM G (List Nat)}
    (hg : ∀ d, CreatorTwins (grow d) (grow d)) (hf : ∀ d, CreatorTwins (full d) (full d)) (minDepth depths : Nat) :
    CreatorTwins (halfCreate grow full minDepth depths) (halfCreate grow full minDepth depths) := by
  intro n hib
  unfold halfCreate
  refine Rel.ite (fun _ => twin_raise _) fun _ => ?_
  refine Rel.bind (R := Eq) ?_ fun inds' inds h => ?_
  · generalize (List.range depths).map (minDepth + ·) = ds
    induction ds with
    | nil => exact Rel.pure rfl
    | cons d ds ih =>
      refine Rel.bind (hg d _ hib) fun a' a ha => Rel.bind (hf d _ hib) fun b' b hb => Rel.bind ih fun c' c hc => Rel.pure ?_
      rw [ha, hb, hc]
  · subst h
    refine Rel.ite (fun _ => ?_) fun _ => Rel.pure rfl
    refine Rel.bind (hf _ _ hib) fun a' a ha => Rel.pure ?_
    rw [ha]

/-! ## Sub-populations -/

/-- Two sub-populations whose parts do the same up to labels. -/
structure SubCfg.Twins (c' c : SubCfg G) : Prop where
  creators : List.Forall₂ CreatorTwins c'.creators c.creators
  pick : c'.pick = c.pick
  ops : List.Forall₂ Op.Twins c'.ops c.ops
  sels : List.Forall₂ Sel.Twins c'.sels c.sels
  popSize : c'.popSize = c.popSize
  nElite : c'.nElite = c.nElite
  hib : c'.hib = c.hib
  evaluate : c'.evaluate = c.evaluate

theorem createSub_twin {c' c : SubCfg G} (hc : SubCfg.Twins c' c) (is : Option (List Nat)) :
    Twin Eq (createSub c' is) (createSub c is) := by
  cases is with
  | some is => exact Rel.pure rfl
  | none =>
    unfold createSub
    rw [hc.pick, hc.popSize, hc.hib]
    refine Rel.bind (rand_twin _) fun n' n hn => ?_
    subst hn
    rcases forall₂_get hc.creators n' with ⟨h1, h2⟩ | ⟨a, b, h1, h2, h⟩
    · rw [h1, h2]; exact twin_raise _
    · rw [h1, h2]; exact Rel.bind (h _ _) fun a b hab => Rel.pure (by rw [hab])

theorem twin_arities {c' c : SubCfg G} (hc : SubCfg.Twins c' c) :
    c'.sels.map (·.arity) ++ c'.ops.map (·.arity) = c.sels.map (·.arity) ++ c.ops.map (·.arity) := by
  congr 1
  · have := hc.sels
    revert this
    generalize c'.sels = l'
    generalize c.sels = l
    intro h
    induction h with
    | nil => rfl
    | cons h _ ih => simp [h.arity, ih]
  · have := hc.ops
    revert this
    generalize c'.ops = l'
    generalize c.ops = l
    intro h
    induction h with
    | nil => rfl
    | cons h _ ih => simp [h.arity, ih]

theorem selectStage_twin {c' c : SubCfg G} (hc : SubCfg.Twins c' c) (inds : List Nat) :
    Twin Eq (selectStage size c' inds) (selectStage size c inds) := by
  unfold selectStage
  refine Rel.bind (R := Eq) ?_ fun next' next h => ?_
  · unfold eliteStage
    rw [hc.nElite, hc.hib]
    exact Rel.ite (fun _ => elitismSelect_twin _ _ _ _) fun _ => Rel.pure rfl
  · subst h
    have := hc.sels
    revert this
    generalize c'.sels = l'
    generalize c.sels = l
    intro h
    cases h with
    | nil => exact twin_raise _
    | cons h _ => exact h.select inds next'

theorem selectStage_distinct {c' c : SubCfg G} (hc : SubCfg.Twins c' c) (inds : List Nat) (w : World G) :
    wlp (selectStage size c inds) (fun res _ => res.Nodup) w := by
  unfold selectStage
  rw [wlp_bind]
  have h1 : wlp (eliteStage size c inds) (fun res w' => res.Nodup ∧ ∀ r ∈ res, r < w'.heap.length) w := by
    unfold eliteStage
    split
    · refine (elitismSelect_at _ _ _ _ w).mono ?_
      rintro res w' ⟨k, rfl, h⟩
      refine ⟨by simp [List.nodup_range'], fun r hr => ?_⟩
      simp [List.mem_range'_1] at hr
      omega
    · simp
  refine h1.mono fun next w1 hn => ?_
  have := hc.sels
  revert this
  generalize c'.sels = l'
  generalize c.sels = l
  intro h
  cases h with
  | nil => intro a w' h; cases h
  | cons h _ => exact h.distinct inds next w1 hn.1 hn.2

theorem breedSub_twin {c' c : SubCfg G} (hc : SubCfg.Twins c' c) (inds : List Nat) :
    Twin Eq (breedSub size c' inds) (breedSub size c inds) := by
  unfold breedSub
  rw [twin_arities hc, hc.popSize]
  refine Rel.bind (checkArities_twin _ _) fun _ _ _ => ?_
  refine Rel.bind ((selectStage_twin hc inds).wlp (Q := List.Nodup) ?_) fun sel' sel h => ?_
  · intro w' w _ b hb
    exact selectStage_distinct hc inds w b _ (Prod.ext hb rfl)
  · obtain ⟨rfl, hn⟩ := h
    exact applyOperators_twin hc.ops hn

theorem breedAll_twin {l' l : List (SubCfg G)} (hc : List.Forall₂ SubCfg.Twins l' l) (inds : List (Option (List Nat))) :
    Twin Eq (breedAll size (l'.zip inds)) (breedAll size (l.zip inds)) := by
  induction hc generalizing inds with
  | nil => exact Rel.pure rfl
  | cons h _ ih =>
    cases inds with
    | nil => exact Rel.pure rfl
    | cons is rest =>
      cases is with
      | none => exact twin_raise _
      | some is =>
        refine Rel.bind (breedSub_twin h is) fun a b hab => Rel.bind (ih rest) fun r s hrs => Rel.pure ?_
        rw [hab, hrs]

/-! ## Evaluation -/

theorem executorMap_twin {α : Type} {order : List Nat} {task' task : Nat → WM G α} (ht : ∀ r, Twin Eq (task' r) (task r))
    (refs : List Nat) : Twin Eq (executorMap order task' refs) (executorMap order task refs) := by
  unfold executorMap
  refine Rel.bind (Rel.mapL _ fun i _ => ?_) fun rs' rs h => ?_
  · unfold runTask
    cases refs[i]? with
    | none => exact twin_raise _
    | some r => exact Rel.bind (ht r) fun v' v h => Rel.pure (by rw [h])
  · subst h
    refine Rel.mapL _ fun i _ => ?_
    unfold lookupResult
    cases rs'.find? (fun p => p.1 == i) with
    | none => exact twin_raise _
    | some p => exact Rel.pure rfl

theorem bestLoop_twin (b : Nat) (is : List Nat) : Twin (G := G) Eq (bestLoop size b is) (bestLoop size b is) := by
  induction is generalizing b with
  | nil => exact Rel.pure rfl
  | cons p ps ih =>
    simp only [bestLoop]
    refine Rel.bind (betterOf_twin p _) fun v' v hv => ?_
    subst hv
    exact ih _

theorem bestOfList_twin (is : List Nat) : Twin (G := G) Eq (match is with | [] => raise .indexError | b :: rest => bestLoop size b rest)
    (match is with | [] => raise .indexError | b :: rest => bestLoop size b rest) := by
  cases is with
  | nil => exact twin_raise _
  | cons b rest => exact bestLoop_twin b rest

theorem runEval_twin {c' c : SubCfg G} (hc : SubCfg.Twins c' c) (r : Nat) : Twin Eq (runEval c' r) (runEval c r) := by
  unfold runEval
  refine Rel.bind (deref_twin r) fun i j h => ?_
  rw [hc.evaluate, bare_genome h]
  exact rand_twin _

theorem evaluateMap_twin {c' c : SubCfg G} (hc : SubCfg.Twins c' c) (order is : List Nat) :
    Twin Eq (evaluateMap size c' order is) (evaluateMap size c order is) := by
  unfold evaluateMap
  refine Rel.bind (executorMap_twin (fun r => runEval_twin hc r) is) fun a b h => ?_
  subst h
  exact Rel.bind (Rel.forL _ fun p _ => setFitness_twin p.1 (.num p.2)) fun _ _ _ => bestOfList_twin is

theorem evaluateSubmit_twin {c' c : SubCfg G} (hc : SubCfg.Twins c' c) (order is : List Nat) :
    Twin Eq (evaluateSubmit size c' order is) (evaluateSubmit size c order is) := by
  unfold evaluateSubmit
  refine Rel.bind (executorMap_twin (fun r => ?_) is) fun a b h => ?_
  · refine Rel.bind (runEval_twin hc r) fun v' v hv => ?_
    subst hv
    exact Rel.bind (setFitness_twin r (.num v')) fun _ _ _ => Rel.pure rfl
  · subst h
    exact Rel.bind (Rel.forL _ fun p _ => setFitness_twin p.1 (.obj p.2)) fun _ _ _ => bestOfList_twin is

/-! ## The algorithm -/

/-- What an observer sees, without labels. -/
def Snapshot.bare (s : Snapshot G) : Snapshot G := { s with heap := s.heap.map Ind.bare }

def Event.bare (e : Event G) : Event G := { e with snap := e.snap.bare }

/-- The state of a run without the labels of individuals and the number of ids given out. -/
def Run.bare (s : Run G κ) : Run G κ :=
  { s with w := ⟨s.w.heap.map Ind.bare, 0, s.w.tape⟩, log := s.log.map Event.bare }

/-- The checker does not look at labels. -/
def Checker.Blind (t : Checker G κ) : Prop := ∀ k (h' h : List (Ind G)) inds best gen,
  h'.map Ind.bare = h.map Ind.bare → t k h' inds best gen = t k h inds best gen

/-- No checker of the run looks at labels. -/
def Checkers.Blind : Checkers G κ → Prop
  | .none => True
  | .one t => Checker.Blind t
  | .many ts => ∀ t ∈ ts, Checker.Blind t

/-- Two configurations whose parts do the same up to labels. -/
structure Cfg.Twins (c' c : Cfg G κ) : Prop where
  size : c'.size = c.size
  subs : List.Forall₂ SubCfg.Twins c'.subs c.subs
  stream : c'.stream = c.stream
  maxGen : c'.maxGen = c.maxGen
  checker : c'.checker = c.checker
  blind : c.checker.Blind
  sched : c'.sched = c.sched
  submit : c'.submit = c.submit

/-- Both do the same up to labels; after an exception, observers have been told the same up to labels. -/
abbrev RTwin {α β : Type} (R : α → β → Prop) (m' : RM G κ α) (m : RM G κ β) : Prop :=
  Rel (fun s' s : Run G κ => s'.bare = s.bare) (fun s' s => s'.log.map Event.bare = s.log.map Event.bare) R m' m

theorem bare_log {s' s : Run G κ} (h : s'.bare = s.bare) : s'.log.map Event.bare = s.log.map Event.bare :=
  (congrArg Run.log h : s'.bare.log = s.bare.log)

theorem bare_world {s' s : Run G κ} (h : s'.bare = s.bare) : Unlabelled s'.w s.w :=
  ⟨(congrArg (fun u : Run G κ => u.w.heap) h : s'.bare.w.heap = s.bare.w.heap),
    (congrArg (fun u : Run G κ => u.w.tape) h : s'.bare.w.tape = s.bare.w.tape)⟩

theorem rtwin_raise {α β : Type} {R : α → β → Prop} (e : Err) : RTwin (G := G) (κ := κ) R (raise e) (raise e) :=
  Rel.raise (fun _ _ h => bare_log h) e

theorem world_rtwin {α β : Type} {R : α → β → Prop} {m' : WM G α} {m : WM G β} (h : Twin R m' m) :
    RTwin (κ := κ) R (world m') (world m) := by
  unfold world
  refine Rel.zoom h (fun s' s hs => bare_world hs) (fun t' t s' s hs ht => ?_) fun t' t s' s hs _ => bare_log (s' := s') (s := s) hs
  show { s'.bare with w := ⟨t'.heap.map Ind.bare, 0, t'.tape⟩ } = { s.bare with w := ⟨t.heap.map Ind.bare, 0, t.tape⟩ }
  rw [hs, ht.heap, ht.tape]

theorem modify_rtwin {f : Run G κ → Run G κ} (h : ∀ s, (f s).bare = f s.bare) :
    RTwin (fun _ _ => True) (PyM.modify f) (PyM.modify f) :=
  Rel.modify fun s' s hs => by rw [h, h, hs]

theorem publish_rtwin (p n : String) : RTwin (G := G) (κ := κ) (fun _ _ => True) (publish p n) (publish p n) := by
  unfold publish
  refine modify_rtwin fun s => ?_
  show Run.mk _ _ _ _ _ _ _ _ _ _ _ _ = Run.mk _ _ _ _ _ _ _ _ _ _ _ _
  congr 1
  show (s.log ++ _).map _ = s.log.map _ ++ _
  rw [List.map_append]
  rfl

theorem act_rtwin {α : Type} {m' m : RM G κ α} (p : String) (h : RTwin Eq m' m) : RTwin Eq (act p m') (act p m) :=
  Rel.bind (publish_rtwin _ _) fun _ _ _ => Rel.bind h fun _ _ hab => Rel.bind (publish_rtwin _ _) fun _ _ _ => Rel.pure hab

theorem act_rtwin_unit {m' m : RM G κ Unit} (p : String) (h : RTwin (fun _ _ => True) m' m) :
    RTwin (fun _ _ => True) (act p m') (act p m) :=
  Rel.bind (publish_rtwin _ _) fun _ _ _ => Rel.bind h fun _ _ _ => Rel.bind (publish_rtwin _ _) fun _ _ _ => Rel.pure trivial

variable {c' c : Cfg G κ}

theorem setSeed_rtwin (hc : Cfg.Twins c' c) (seed : Nat) : RTwin (fun _ _ => True) (setSeed c' seed) (setSeed c seed) := by
  unfold setSeed
  rw [hc.stream]
  exact modify_rtwin fun s => rfl

theorem bare_inds {s' s : Run G κ} (h : s'.bare = s.bare) : s'.inds = s.inds :=
  (congrArg Run.inds h : s'.bare.inds = s.bare.inds)
theorem bare_bestOfRun {s' s : Run G κ} (h : s'.bare = s.bare) : s'.bestOfRun = s.bestOfRun :=
  (congrArg Run.bestOfRun h : s'.bare.bestOfRun = s.bare.bestOfRun)
theorem bare_genNum {s' s : Run G κ} (h : s'.bare = s.bare) : s'.genNum = s.genNum :=
  (congrArg Run.genNum h : s'.bare.genNum = s.bare.genNum)
theorem bare_shutdown {s' s : Run G κ} (h : s'.bare = s.bare) : s'.shutdown = s.shutdown :=
  (congrArg Run.shutdown h : s'.bare.shutdown = s.bare.shutdown)
theorem bare_genSeed {s' s : Run G κ} (h : s'.bare = s.bare) : s'.genSeed = s.genSeed :=
  (congrArg Run.genSeed h : s'.bare.genSeed = s.bare.genSeed)
theorem bare_randomSeed {s' s : Run G κ} (h : s'.bare = s.bare) : s'.randomSeed = s.randomSeed :=
  (congrArg Run.randomSeed h : s'.bare.randomSeed = s.bare.randomSeed)
theorem bare_checkers {s' s : Run G κ} (h : s'.bare = s.bare) : s'.checkers = s.checkers :=
  (congrArg Run.checkers h : s'.bare.checkers = s.bare.checkers)

theorem createPopulation_rtwin (hc : Cfg.Twins c' c) : RTwin (fun _ _ => True) (createPopulation c') (createPopulation c) := by
  unfold createPopulation
  refine Rel.get_bind fun s' s hs => ?_
  rw [bare_inds hs]
  refine Rel.bind (R := Eq) (world_rtwin ?_) fun is' is h => ?_
  · have := hc.subs
    revert this
    generalize c'.subs = l'
    generalize c.subs = l
    generalize s.inds = inds
    intro h
    induction h generalizing inds with
    | nil => exact Rel.pure rfl
    | cons h _ ih =>
      cases inds with
      | nil => exact Rel.pure rfl
      | cons is rest =>
        exact Rel.bind (createSub_twin h is) fun a b hab => Rel.bind (ih rest) fun r t hrt => Rel.pure (by rw [hab, hrt])
  · subst h
    exact modify_rtwin fun s => rfl

theorem evaluateBody_rtwin (hc : Cfg.Twins c' c) : RTwin Eq (evaluateBody c') (evaluateBody c) := by
  unfold evaluateBody
  rw [hc.sched, hc.submit, hc.size]
  refine Rel.get_bind fun s' s hs => ?_
  rw [bare_inds hs, bare_shutdown hs, bare_genNum hs]
  have := hc.subs
  revert this
  generalize c'.subs = l'
  generalize c.subs = l
  intro h
  cases h with
  | nil => exact rtwin_raise _
  | cons h ht =>
    cases ht with
    | cons _ _ => exact rtwin_raise _
    | nil =>
      rcases hi : s.inds with _ | ⟨_ | is, _ | ⟨i2, irest⟩⟩
      · exact rtwin_raise _
      · exact rtwin_raise _
      · exact rtwin_raise _
      · refine Rel.ite (fun _ => rtwin_raise _) fun _ => world_rtwin ?_
        exact Rel.ite (fun _ => evaluateSubmit_twin h _ _) fun _ => evaluateMap_twin h _ _
      · exact rtwin_raise _

theorem evaluatePopulation_rtwin (hc : Cfg.Twins c' c) : RTwin Eq (evaluatePopulation c') (evaluatePopulation c) :=
  act_rtwin _ (evaluateBody_rtwin hc)

theorem breed_rtwin (hc : Cfg.Twins c' c) : RTwin (fun _ _ => True) (breed c') (breed c) := by
  unfold breed
  refine act_rtwin_unit _ ?_
  unfold breedBody
  refine Rel.get_bind fun s' s hs => ?_
  rw [bare_inds hs, hc.size]
  refine Rel.bind (world_rtwin (breedAll_twin hc.subs s.inds)) fun is' is h => ?_
  subst h
  exact modify_rtwin fun s => rfl

theorem initRun_rtwin (hc : Cfg.Twins c' c) : RTwin (fun _ _ => True) (initRun c') (initRun c) := by
  unfold initRun
  refine Rel.get_bind fun s' s hs => ?_
  rw [bare_randomSeed hs]
  refine Rel.bind (setSeed_rtwin hc _) fun _ _ _ => Rel.bind (createPopulation_rtwin hc) fun _ _ _ =>
    Rel.bind (evaluatePopulation_rtwin hc) fun a b h => ?_
  subst h
  exact Rel.bind (modify_rtwin fun s => rfl) fun _ _ _ => publish_rtwin _ _

theorem consult_bare {ts : List (Checker G κ)} (ht : ∀ t ∈ ts, Checker.Blind t) (ks : List κ)
    {h' h : List (Ind G)} (hh : h'.map Ind.bare = h.map Ind.bare) (inds : List (Option (List Nat))) (best : Option Nat) (gen : Nat) :
    consult h' inds best gen ts ks = consult h inds best gen ts ks := by
  induction ts generalizing ks with
  | nil => cases ks <;> rfl
  | cons t ts ih =>
    cases ks with
    | nil => rfl
    | cons k ks => simp only [consult, ht t (by simp) k h' h inds best gen hh, ih fun t h => ht t (by simp [h])]

theorem shouldTerminate_rtwin (hc : Cfg.Twins c' c) (gen : Nat) : RTwin Eq (shouldTerminate c' gen) (shouldTerminate c gen) := by
  intro s' s hs
  have hb := hc.blind
  unfold shouldTerminate
  rw [hc.checker]
  revert hb
  cases c.checker with
  | none => intro _; exact ⟨rfl, hs⟩
  | one t =>
    intro hb
    dsimp only
    rw [bare_checkers hs]
    cases s.checkers with
    | nil => exact ⟨rfl, bare_log hs⟩
    | cons k ks =>
      dsimp only
      have e : t k s'.w.heap s'.inds s'.bestOfRun gen = t k s.w.heap s.inds s.bestOfRun gen := by
        rw [hb k s'.w.heap s.w.heap s'.inds s'.bestOfRun gen (bare_world hs).heap, bare_inds hs, bare_bestOfRun hs]
      rw [e]
      rcases t k s.w.heap s.inds s.bestOfRun gen with ⟨r, k'⟩
      cases r with
      | error e => exact ⟨rfl, bare_log (s' := s') (s := s) hs⟩
      | ok b =>
        refine ⟨rfl, ?_⟩
        show { s'.bare with checkers := k' :: ks } = { s.bare with checkers := k' :: ks }
        rw [hs]
  | many ts =>
    intro hb
    dsimp only
    have e : consult s'.w.heap s'.inds s'.bestOfRun gen ts s'.checkers = consult s.w.heap s.inds s.bestOfRun gen ts s.checkers := by
      rw [bare_checkers hs, consult_bare hb s.checkers (bare_world hs).heap, bare_inds hs, bare_bestOfRun hs]
    rw [e]
    rcases consult s.w.heap s.inds s.bestOfRun gen ts s.checkers with ⟨r, ks⟩
    cases r with
    | error e => exact ⟨rfl, bare_log (s' := s') (s := s) hs⟩
    | ok b =>
      refine ⟨rfl, ?_⟩
      show { s'.bare with checkers := ks } = { s.bare with checkers := ks }
      rw [hs]

theorem updateGen_rtwin (gen : Nat) : RTwin (G := G) (κ := κ) (fun _ _ => True) (updateGen gen) (updateGen gen) := by
  unfold updateGen
  refine Rel.get_bind fun s' s hs => ?_
  rw [bare_inds hs]
  refine Rel.forL s.inds fun is _ => ?_
  cases is with
  | none => exact rtwin_raise _
  | some is => exact world_rtwin (Rel.forL is fun r _ => update_twin r fun i j h => bare_setGen gen h)

theorem recordBest_rtwin (hc : Cfg.Twins c' c) (b : Nat) : RTwin (fun _ _ => True) (recordBest c' b) (recordBest c b) := by
  unfold recordBest
  rw [hc.size]
  refine Rel.get_bind fun s' s hs => ?_
  rw [bare_bestOfRun hs]
  refine Rel.bind (world_rtwin (betterOf_twin b s.bestOfRun)) fun v' v hv => ?_
  subst hv
  exact Rel.ite (fun _ => modify_rtwin fun s => rfl) fun _ => Rel.pure trivial

theorem recordWorst_rtwin (hc : Cfg.Twins c' c) : RTwin (fun _ _ => True) (recordWorst c') (recordWorst c) := by
  unfold recordWorst
  rw [hc.size]
  refine Rel.get_bind fun s' s hs => ?_
  rw [bare_inds hs]
  have := hc.subs
  revert this
  generalize c'.subs = l'
  generalize c.subs = l
  intro h
  cases h with
  | nil => exact rtwin_raise _
  | cons h _ =>
    rcases hi : s.inds with _ | ⟨_ | is, irest⟩
    · exact rtwin_raise _
    · exact rtwin_raise _
    · dsimp only
      rw [h.hib]
      refine Rel.bind (world_rtwin (reading_twin fun _ _ e => worstIndividual_bare e _ is)) fun w' w hw => ?_
      subst hw
      exact modify_rtwin fun s => rfl

theorem generationIteration_rtwin (hc : Cfg.Twins c' c) : RTwin (fun _ _ => True) (generationIteration c') (generationIteration c) := by
  unfold generationIteration
  refine Rel.bind (breed_rtwin hc) fun _ _ _ => Rel.bind (evaluatePopulation_rtwin hc) fun a b h => ?_
  subst h
  exact Rel.bind (modify_rtwin fun s => rfl) fun _ _ _ => Rel.bind (recordBest_rtwin hc a) fun _ _ _ => recordWorst_rtwin hc

theorem mainLoop_rtwin (hc : Cfg.Twins c' c) (n gen : Nat) : RTwin (fun _ _ => True) (mainLoop c' n gen) (mainLoop c n gen) := by
  induction n generalizing gen with
  | zero => exact Rel.pure trivial
  | succ n ih =>
    unfold mainLoop
    refine Rel.bind (modify_rtwin fun s => rfl) fun _ _ _ => Rel.bind (updateGen_rtwin gen) fun _ _ _ => Rel.get_bind fun s' s hs => ?_
    rw [bare_genSeed hs]
    refine Rel.bind (setSeed_rtwin hc _) fun _ _ _ => Rel.bind (modify_rtwin fun s => rfl) fun _ _ _ => ?_
    refine Rel.bind (generationIteration_rtwin hc) fun _ _ _ => Rel.bind (shouldTerminate_rtwin hc gen) fun a b h => ?_
    subst h
    exact Rel.ite (fun _ => Rel.bind (modify_rtwin fun s => rfl) fun _ _ _ => publish_rtwin _ _)
      fun _ => Rel.bind (publish_rtwin _ _) fun _ _ _ => ih _

theorem evolve_rtwin (hc : Cfg.Twins c' c) : RTwin (fun _ _ => True) (evolve c') (evolve c) := by
  unfold evolve
  refine Rel.bind (initRun_rtwin hc) fun _ _ _ => Rel.bind (R := fun _ _ => True) ?_ fun _ _ _ => Rel.bind (publish_rtwin _ _) fun _ _ _ =>
    modify_rtwin fun s => rfl
  unfold afterInit
  rw [hc.maxGen]
  refine Rel.get_bind fun s' s hs => ?_
  rw [bare_genNum hs]
  refine Rel.bind (shouldTerminate_rtwin hc _) fun a b h => ?_
  subst h
  refine Rel.ite (fun _ => ?_) fun _ => mainLoop_rtwin hc _ _
  exact Rel.bind (modify_rtwin fun s => rfl) fun _ _ _ => publish_rtwin _ _

end Verif.Evo
