import Verif.Model.Evolution

/-! # Reasoning about the heap of individuals -/

namespace Verif.Evo
open PyM
variable {G : Type} {α : Type}

section rules
variable {s : World G} {r : Nat}

theorem wlp_rand {m : Rand α} {Q : α → World G → Prop} :
    wlp (rand m) Q s ↔ wlp m (fun a t => Q a { s with tape := t }) s.tape := wlp_zoom

theorem wp_rand {m : Rand α} {Q : α → World G → Prop} :
    wp (rand m) Q s ↔ wp m (fun a t => Q a { s with tape := t }) s.tape := wp_zoom

theorem wlp_deref {Q : Ind G → World G → Prop} :
    wlp (deref r) Q s ↔ ∀ i, s.heap[r]? = some i → Q i s := by
  unfold deref
  rw [wlp_bind, wlp_get]
  cases h : s.heap[r]? <;> simp

theorem wp_deref {Q : Ind G → World G → Prop} :
    wp (deref r) Q s ↔ ∃ i, s.heap[r]? = some i ∧ Q i s := by
  unfold deref
  rw [wp_bind, wp_get]
  cases h : s.heap[r]? <;> simp

theorem wlp_update {f : Ind G → Ind G} {Q : Unit → World G → Prop} :
    wlp (update r f) Q s ↔ Q () { s with heap := s.heap.modify r f } := by
  unfold update; rw [wlp_modify]

theorem wp_update {f : Ind G → Ind G} {Q : Unit → World G → Prop} :
    wp (update r f) Q s ↔ Q () { s with heap := s.heap.modify r f } := by
  unfold update; rw [wp_modify]

theorem wlp_alloc {i : Ind G} {Q : Nat → World G → Prop} :
    wlp (alloc i) Q s ↔ Q s.heap.length { s with heap := s.heap ++ [i] } := by
  unfold alloc; rw [wlp_bind, wlp_get, wlp_bind, wlp_set, wlp_pure]

theorem wp_alloc {i : Ind G} {Q : Nat → World G → Prop} :
    wp (alloc i) Q s ↔ Q s.heap.length { s with heap := s.heap ++ [i] } := by
  unfold alloc; rw [wp_bind, wp_get, wp_bind, wp_set, wp_pure]

theorem wlp_takeId {Q : Nat → World G → Prop} :
    wlp takeId Q s ↔ Q s.nextId { s with nextId := s.nextId + 1 } := by
  unfold takeId; rw [wlp_bind, wlp_get, wlp_bind, wlp_set, wlp_pure]

theorem wp_takeId {Q : Nat → World G → Prop} :
    wp takeId Q s ↔ Q s.nextId { s with nextId := s.nextId + 1 } := by
  unfold takeId; rw [wp_bind, wp_get, wp_bind, wp_set, wp_pure]

theorem wlp_reading {f : List (Ind G) → Except Err α} {Q : α → World G → Prop} :
    wlp (reading f) Q s ↔ ∀ a, f s.heap = .ok a → Q a s := by
  unfold reading; rw [wlp_bind, wlp_get, wlp_ofExcept]

theorem wp_reading {f : List (Ind G) → Except Err α} {Q : α → World G → Prop} :
    wp (reading f) Q s ↔ ∃ a, f s.heap = .ok a ∧ Q a s := by
  unfold reading; rw [wp_bind, wp_get, wp_ofExcept]

/-- The individual `newInd` creates. -/
def freshInd (id : Nat) (g : G) (fit : Fit) (up : Bool) : Ind G :=
  { id := id, gen := 0, genome := g, fit := fit, clonedFrom := -1, selectedBy := [],
    appliedOps := [], updateParents := up, parents := [] }

theorem wlp_newInd {g : G} {fit : Fit} {up : Bool} {Q : Nat → World G → Prop} :
    wlp (newInd g fit up) Q s ↔ Q s.heap.length
      { s with nextId := s.nextId + 1, heap := s.heap ++ [freshInd s.nextId g fit up] } := by
  unfold newInd; rw [wlp_bind, wlp_takeId, wlp_alloc]; rfl

theorem wp_newInd {g : G} {fit : Fit} {up : Bool} {Q : Nat → World G → Prop} :
    wp (newInd g fit up) Q s ↔ Q s.heap.length
      { s with nextId := s.nextId + 1, heap := s.heap ++ [freshInd s.nextId g fit up] } := by
  unfold newInd; rw [wp_bind, wp_takeId, wp_alloc]; rfl

/-- The copy `clone` makes. -/
def Ind.copy (i : Ind G) (newId : Nat) : Ind G :=
  { i with
    fit := i.fit.getstate
    clonedFrom := i.id
    parents := if i.updateParents then [] else i.parents
    id := newId }

theorem wlp_clone {Q : Nat → World G → Prop} :
    wlp (clone r) Q s ↔ ∀ i, s.heap[r]? = some i → Q s.heap.length
      { s with nextId := s.nextId + 1, heap := s.heap ++ [i.copy s.nextId] } := by
  unfold clone; rw [wlp_bind, wlp_deref]; simp only [wlp_bind, wlp_takeId, wlp_alloc]; rfl

theorem wp_clone {Q : Nat → World G → Prop} :
    wp (clone r) Q s ↔ ∃ i, s.heap[r]? = some i ∧ Q s.heap.length
      { s with nextId := s.nextId + 1, heap := s.heap ++ [i.copy s.nextId] } := by
  unfold clone; rw [wp_bind, wp_deref]; simp only [wp_bind, wp_takeId, wp_alloc]; rfl

theorem modify_append_self (h : List (Ind G)) (i : Ind G) (f : Ind G → Ind G) :
    (h ++ [i]).modify h.length f = h ++ [f i] := by
  induction h with
  | nil => rfl
  | cons a h ih => simpa using ih

/-- The copy made by a selection method. -/
def Ind.selected (i : Ind G) (newId : Nat) (name : String) : Ind G :=
  { i.copy newId with selectedBy := i.selectedBy ++ [name] }

theorem wlp_cloneSelected {name : String} {Q : Nat → World G → Prop} :
    wlp (cloneSelected name r) Q s ↔ ∀ i, s.heap[r]? = some i → Q s.heap.length
      { s with nextId := s.nextId + 1, heap := s.heap ++ [i.selected s.nextId name] } := by
  unfold cloneSelected; rw [wlp_bind, wlp_clone]
  simp only [wlp_bind, wlp_update, wlp_pure, modify_append_self]; rfl

theorem wp_cloneSelected {name : String} {Q : Nat → World G → Prop} :
    wp (cloneSelected name r) Q s ↔ ∃ i, s.heap[r]? = some i ∧ Q s.heap.length
      { s with nextId := s.nextId + 1, heap := s.heap ++ [i.selected s.nextId name] } := by
  unfold cloneSelected; rw [wp_bind, wp_clone]
  simp only [wp_bind, wp_update, wp_pure, modify_append_self]; rfl

end rules

/-! ## What every piece of library code does to the heap -/

/-- Attributes of an individual that nothing in the library changes after construction. -/
structure Attrs where
  id : Nat
  hib : Bool
  relative : Bool
  cache : Bool
  bloat : Option ℚ
  updateParents : Bool
deriving DecidableEq

def Ind.attrs (i : Ind G) : Attrs :=
  ⟨i.id, i.fit.hib, i.fit.relative, i.fit.cache, i.fit.bloat, i.updateParents⟩

/-- How fitness values of an individual are compared. -/
structure Mode where
  hib : Bool
  bloat : Option ℚ
deriving DecidableEq

def Ind.mode (i : Ind G) : Mode := ⟨i.fit.hib, i.fit.bloat⟩

/-- Ids grow along the heap and stay below the counter. -/
structure World.WF (s : World G) : Prop where
  sorted : (s.heap.map (·.id)).Pairwise (· < ·)
  below : ∀ i ∈ s.heap, i.id < s.nextId

/-- `s'` extends `s`: objects are only added, only those in `T` are modified, and constant attributes
stay; ids stay unique. -/
structure Ext (T : Nat → Prop) (s s' : World G) : Prop where
  len : s.heap.length ≤ s'.heap.length
  same : ∀ i, i < s.heap.length → ¬ T i → s'.heap[i]? = s.heap[i]?
  attrs : ∀ i, i < s.heap.length → (s'.heap[i]?).map Ind.attrs = (s.heap[i]?).map Ind.attrs
  wf : s.WF → s'.WF
  next : s.nextId ≤ s'.nextId

namespace Ext
variable {s s' s'' : World G} {T T' : Nat → Prop}

theorem refl (T : Nat → Prop) (s : World G) : Ext T s s :=
  ⟨le_refl _, fun _ _ _ => rfl, fun _ _ => rfl, id, le_refl _⟩

theorem trans (h1 : Ext T s s') (h2 : Ext T' s' s'') : Ext (fun i => T i ∨ T' i) s s'' where
  len := h1.len.trans h2.len
  same := fun i hi hn => by
    rw [h2.same i (lt_of_lt_of_le hi h1.len) fun h => hn (.inr h), h1.same i hi fun h => hn (.inl h)]
  attrs := fun i hi => by
    rw [h2.attrs i (lt_of_lt_of_le hi h1.len), h1.attrs i hi]
  wf := fun h => h2.wf (h1.wf h)
  next := h1.next.trans h2.next

theorem mono (h : Ext T s s') (hm : ∀ i, i < s.heap.length → T i → T' i) : Ext T' s s' where
  len := h.len
  same := fun i hi hn => h.same i hi fun ht => hn (hm i hi ht)
  attrs := h.attrs
  wf := h.wf
  next := h.next

theorem tape (s : World G) (t : Tape) (T : Nat → Prop) : Ext T s { s with tape := t } :=
  ⟨le_refl _, fun _ _ _ => rfl, fun _ _ => rfl, fun h => ⟨h.1, h.2⟩, le_refl _⟩

theorem update (s : World G) (r : Nat) (f : Ind G → Ind G) (hf : ∀ i, (f i).attrs = i.attrs) :
    Ext (· = r) s { s with heap := s.heap.modify r f } where
  len := by simp
  same := fun i _ hn => by
    have : ¬ r = i := fun h => hn h.symm
    simp [this]
  attrs := fun i hi => by
    simp only [List.getElem?_modify]
    cases s.heap[i]? with
    | none => rfl
    | some x => by_cases h : r = i <;> simp [h, hf]
  wf := fun h => by
    have hid : ∀ i : Ind G, (f i).id = i.id := fun i => congrArg Attrs.id (hf i)
    have hmap : (s.heap.modify r f).map (·.id) = s.heap.map (·.id) := by
      apply List.ext_getElem?
      intro n
      simp only [List.getElem?_map, List.getElem?_modify]
      cases s.heap[n]? <;> simp
      split <;> simp [hid]
    refine ⟨by simpa only [hmap] using h.sorted, fun i hi => ?_⟩
    have : i.id ∈ (s.heap.modify r f).map (·.id) := List.mem_map_of_mem hi
    rw [hmap] at this
    obtain ⟨j, hj, he⟩ := List.mem_map.1 this
    rw [← he]
    exact h.below j hj
  next := le_refl _

theorem push (s : World G) (i : Ind G) (hi : i.id = s.nextId) (T : Nat → Prop) :
    Ext T s { s with nextId := s.nextId + 1, heap := s.heap ++ [i] } where
  len := by simp
  same := fun j hj _ => by simp [List.getElem?_append_left hj]
  attrs := fun j hj => by simp [List.getElem?_append_left hj]
  wf := fun h => by
    refine ⟨?_, fun j hj => ?_⟩
    · simp only [List.map_append, List.map_cons, List.map_nil]
      rw [List.pairwise_append]
      refine ⟨h.sorted, by simp, fun a ha b hb => ?_⟩
      obtain ⟨j, hj, rfl⟩ := List.mem_map.1 ha
      simp at hb
      subst hb
      rw [hi]; exact h.below j hj
    · simp only [List.mem_append, List.mem_singleton] at hj
      rcases hj with hj | rfl
      · exact (h.below j hj).trans (Nat.lt_succ_self _)
      · simp [hi]
  next := Nat.le_succ _

theorem getElem? (h : Ext T s s') {i : Nat} (hn : ¬ T i) {x : Ind G} (hx : s.heap[i]? = some x) :
    s'.heap[i]? = some x := by
  rw [h.same i (List.getElem?_eq_some_iff.1 hx).1 hn, hx]

theorem mode (h : Ext T s s') {i : Nat} (hi : i < s.heap.length) :
    (s'.heap[i]?).map Ind.mode = (s.heap[i]?).map Ind.mode := by
  have := congrArg (Option.map fun a : Attrs => (⟨a.hib, a.bloat⟩ : Mode)) (h.attrs i hi)
  simp only [Option.map_map] at this
  exact this

end Ext

theorem copy_attrs (i : Ind G) (n : Nat) (name : String) :
    (i.selected n name).attrs = { i.attrs with id := n } := by
  simp only [Ind.selected, Ind.copy, Ind.attrs, Fit.getstate]
  split <;> rfl

theorem copy_mode (i : Ind G) (n : Nat) (name : String) : (i.selected n name).mode = i.mode := by
  simp only [Ind.selected, Ind.copy, Ind.mode, Fit.getstate]
  split <;> rfl

theorem copy_genome (i : Ind G) (n : Nat) (name : String) : (i.selected n name).genome = i.genome := rfl

/-- Uniqueness of ids, stated pairwise. -/
theorem World.WF.ids_unique {s : World G} (h : s.WF) {i j : Nat} {a b : Ind G}
    (hi : s.heap[i]? = some a) (hj : s.heap[j]? = some b) (hne : i ≠ j) : a.id ≠ b.id := by
  have key : ∀ (i j : Nat) (a b : Ind G), i < j → s.heap[i]? = some a → s.heap[j]? = some b → a.id < b.id := by
    intro i j a b hij hi hj
    obtain ⟨hi', rfl⟩ := List.getElem?_eq_some_iff.1 hi
    obtain ⟨hj', rfl⟩ := List.getElem?_eq_some_iff.1 hj
    have := List.pairwise_iff_getElem.1 h.sorted i j (by simpa using hi') (by simpa using hj') hij
    simpa using this
  rcases Nat.lt_or_gt_of_ne hne with hlt | hlt
  · exact Nat.ne_of_lt (key i j a b hlt hi hj)
  · exact (Nat.ne_of_lt (key j i b a hlt hj hi)).symm

end Verif.Evo
