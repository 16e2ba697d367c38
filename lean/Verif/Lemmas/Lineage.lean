import Verif.Spec.Lineage
import Verif.Lemmas.History
import Verif.Lemmas.Run
import Verif.Lemmas.Legal

/-! # Breeding and informational attributes -/

namespace Verif.Evo
open PyM
variable {G κ : Type}

theorem papersAt_eq {h h' : List (Ind G)} (e : h'.map Ind.papers = h.map Ind.papers) (r : Nat) :
    papersAt h' r = papersAt h r := by
  unfold papersAt
  rw [← List.getElem?_map, e, List.getElem?_map]

theorem idAt_eq {h h' : List (Ind G)} {r : Nat} (e : papersAt h' r = papersAt h r) : idAt h' r = idAt h r := by
  have key : ∀ h : List (Ind G), idAt h r = ((papersAt h r).map (·.id)).getD 0 := by
    intro h
    unfold idAt papersAt
    rw [Option.map_map]
    rfl
  rw [key, key, e]

/-- What applying the operators `l` does to the papers. -/
def Papers.stamp (ids : List Nat) (k : Nat) (l : List (Op G)) (p : Papers) : Papers :=
  { p with
    appliedOps := p.appliedOps ++ l.map (·.name)
    parents := if p.updateParents then p.parents ++ l.flatMap fun o => group o.arity k ids else p.parents }

theorem Papers.stamp_nil (ids : List Nat) (k : Nat) (p : Papers) : p.stamp ids k ([] : List (Op G)) = p := by
  obtain ⟨a, b, c, d, e, f, g⟩ := p
  cases f <;> simp [Papers.stamp]

theorem Papers.stamp_cons (ids : List Nat) (k : Nat) (o : Op G) (l : List (Op G)) (p : Papers) :
    (p.stamp ids k [o]).stamp ids k l = p.stamp ids k (o :: l) := by
  obtain ⟨a, b, c, d, e, f, g⟩ := p
  cases f <;> simp [Papers.stamp]

theorem idAt_stamp {h h' : List (Ind G)} {ids : List Nat} {k r : Nat} {l : List (Op G)}
    (e : papersAt h' r = (papersAt h r).map (Papers.stamp ids k l)) : idAt h' r = idAt h r := by
  have key : ∀ h : List (Ind G), idAt h r = ((papersAt h r).map (·.id)).getD 0 := by
    intro h
    unfold idAt papersAt
    rw [Option.map_map]
    rfl
  rw [key, key, e, Option.map_map]
  rfl

theorem records_heap (name : String) (ids : List Nat) (refs : List Nat) (hn : refs.Nodup) (s : World G) :
    wlp (forL (fun r => update r (record name ids)) refs) (fun _ s' =>
      ∀ r, s'.heap[r]? = (s.heap[r]?).map fun i => if r ∈ refs then record name ids i else i) s := by
  induction refs generalizing s with
  | nil => unfold forL; rw [wlp_pure]; intro r; simp
  | cons a refs ih =>
    unfold forL
    rw [wlp_bind, wlp_update]
    refine (ih hn.of_cons _).mono fun _ s' h r => ?_
    rw [h r, List.getElem?_modify]
    have ha : a ∉ refs := (List.nodup_cons.1 hn).1
    cases s.heap[r]? with
    | none => rfl
    | some i =>
      by_cases hr : a = r
      · subst hr; simp [ha]
      · have : ¬ r = a := fun h => hr h.symm
        simp [hr, this]

theorem idsOf_wlp (inds : List Nat) (s : World G) :
    wlp (mapL (fun r => do let i ← deref r; pure i.id) inds)
      (fun ids s' => s' = s ∧ ids = inds.map (idAt s.heap)) s := by
  refine (ids_wlp inds s).mono ?_
  rintro ids s' ⟨h1, h2⟩
  refine ⟨h1, ?_⟩
  clear h1
  induction h2 with
  | nil => rfl
  | cons h _ ih => rw [List.map_cons, ← ih]; simp [idAt, h]

theorem record_papers (o : Op G) (ids : List Nat) (i : Ind G) (k : Nat) (all : List Nat)
    (h : ids = group o.arity k all) : (record o.name ids i).papers = i.papers.stamp all k [o] := by
  subst h
  obtain ⟨a, b, c, d, e, f, g, u, w⟩ := i
  cases u <;> simp [Papers.stamp, record, Ind.papers]

theorem setNotEvaluated_papers (inds : List Nat) (s : World G) :
    wlp (forL setNotEvaluated inds) (fun _ s' => s'.heap.map Ind.papers = s.heap.map Ind.papers) s := by
  refine wlp_forL (I := fun _ (s' : World G) => s'.heap.map Ind.papers = s.heap.map Ind.papers) rfl ?_
  intro pre r post s' _ h
  unfold setNotEvaluated
  rw [wlp_update]
  refine Eq.trans ?_ h
  exact map_modify_eq (φ := Ind.papers) (by exact fun _ => rfl) s'.heap r

/-- What one application of an operator that hands over to `hs` may amount to. -/
def Firing (hs : List (Op G)) (o : Op G) (l : List (Op G)) : Prop := l = [] ∨ ∃ h, h.Sublist hs ∧ l = h ++ [o]

theorem Firing.arity {hs : List (Op G)} {o : Op G} {l : List (Op G)} (h : Firing hs o l)
    (ha : ∀ h ∈ hs, h.arity = o.arity) : ∀ x ∈ l, x.arity = o.arity := by
  rcases h with rfl | ⟨h, hh, rfl⟩
  · simp
  · intro x hx
    rcases List.mem_append.1 hx with hx | hx
    · exact ha x (hh.subset hx)
    · rw [List.mem_singleton.1 hx]

theorem Papers.signed_nil (ids : List Nat) (p : Papers) : p.signed ids ([] : List (Op G)) = p := by
  obtain ⟨a, b, c, d, e, f, g⟩ := p
  cases f <;> simp [Papers.signed]

theorem Papers.signed_append (ids : List Nat) (l l' : List (Op G)) (p : Papers) :
    (p.signed ids l).signed ids l' = p.signed ids (l ++ l') := by
  obtain ⟨a, b, c, d, e, f, g⟩ := p
  cases f <;> simp [Papers.signed]

/-- Ids are not among the papers that change. -/
theorem idAt_map {h h' : List (Ind G)} {r : Nat} {f : Papers → Papers} (hf : ∀ p, (f p).id = p.id)
    (e : papersAt h' r = (papersAt h r).map f) : idAt h' r = idAt h r := by
  have key : ∀ h : List (Ind G), idAt h r = ((papersAt h r).map (·.id)).getD 0 := by
    intro h
    unfold idAt papersAt
    rw [Option.map_map]
    rfl
  rw [key, key, e, Option.map_map]
  congr 2
  funext p
  exact hf p

theorem Op.Discreet.discloses {o : Op G} (h : o.Discreet) : o.Discloses [] := by
  refine ⟨by simp, fun refs s _ => (h refs s).mono fun res s' ⟨h1, h2⟩ => ⟨h2, [], List.Sublist.refl _, fun r => ?_⟩⟩
  rw [papersAt_eq h1 r]
  cases papersAt s.heap r with
  | none => rfl
  | some p => simp [Papers.signed_nil]

/-- One application of an operator to a group, if the operator fires. -/
theorem applyOperator_signs {o : Op G} {hs : List (Op G)} (ho : o.Discloses hs) {inds : List Nat} (hn : inds.Nodup)
    {s : World G} {u : ℚ} {t : Tape} (hu : Rand.random s.tape = (.ok u, t)) (hp : u ≤ o.probability) :
    wlp (applyOperator o inds) (fun res s' => res = inds ∧ ∃ h : List (Op G), h.Sublist hs ∧
      ∀ r, papersAt s'.heap r = (papersAt s.heap r).map fun p => if r ∈ inds then
        p.signed (inds.map (idAt s.heap)) (h ++ [o]) else p) s := by
  unfold applyOperator
  rw [wlp_bind, wlp_rand]
  intro u' t' hu'
  rw [hu] at hu'
  cases hu'
  rw [if_pos hp, wlp_bind]
  refine (setNotEvaluated_papers inds _).mono fun _ s1 h1 => ?_
  rw [wlp_bind]
  refine (ho.2 inds s1 hn).mono ?_
  rintro res s2 ⟨hres, h, hh, h2⟩
  cases res with
  | none => simp
  | some l =>
    obtain rfl : inds = l := (hres l rfl).symm
    simp only
    rw [wlp_bind]
    refine (idsOf_wlp inds s2).mono ?_
    rintro ids _ ⟨rfl, rfl⟩
    rename_i s2
    rw [wlp_bind]
    refine (records_heap o.name _ inds hn s2).mono fun _ s3 h3 => ?_
    rw [wlp_pure]
    have e1 : ∀ r, papersAt s1.heap r = papersAt s.heap r := fun r => papersAt_eq h1 r
    have hids1 : inds.map (idAt s1.heap) = inds.map (idAt s.heap) :=
      List.map_congr_left fun r _ => idAt_eq (e1 r)
    have hids2 : inds.map (idAt s2.heap) = inds.map (idAt s1.heap) :=
      List.map_congr_left fun r _ => idAt_map (by intro p; split <;> rfl) (h2 r)
    refine ⟨rfl, h, hh, fun r => ?_⟩
    have h4 : papersAt s3.heap r = (papersAt s2.heap r).map fun p => if r ∈ inds then
        p.signed (inds.map (idAt s2.heap)) [o] else p := by
      unfold papersAt
      rw [h3 r]
      cases s2.heap[r]? with
      | none => rfl
      | some i =>
        by_cases hr : r ∈ inds
        · obtain ⟨a, b, c, d, e, f, g, u, w⟩ := i
          cases u <;> simp [hr, record, Ind.papers, Papers.signed]
        · simp [hr]
    rw [h4, h2 r, e1 r, hids2, hids1, Option.map_map]
    congr 1
    funext p
    simp only [Function.comp]
    split
    · exact Papers.signed_append _ _ _ _
    · rfl

/-- One application of an operator to a group. -/
theorem applyOperator_papers {o : Op G} {hs : List (Op G)} (ho : o.Discloses hs) {inds : List Nat} (hn : inds.Nodup)
    (s : World G) :
    wlp (applyOperator o inds) (fun res s' => res = inds ∧ ∃ l, Firing hs o l ∧
      ∀ r, papersAt s'.heap r = (papersAt s.heap r).map fun p => if r ∈ inds then
        p.signed (inds.map (idAt s.heap)) l else p) s := by
  obtain ⟨u, t, hu, -⟩ := Rand.random_ensures s.tape
  by_cases hp : u ≤ o.probability
  · refine (applyOperator_signs ho hn hu hp).mono ?_
    rintro res s' ⟨h1, h, hh, h2⟩
    exact ⟨h1, h ++ [o], Or.inr ⟨h, hh, rfl⟩, h2⟩
  · intro res s' h
    have hr : (rand Rand.random : WM G ℚ) s = (.ok u, { s with tape := t }) := by simp [rand, zoom, hu]
    unfold applyOperator at h
    rw [bind_of_ok hr, if_neg hp] at h
    cases h
    refine ⟨rfl, [], Or.inl rfl, fun r => ?_⟩
    show papersAt s.heap r = _
    cases h : papersAt s.heap r with
    | none => rfl
    | some p => simp [Papers.signed_nil]

theorem slice_group {α : Type} (xs : List α) (m a : Nat) :
    Py.slice xs ((m * a : Nat) : Int) ((m * a + a : Nat) : Int) = (xs.drop (m * a)).take a := by
  unfold Py.slice Py.clamp
  have h1 : ¬ ((m * a : Nat) : Int) < 0 := by omega
  have h2 : ¬ ((m * a + a : Nat) : Int) < 0 := by omega
  simp only [h1, h2, if_false, Int.toNat_natCast]
  by_cases hl : m * a ≤ xs.length
  · rw [Nat.min_eq_left hl]
    by_cases hl' : m * a + a ≤ xs.length
    · rw [Nat.min_eq_left hl', Nat.add_sub_cancel_left]
    · rw [Nat.min_eq_right (by omega), List.take_of_length_le, List.take_of_length_le] <;> simp <;> omega
  · rw [Nat.min_eq_right (by omega), List.drop_of_length_le (by omega), List.drop_of_length_le (by omega)]
    simp

theorem setSlice_same {α : Type} (xs : List α) (a b : Int) : Py.setSlice xs a b (Py.slice xs a b) = xs := by
  obtain ⟨A, C, h1, h2⟩ := slice_split xs a b
  rw [h2, ← h1]

theorem mem_group {xs : List Nat} (hn : xs.Nodup) {a k r m : Nat} (ha : 0 < a) (hk : xs[k]? = some r) :
    r ∈ (xs.drop (m * a)).take a ↔ k / a = m := by
  constructor
  · intro h
    obtain ⟨j, hj⟩ := List.mem_iff_getElem?.1 h
    rw [List.getElem?_take] at hj
    split at hj
    · rename_i hja
      rw [List.getElem?_drop] at hj
      obtain ⟨h1, e1⟩ := List.getElem?_eq_some_iff.1 hj
      obtain ⟨h2, e2⟩ := List.getElem?_eq_some_iff.1 hk
      have : m * a + j = k := (List.Nodup.getElem_inj_iff hn).1 (e1.trans e2.symm)
      rw [← this, Nat.mul_comm, Nat.mul_add_div ha, Nat.div_eq_of_lt hja, Nat.add_zero]
    · exact absurd hj (by simp)
  · rintro rfl
    refine List.mem_iff_getElem?.2 ⟨k % a, ?_⟩
    rw [List.getElem?_take, if_pos (Nat.mod_lt _ ha), List.getElem?_drop, Nat.mul_comm, Nat.div_add_mod, hk]

theorem group_map {α β : Type} (f : α → β) (a k : Nat) (xs : List α) :
    group a k (xs.map f) = (group a k xs).map f := by
  simp [group, List.map_drop, List.map_take]

theorem Papers.stamp_of_arity {ids : List Nat} {k a : Nat} {l : List (Op G)} (ha : ∀ x ∈ l, x.arity = a) (p : Papers) :
    p.stamp ids k l = p.signed (group a k ids) l := by
  have : l.flatMap (fun o => group o.arity k ids) = l.flatMap fun _ => group a k ids := by
    induction l with
    | nil => rfl
    | cons x l ih =>
      rw [List.flatMap_cons, List.flatMap_cons, ih fun y hy => ha y (by simp [hy]), ha x (by simp)]
  unfold Papers.stamp Papers.signed
  rw [this]

theorem Papers.stamp_append (ids : List Nat) (k : Nat) (l l' : List (Op G)) (p : Papers) :
    (p.stamp ids k l).stamp ids k l' = p.stamp ids k (l ++ l') := by
  obtain ⟨a, b, c, d, e, f, g⟩ := p
  cases f <;> simp [Papers.stamp]

/-- Applying an operator to consecutive groups. -/
theorem applyChunks_papers {o : Op G} {hs : List (Op G)} (ho : o.Discloses hs) (ha : 0 < o.arity) {inds : List Nat}
    (hn : inds.Nodup) (n m : Nat) (s : World G) :
    wlp (applyChunks o ((List.range' m n).map (· * o.arity)) inds) (fun res s' => res = inds ∧
      ∃ fired : Nat → List (Op G), (∀ g, Firing hs o (fired g)) ∧
        ∀ k r, inds[k]? = some r → papersAt s'.heap r = (papersAt s.heap r).map
          (Papers.stamp (inds.map (idAt s.heap)) k (if m ≤ k / o.arity ∧ k / o.arity < m + n then fired (k / o.arity) else []))) s := by
  induction n generalizing m s with
  | zero =>
    simp only [List.range'_zero, List.map_nil]
    unfold applyChunks
    rw [wlp_pure]
    refine ⟨rfl, fun _ => [], fun _ => Or.inl rfl, fun k r _ => ?_⟩
    cases papersAt s.heap r with
    | none => rfl
    | some p => simp [Papers.stamp_nil]
  | succ n ih =>
    rw [List.range'_succ, List.map_cons]
    unfold applyChunks
    rw [wlp_bind]
    have hsl : Py.slice inds ((m * o.arity : Nat) : Int) ((m * o.arity + o.arity : Nat) : Int) =
      (inds.drop (m * o.arity)).take o.arity := slice_group inds m o.arity
    have hnd : (Py.slice inds ((m * o.arity : Nat) : Int) ((m * o.arity + o.arity : Nat) : Int)).Nodup := by
      rw [hsl]
      exact (hn.sublist (List.drop_sublist _ _)).sublist (List.take_sublist _ _)
    refine (applyOperator_papers ho hnd s).mono ?_
    rintro res s1 ⟨rfl, f0, hf0, h1⟩
    rw [setSlice_same]
    refine (ih (m + 1) s1).mono ?_
    rintro res s2 ⟨rfl, fired, hfired, h2⟩
    refine ⟨rfl, fun g => if g = m then f0 else fired g, fun g => ?_, fun k r hk => ?_⟩
    · by_cases hg : g = m
      · simpa [hg] using hf0
      · simpa [hg] using hfired g
    have hids : res.map (idAt s1.heap) = res.map (idAt s.heap) :=
      List.map_congr_left fun r _ => idAt_map (by intro p; split <;> rfl) (h1 r)
    rw [h2 k r hk, h1 r, hids]
    cases papersAt s.heap r with
    | none => rfl
    | some p =>
      simp only [Option.map_some, Option.some.injEq]
      simp only [hsl, mem_group hn ha hk]
      by_cases hkm : k / o.arity = m
      · have h3 : ¬ m + 1 ≤ m := by omega
        have h4 : m < m + (n + 1) := by omega
        simp only [hkm, le_refl, true_and, if_true, h3, false_and, if_false, h4]
        have hg : ((res.drop (m * o.arity)).take o.arity).map (idAt s.heap) =
            group o.arity k (res.map (idAt s.heap)) := by
          rw [group_map, group, hkm]
        rw [hg, Papers.stamp_nil, Papers.stamp_of_arity (hf0.arity ho.1)]
      · simp only [hkm, if_false]
        have h3 : (m + 1 ≤ k / o.arity ∧ k / o.arity < m + 1 + n) ↔
            (m ≤ k / o.arity ∧ k / o.arity < m + (n + 1)) := by
          constructor
          · rintro ⟨a, b⟩; exact ⟨by omega, by omega⟩
          · rintro ⟨a, b⟩; exact ⟨by omega, by omega⟩
        simp only [h3]

theorem Applied.firing {hs : List (Op G)} {o : Op G} {l l' : List (Op G)} {led : List (List (Op G) × Op G)}
    (h : Firing hs o l) (h' : Applied led l') : Applied ((hs, o) :: led) (l ++ l') := by
  rcases h with rfl | ⟨h, hh, rfl⟩
  · exact .skip _ h'
  · rw [List.append_assoc]
    exact .fire o hh h'

/-- Without operators that hand over, what is applied is a part of the operators. -/
theorem applied_discreet {ops l : List (Op G)} : Applied (ops.map fun o => ([], o)) l ↔ l.Sublist ops := by
  constructor
  · intro h
    generalize hled : ops.map (fun o => (([] : List (Op G)), o)) = led at h
    induction h generalizing ops with
    | nil => cases ops with
      | nil => exact List.Sublist.refl _
      | cons => simp at hled
    | skip x h ih => cases ops with
      | nil => simp at hled
      | cons o ops =>
        simp only [List.map_cons, List.cons.injEq] at hled
        exact (ih hled.2).cons o
    | fire o hh h ih => cases ops with
      | nil => simp at hled
      | cons o ops =>
        simp only [List.map_cons, List.cons.injEq, Prod.mk.injEq] at hled
        obtain ⟨⟨rfl, rfl⟩, hled⟩ := hled
        rw [List.sublist_nil.1 hh]
        exact (ih hled).cons_cons _
  · intro h
    induction h with
    | slnil => exact .nil
    | cons a h ih => exact .skip _ ih
    | cons_cons a h ih => exact .fire (h := []) a (List.Sublist.refl _) ih

/-- What is applied are operators of the breeder or operators they hand over to. -/
theorem Applied.mem {led : List (List (Op G) × Op G)} {l : List (Op G)} (h : Applied led l) :
    ∀ x ∈ l, ∃ y ∈ led, x = y.2 ∨ x ∈ y.1 := by
  induction h with
  | nil => simp
  | skip y h ih => exact fun x hx => by obtain ⟨y, hy, h⟩ := ih x hx; exact ⟨y, by simp [hy], h⟩
  | fire o hh h ih =>
    intro x hx
    simp only [List.mem_append, List.mem_cons] at hx
    rcases hx with hx | rfl | hx
    · exact ⟨_, List.mem_cons_self, Or.inr (hh.subset hx)⟩
    · exact ⟨_, List.mem_cons_self, Or.inl rfl⟩
    · obtain ⟨y, hy, h⟩ := ih x hx
      exact ⟨y, by simp [hy], h⟩

/-- Applying all operators. -/
theorem applyOperators_papers (led : List (List (Op G) × Op G)) (ho : ∀ x ∈ led, x.2.Discloses x.1) {inds : List Nat}
    (hn : inds.Nodup) (s : World G) :
    wlp (applyOperators (led.map Prod.snd) inds) (fun res s' => res = inds ∧ ∀ k r, inds[k]? = some r →
      ∃ l : List (Op G), Applied led l ∧
        papersAt s'.heap r = (papersAt s.heap r).map (Papers.stamp (inds.map (idAt s.heap)) k l)) s := by
  induction led generalizing s with
  | nil =>
    rw [List.map_nil]
    unfold applyOperators
    rw [wlp_pure]
    refine ⟨rfl, fun k r _ => ⟨[], .nil, ?_⟩⟩
    cases papersAt s.heap r with
    | none => rfl
    | some p => simp [Papers.stamp_nil]
  | cons x led ih =>
    obtain ⟨hs, o⟩ := x
    rw [List.map_cons]
    unfold applyOperators
    dsimp only
    rw [wlp_ite]
    refine ⟨fun _ => by simp, fun h0 => ?_⟩
    rw [wlp_bind]
    have ha : 0 < o.arity := Nat.pos_of_ne_zero h0
    unfold rangeStep
    rw [List.range_eq_range']
    refine (applyChunks_papers (ho (hs, o) (by simp)) ha hn _ 0 s).mono ?_
    rintro res s1 ⟨rfl, fired, hfired, h1⟩
    refine (ih (fun o h => ho o (by simp [h])) s1).mono ?_
    rintro res s2 ⟨rfl, h2⟩
    refine ⟨rfl, fun k r hk => ?_⟩
    obtain ⟨l, hl, hp⟩ := h2 k r hk
    have hids : res.map (idAt s1.heap) = res.map (idAt s.heap) := by
      refine List.map_congr_left fun r hr => ?_
      obtain ⟨k', hk'⟩ := List.mem_iff_getElem?.1 hr
      exact idAt_stamp (h1 k' r hk')
    rw [hids] at hp
    refine ⟨_, Applied.firing (l := if 0 ≤ k / o.arity ∧ k / o.arity < 0 + (res.length + o.arity - 1) / o.arity then fired (k / o.arity) else []) ?_ hl, ?_⟩
    · split
      · exact hfired _
      · exact Or.inl rfl
    · rw [hp, h1 k r hk, Option.map_map]
      congr 1
      funext p
      exact Papers.stamp_append _ _ _ _ _

/-- Breeding: every new individual is a child of an old one. -/
theorem breedSub_papers {size : G → Nat} {c : SubCfg G} {s : World G} (hs : ∃ sel rest, c.sels = sel :: rest ∧ sel.Good ∧ sel.Fills)
    {led : List (List (Op G) × Op G)} (hl : led.map Prod.snd = c.ops) (ho : ∀ x ∈ led, x.2.Discloses x.1) {m : Mode}
    {inds : List Nat} (hm : ∀ r ∈ inds, modeAt s r = some m) :
    wlp (breedSub size c inds) (fun res s' => ∀ k r, res[k]? = some r →
      ∃ src ∈ inds, ∃ j i, s.heap[src]? = some j ∧ s'.heap[r]? = some i ∧
        Child (Applied led) (res.map (idAt s'.heap)) k j i ∧ i.gen = j.gen ∧ s.nextId ≤ i.id) s := by
  obtain ⟨sel, rest, hs, hg, hf⟩ := hs
  unfold breedSub
  rw [wlp_bind]
  refine (checkArities_wlp c.popSize _).mono ?_
  rintro _ _ ⟨rfl, -⟩
  rename_i s
  rw [wlp_bind]
  refine (select_brood hs hg hf (fun r hr => modeAt_lt (hm r hr)) hm).mono fun res s₂ ⟨hb, hc⟩ => ?_
  rw [← hl]
  refine (applyOperators_papers led ho hb.nodup s₂).mono ?_
  rintro res s₃ ⟨rfl, h3⟩ k r hk
  obtain ⟨src, hsrc, hcopy⟩ := hc r (List.mem_of_getElem? hk)
  obtain ⟨j, i, hj, hi, hid, hsig⟩ := hcopy.signed
  obtain ⟨l, hl, hp⟩ := h3 k r hk
  have hids : res.map (idAt s₃.heap) = res.map (idAt s₂.heap) := by
    refine List.map_congr_left fun r hr => ?_
    obtain ⟨k', hk'⟩ := List.mem_iff_getElem?.1 hr
    obtain ⟨l', -, hp'⟩ := h3 k' r hk'
    exact idAt_stamp hp'
  rw [← hids] at hp
  unfold papersAt at hp
  rw [hi, Option.map_some, Option.map_some] at hp
  obtain ⟨i', hi', hpi⟩ := Option.map_eq_some_iff.1 hp
  refine ⟨src, hsrc, j, i', hj, hi', ?_, ?_, ?_⟩
  · have e1 : i'.clonedFrom = i.clonedFrom := congrArg Papers.clonedFrom hpi
    have e2 : i'.updateParents = i.updateParents := congrArg Papers.updateParents hpi
    have e3 : i'.selectedBy = i.selectedBy := congrArg Papers.selectedBy hpi
    have e4 : i'.appliedOps = i.appliedOps ++ l.map (·.name) := congrArg Papers.appliedOps hpi
    have e5 : i'.parents = if i.updateParents then i.parents ++ l.flatMap (fun o => group o.arity k (res.map (idAt s₃.heap))) else i.parents :=
      congrArg Papers.parents hpi
    refine ⟨e1.trans hsig.clonedFrom, e2.trans hsig.updateParents, ?_, l, hl, ?_, ?_⟩
    · obtain ⟨name, hname⟩ := hsig.selectedBy
      exact ⟨name, e3.trans hname⟩
    · rw [e4, hsig.appliedOps]
    · rw [e5, hsig.updateParents, hsig.parents]
      by_cases hu : j.updateParents = true <;> simp [hu]
  · exact (congrArg Papers.gen hpi).trans hsig.gen
  · have : i'.id = i.id := congrArg Papers.id hpi
    omega

theorem putGenomes_papers (refs : List Nat) (gs : List G) (s : World G) :
    wlp (putGenomes refs gs) (fun _ s' => s'.heap.map Ind.papers = s.heap.map Ind.papers) s := by
  unfold putGenomes
  refine wlp_forL (I := fun _ (s' : World G) => s'.heap.map Ind.papers = s.heap.map Ind.papers) rfl ?_
  intro pre r post s' _ h
  rw [wlp_update]
  refine Eq.trans ?_ h
  exact map_modify_eq (φ := Ind.papers) (by exact fun _ => rfl) s'.heap _

/-- Operators that work in place on genomes are discreet. -/
theorem Op.inPlace_discreet (name : String) (p : ℚ) (arity : Nat) (f : List G → Rand (Option (List G))) :
    (Op.inPlace name p arity f).Discreet := by
  intro refs s
  unfold Op.inPlace
  dsimp only
  rw [wlp_bind]
  refine (genomes_wlp refs s).mono ?_
  rintro gs _ ⟨rfl, -⟩
  rename_i s
  rw [wlp_bind, wlp_rand]
  refine (wlp_true _ _).mono fun r t _ => ?_
  cases r with
  | none => rw [wlp_pure]; exact ⟨rfl, by simp⟩
  | some gs' =>
    simp only
    rw [wlp_bind]
    refine (putGenomes_papers refs gs' _).mono fun _ s' h => ?_
    rw [wlp_pure]
    exact ⟨h, by simp⟩

/-- A fallback to an operator working in place on the same number of individuals leaves that operator's traces. -/
theorem Op.withFallback_discloses (name : String) (p : ℚ) (attempts : List G → Rand (Bool × List G)) {inner : Op G}
    (hi : inner.Discreet) : (Op.withFallback name p inner.arity attempts inner).Discloses [inner] := by
  refine ⟨by simp [Op.withFallback], fun refs s hn => ?_⟩
  unfold Op.withFallback
  dsimp only
  rw [wlp_bind]
  refine (genomes_wlp refs s).mono ?_
  rintro gs _ ⟨rfl, -⟩
  rename_i s
  rw [wlp_bind, wlp_rand]
  refine (wlp_true _ _).mono fun r t _ => ?_
  obtain ⟨ok, gs'⟩ := r
  dsimp only
  rw [wlp_bind]
  refine (putGenomes_papers refs gs' _).mono fun _ s1 h1 => ?_
  have e1 : ∀ r, papersAt s1.heap r = papersAt s.heap r := fun r => papersAt_eq h1 r
  rw [wlp_ite]
  refine ⟨fun _ => ?_, fun _ => ?_⟩
  · rw [wlp_pure]
    refine ⟨by simp, [], by simp, fun r => ?_⟩
    rw [e1 r]
    cases h : papersAt s.heap r with
    | none => rfl
    | some p => simp [Papers.signed_nil]
  · rw [wlp_bind]
    refine (applyOperator_papers hi.discloses hn s1).mono ?_
    rintro l s2 ⟨rfl, app, happ, h2⟩
    rw [wlp_pure]
    have hids : l.map (idAt s1.heap) = l.map (idAt s.heap) := List.map_congr_left fun r _ => idAt_eq (e1 r)
    refine ⟨by simp, app, ?_, fun r => ?_⟩
    · rcases happ with rfl | ⟨h, hh, rfl⟩
      · simp
      · rw [List.sublist_nil.1 hh]
        exact List.Sublist.refl _
    · rw [h2 r, e1 r, hids]

/-- Evaluation leaves the papers alone. -/
theorem evaluateMap_papers (size : G → Nat) (c : SubCfg G) (order inds : List Nat) (s : World G) :
    wlp (evaluateMap size c order inds) (fun _ s' => s'.heap.map Ind.papers = s.heap.map Ind.papers) s := by
  unfold evaluateMap
  rw [wlp_bind]
  refine (executorMap_wlp order inds (I := fun s' : World G => s'.heap.map Ind.papers = s.heap.map Ind.papers) rfl
    fun r s₁ h => (runEval_wlp c r s₁).mono fun _ s₂ h2 => by rw [h2.1]; exact h).mono ?_
  rintro scores s₁ ⟨-, h1⟩
  rw [wlp_bind]
  refine (wlp_forL (I := fun _ (s' : World G) => s'.heap.map Ind.papers = s.heap.map Ind.papers) h1 ?_).mono ?_
  · intro pre p post s' _ h
    unfold setFitness
    rw [wlp_update]
    refine Eq.trans ?_ h
    exact map_modify_eq (φ := Ind.papers) (by exact fun _ => rfl) s'.heap _
  · intro _ s₂ h2
    cases inds with
    | nil => simp
    | cons b rest =>
      dsimp only
      have : ∀ (rest : List Nat) (b : Nat), wlp (bestLoop size b rest) (fun _ s' => s' = s₂) s₂ := by
        intro rest
        induction rest with
        | nil => intro b; unfold bestLoop; rw [wlp_pure]
        | cons i is ih =>
          intro b
          unfold bestLoop
          rw [wlp_bind, wlp_reading]
          exact fun v _ => ih _
      exact (this rest b).mono fun _ s₃ h => h ▸ h2

/-- Writing the generation number into the papers of the population. -/
theorem setGen_papers (gen : Nat) (refs : List Nat) (s : World G) :
    wlp (forL (fun r => update r fun i => { i with gen := gen }) refs) (fun _ s' =>
      s'.nextId = s.nextId ∧ s'.heap.length = s.heap.length ∧ ∀ r, s'.heap[r]? = (s.heap[r]?).map fun i => if r ∈ refs then { i with gen := gen } else i) s := by
  induction refs generalizing s with
  | nil => unfold forL; rw [wlp_pure]; exact ⟨rfl, rfl, fun r => by simp⟩
  | cons a refs ih =>
    unfold forL
    rw [wlp_bind, wlp_update]
    refine (ih _).mono fun _ s' ⟨h0, hl, h⟩ => ⟨h0, by simpa using hl, fun r => ?_⟩
    rw [h r, List.getElem?_modify]
    cases s.heap[r]? with
    | none => rfl
    | some i =>
      by_cases hr : a = r
      · subst hr; simp
      · have : ¬ r = a := fun h => hr h.symm
        simp [hr, this]

end Verif.Evo
