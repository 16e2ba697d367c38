import Verif.Spec.Evolution

/-! # Genetic operators on the heap -/

namespace Verif.Evo
open PyM
variable {G : Type}

theorem genomes_wlp (refs : List Nat) (s : World G) :
    wlp (genomes refs) (fun gs s' => s' = s ∧ List.Forall₂ (fun r g => genomeAt s r = some g) refs gs) s := by
  unfold genomes
  refine (wlp_mapL (I := fun rs gs s' => s' = s ∧
    List.Forall₂ (fun r g => genomeAt s r = some g) rs gs) ⟨rfl, .nil⟩ ?_)
  rintro pre r post gs s' - ⟨rfl, h⟩
  rw [wlp_bind, wlp_deref]
  intro i hi
  rw [wlp_pure]
  refine ⟨rfl, ?_⟩
  exact List.rel_append h (.cons (by simp [genomeAt, hi]) .nil)

theorem updates_ext {α : Type} (f : α → Nat) (g : α → Ind G → Ind G)
    (hg : ∀ a i, (g a i).attrs = i.attrs) (xs : List α) (s : World G) :
    wlp (forL (fun a => update (f a) (g a)) xs) (fun _ s' => Ext (fun r => ∃ a ∈ xs, f a = r) s s' ∧
      s'.heap.length = s.heap.length ∧ s'.tape = s.tape ∧ s'.nextId = s.nextId) s := by
  refine wlp_forL (I := fun ys s' => Ext (fun r => ∃ a ∈ ys, f a = r) s s' ∧
      s'.heap.length = s.heap.length ∧ s'.tape = s.tape ∧ s'.nextId = s.nextId)
    ⟨Ext.refl _ _, rfl, rfl, rfl⟩ ?_
  rintro pre a post s' - ⟨h1, h2, h3, h4⟩
  rw [wlp_update]
  refine ⟨(h1.trans (Ext.update s' (f a) (g a) (hg a))).mono ?_, by simpa using h2, h3, h4⟩
  rintro i - (⟨b, hb, rfl⟩ | rfl)
  · exact ⟨b, by simp [hb], rfl⟩
  · exact ⟨a, by simp, rfl⟩

theorem putGenomes_ext (refs : List Nat) (gs : List G) (s : World G) :
    wlp (putGenomes refs gs) (fun _ s' => Ext (· ∈ refs) s s' ∧ s'.heap.length = s.heap.length) s := by
  refine (updates_ext (fun p : Nat × G => p.1) (fun p i => { i with genome := p.2 })
    (fun _ _ => rfl) (refs.zip gs) s).mono fun _ s' h => ⟨h.1.mono ?_, h.2.1⟩
  rintro i - ⟨p, hp, rfl⟩
  exact (List.of_mem_zip hp).1

/-- Every operator that works in place on genomes meets the contract. -/
theorem Op.inPlace_good (name : String) (p : ℚ) (arity : Nat) (f : List G → Rand (Option (List G))) :
    (Op.inPlace name p arity f).Good := by
  intro refs s hv
  unfold Op.inPlace
  dsimp only
  rw [wlp_bind]
  refine (genomes_wlp refs s).mono ?_
  rintro gs _ ⟨rfl, -⟩
  rename_i s
  rw [wlp_bind, wlp_rand]
  refine (wlp_true _ _).mono fun r t _ => ?_
  cases r with
  | none => rw [wlp_pure]; exact ⟨Ext.tape _ _ _, by simp⟩
  | some gs' =>
    simp only
    rw [wlp_bind]
    refine (putGenomes_ext refs gs' _).mono ?_
    rintro _ s' ⟨h1, h2⟩
    rw [wlp_pure]
    have hext : Ext (· ∈ refs) s s' := by
      refine ((Ext.tape s t fun _ => False).trans h1).mono ?_
      rintro i - (h | h)
      · exact h.elim
      · exact h
    refine ⟨hext, fun l hl => ?_⟩
    simp only [Option.some.injEq] at hl
    subst hl
    refine ⟨rfl, fun r hr => ?_, fun r hr => .inl hr, id, fun m hm r hr => ?_⟩
    · rw [h2]; exact hv r hr
    · unfold modeAt
      rw [hext.mode (hv r hr)]
      exact hm r hr

theorem setNotEvaluated_all (inds : List Nat) (s : World G) :
    wlp (forL setNotEvaluated inds) (fun _ s' => Ext (· ∈ inds) s s' ∧
      s'.heap.length = s.heap.length ∧ s'.tape = s.tape ∧ s'.nextId = s.nextId) s := by
  refine (updates_ext (fun r : Nat => r) (fun _ i => { i with fit := i.fit.setNotEvaluated })
    (fun _ _ => rfl) inds s).mono fun _ s' h => ⟨h.1.mono ?_, h.2⟩
  rintro i - ⟨r, hr, rfl⟩
  exact hr

theorem ids_wlp (inds : List Nat) (s : World G) :
    wlp (mapL (fun r => do let i ← deref r; pure i.id) inds)
      (fun ids s' => s' = s ∧ List.Forall₂ (fun r n => (s.heap[r]?).map (·.id) = some n) inds ids) s := by
  refine (wlp_mapL (I := fun rs ns (s' : World G) => s' = s ∧
    List.Forall₂ (fun r n => (s.heap[r]?).map (fun i : Ind G => i.id) = some n) rs ns) ⟨rfl, .nil⟩ ?_)
  rintro pre r post gs s' - ⟨rfl, h⟩
  rw [wlp_bind, wlp_deref]
  intro i hi
  rw [wlp_pure]
  exact ⟨rfl, List.rel_append h (.cons (by simp [hi]) .nil)⟩

/-- What `apply_operator` does to the heap, for an operator meeting the contract. -/
theorem applyOperator_good {o : Op G} (ho : o.Good) {inds : List Nat} {s : World G}
    (hv : Valid s inds) :
    wlp (applyOperator o inds) (fun l s' => Ext (· ∈ inds) s s' ∧ l.length = inds.length ∧ Valid s' l ∧
      (∀ r ∈ l, r ∈ inds ∨ s.heap.length ≤ r) ∧ (inds.Nodup → l.Nodup) ∧
      ∀ m, (∀ r ∈ inds, modeAt s r = some m) → ∀ r ∈ l, modeAt s' r = some m) s := by
  unfold applyOperator
  rw [wlp_bind, wlp_rand]
  refine (wlp_true _ _).mono fun u t _ => ?_
  rw [wlp_ite]
  refine ⟨fun _ => ?_, fun _ => ?_⟩
  · rw [wlp_bind]
    refine (setNotEvaluated_all inds _).mono ?_
    rintro _ s1 ⟨e1, l1, -, -⟩
    rw [wlp_bind]
    have e1' : Ext (· ∈ inds) s s1 := by
      refine ((Ext.tape s t fun _ => False).trans e1).mono ?_
      rintro i - (h | h)
      · exact h.elim
      · exact h
    have hv1 : Valid s1 inds := fun r hr => lt_of_lt_of_le (hv r hr) e1'.len
    refine (ho inds s1 hv1).mono ?_
    rintro res s2 ⟨e2, hres⟩
    cases res with
    | none => simp
    | some l =>
      obtain ⟨hl, hvl, hin, hnd, hmode⟩ := hres l rfl
      simp only
      rw [wlp_bind]
      refine (ids_wlp inds s2).mono ?_
      rintro ids _ ⟨rfl, -⟩
      rename_i s2
      rw [wlp_bind]
      refine (updates_ext (fun r : Nat => r) (fun _ => record o.name ids) (fun _ _ => rfl) l s2).mono ?_
      rintro _ s3 ⟨e3, l3, -, -⟩
      rw [wlp_pure]
      refine ⟨?_, hl, fun r hr => by rw [l3]; exact hvl r hr, fun r hr => ?_, hnd, fun m hm r hr => ?_⟩
      · refine ((e1'.trans e2).trans e3).mono ?_
        rintro i hi ((h | h) | ⟨r, hr, rfl⟩)
        · exact h
        · exact h
        · rcases hin r hr with h | h
          · exact h
          · have := e1'.len; omega
      · rcases hin r hr with h | h
        · exact .inl h
        · exact .inr (le_trans e1'.len h)
      · have h2 : modeAt s2 r = some m := hmode m (fun r hr => by
          unfold modeAt; rw [e1'.mode (hv r hr)]; exact hm r hr) r hr
        unfold modeAt
        rw [e3.mode (hvl r hr)]
        exact h2
  · rw [wlp_pure]
    exact ⟨Ext.tape _ _ _, rfl, hv, fun r hr => .inl hr, id, fun m hm r hr => hm r hr⟩

/-- So does an operator that hands over to one that does. -/
theorem Op.withFallback_good (name : String) (p : ℚ) (arity : Nat) (f : List G → Rand (Bool × List G))
    {inner : Op G} (hi : inner.Good) : (Op.withFallback name p arity f inner).Good := by
  intro refs s hv
  unfold Op.withFallback
  dsimp only
  rw [wlp_bind]
  refine (genomes_wlp refs s).mono ?_
  rintro gs _ ⟨rfl, -⟩
  rename_i s
  rw [wlp_bind, wlp_rand]
  refine (wlp_true _ _).mono fun r t _ => ?_
  obtain ⟨b, gs'⟩ := r
  dsimp only
  rw [wlp_bind]
  refine (putGenomes_ext refs gs' _).mono ?_
  rintro _ s' ⟨h1, h2⟩
  have hext : Ext (· ∈ refs) s s' := by
    refine ((Ext.tape s t fun _ => False).trans h1).mono ?_
    rintro i - (h | h)
    · exact h.elim
    · exact h
  have hm' : ∀ m, (∀ r ∈ refs, modeAt s r = some m) → ∀ r ∈ refs, modeAt s' r = some m := by
    intro m hm r hr
    unfold modeAt
    rw [hext.mode (hv r hr)]
    exact hm r hr
  have hv' : Valid s' refs := fun r hr => by rw [h2]; exact hv r hr
  rw [wlp_ite]
  refine ⟨fun _ => ?_, fun _ => ?_⟩
  · rw [wlp_pure]
    refine ⟨hext, fun l hl => ?_⟩
    simp only [Option.some.injEq] at hl
    subst hl
    exact ⟨rfl, hv', fun r hr => .inl hr, id, hm'⟩
  · rw [wlp_bind]
    refine (applyOperator_good hi hv').mono ?_
    rintro l s'' ⟨e, g1, g2, g3, g4, g5⟩
    rw [wlp_pure]
    refine ⟨(hext.trans e).mono ?_, fun l' hl => ?_⟩
    · rintro i - (h | h) <;> exact h
    · simp only [Option.some.injEq] at hl
      subst hl
      refine ⟨g1, g2, fun r hr => ?_, g4, fun m hm => g5 m (hm' m hm)⟩
      rcases g3 r hr with h | h
      · exact .inl h
      · exact .inr (le_trans hext.len h)

end Verif.Evo
