import Verif.Props.Selection

/-! # Lemmas about breeding -/

namespace Verif.Evo
open PyM
variable {G : Type} {size : G → Nat} {s s' : World G}

theorem slice_split {α : Type} (xs : List α) (a b : Int) :
    ∃ A C, xs = A ++ Py.slice xs a b ++ C ∧ ∀ ys, Py.setSlice xs a b ys = A ++ ys ++ C := by
  refine ⟨xs.take (Py.clamp xs.length a),
    xs.drop (max (Py.clamp xs.length a) (Py.clamp xs.length b)), ?_, fun ys => rfl⟩
  unfold Py.slice
  have h : max (Py.clamp xs.length a) (Py.clamp xs.length b) =
      Py.clamp xs.length a + (Py.clamp xs.length b - Py.clamp xs.length a) := by omega
  rw [h, ← List.drop_drop, List.append_assoc, List.take_append_drop, List.take_append_drop]

/-- A brood: `n` distinct individuals created after `base`, all compared in the same way `m`; nothing that
existed at `base` has been modified. -/
structure Brood (base : World G) (n : Nat) (m : Mode) (s : World G) (inds : List Nat) : Prop where
  ext : Ext (fun _ => False) base s
  length : inds.length = n
  nodup : inds.Nodup
  fresh : ∀ r ∈ inds, base.heap.length ≤ r
  valid : Valid s inds
  mode : ∀ r ∈ inds, modeAt s r = some m

theorem applyOperator_brood {base : World G} {n : Nat} {m : Mode} {o : Op G} (ho : o.Good)
    {inds : List Nat} (hb : Brood base n m s inds) (a b : Int) :
    wlp (applyOperator o (Py.slice inds a b)) (fun res s' =>
      Brood base n m s' (Py.setSlice inds a b res)) s := by
  obtain ⟨A, C, hsplit, hset⟩ := slice_split inds a b
  set sl := Py.slice inds a b with hsl
  have hsub : ∀ r ∈ sl, r ∈ inds := fun r hr => by rw [hsplit]; simp [hr]
  have hv : Valid s sl := fun r hr => hb.valid r (hsub r hr)
  have hnd := hb.nodup
  rw [hsplit, List.nodup_append, List.nodup_append] at hnd
  obtain ⟨⟨hA, hsl', hAsl⟩, hC, hAC⟩ := hnd
  refine (applyOperator_good ho hv).mono ?_
  rintro l s' ⟨e, hlen, hval, hin, hnodup, hmode⟩
  rw [hset]
  have hAv : ∀ r ∈ A, r ∈ inds ∧ r ∉ sl := fun r hr =>
    ⟨by rw [hsplit]; simp [hr], fun h => hAsl r hr r h rfl⟩
  have hCv : ∀ r ∈ C, r ∈ inds ∧ r ∉ sl := fun r hr =>
    ⟨by rw [hsplit]; simp [hr], fun h => hAC r (by simp [h]) r hr rfl⟩
  have hlv : ∀ r ∈ l, r ∈ sl ∨ s.heap.length ≤ r := hin
  have hdisjA : ∀ r ∈ A, r ∉ l := by
    intro r hr hl
    rcases hlv r hl with h | h
    · exact (hAv r hr).2 h
    · have := hb.valid r (hAv r hr).1; omega
  have hdisjC : ∀ r ∈ C, r ∉ l := by
    intro r hr hl
    rcases hlv r hl with h | h
    · exact (hCv r hr).2 h
    · have := hb.valid r (hCv r hr).1; omega
  have hmodeOut : ∀ r ∈ inds, r ∉ sl → modeAt s' r = some m := by
    intro r hr hn
    unfold modeAt
    rw [e.same r (hb.valid r hr) hn]
    exact hb.mode r hr
  refine ⟨?_, ?_, ?_, ?_, ?_, ?_⟩
  · refine (hb.ext.trans e).mono ?_
    rintro i hi (h | h)
    · exact h
    · have := hb.fresh i (hsub i h); omega
  · have := hb.length
    rw [hsplit] at this
    simp only [List.length_append] at this ⊢
    omega
  · rw [List.nodup_append, List.nodup_append]
    refine ⟨⟨hA, hnodup hsl', ?_⟩, hC, ?_⟩
    · rintro x hx y hy rfl; exact hdisjA x hx hy
    · rintro x hx y hy rfl
      simp only [List.mem_append] at hx
      rcases hx with hx | hx
      · exact hAC x (by simp [hx]) x hy rfl
      · exact hdisjC x hy hx
  · intro r hr
    simp only [List.mem_append] at hr
    rcases hr with (hr | hr) | hr
    · exact hb.fresh r (hAv r hr).1
    · rcases hlv r hr with h | h
      · exact hb.fresh r (hsub r h)
      · exact hb.ext.len.trans h
    · exact hb.fresh r (hCv r hr).1
  · intro r hr
    simp only [List.mem_append] at hr
    rcases hr with (hr | hr) | hr
    · exact lt_of_lt_of_le (hb.valid r (hAv r hr).1) e.len
    · exact hval r hr
    · exact lt_of_lt_of_le (hb.valid r (hCv r hr).1) e.len
  · intro r hr
    simp only [List.mem_append] at hr
    rcases hr with (hr | hr) | hr
    · exact hmodeOut r (hAv r hr).1 (hAv r hr).2
    · exact hmode m (fun r hr => hb.mode r (hsub r hr)) r hr
    · exact hmodeOut r (hCv r hr).1 (hCv r hr).2

theorem applyChunks_brood {base : World G} {n : Nat} {m : Mode} {o : Op G} (ho : o.Good)
    (is : List Nat) {inds : List Nat} (hb : Brood base n m s inds) :
    wlp (applyChunks o is inds) (fun res s' => Brood base n m s' res) s := by
  induction is generalizing s inds with
  | nil => unfold applyChunks; rw [wlp_pure]; exact hb
  | cons i is ih =>
    unfold applyChunks
    rw [wlp_bind]
    exact (applyOperator_brood ho hb _ _).mono fun res s' h => ih h

theorem applyOperators_brood {base : World G} {n : Nat} {m : Mode} (os : List (Op G))
    (ho : ∀ o ∈ os, o.Good) {inds : List Nat} (hb : Brood base n m s inds) :
    wlp (applyOperators os inds) (fun res s' => Brood base n m s' res) s := by
  induction os generalizing s inds with
  | nil => unfold applyOperators; rw [wlp_pure]; exact hb
  | cons o os ih =>
    unfold applyOperators
    rw [wlp_ite]
    refine ⟨fun _ => by simp, fun _ => ?_⟩
    rw [wlp_bind]
    exact (applyChunks_brood (ho o (by simp)) _ hb).mono fun res s' h =>
      ih (fun o h => ho o (by simp [h])) h

theorem checkArities_wlp {σ : Type} {s : σ} (n : Nat) (as : List Nat) :
    wlp (checkArities n as) (fun _ s' => s' = s ∧ ∀ a ∈ as, a ≠ 0 ∧ a ∣ n) s := by
  induction as with
  | nil => unfold checkArities; simp
  | cons a as ih =>
    unfold checkArities
    rw [wlp_ite]
    refine ⟨fun _ => by simp, fun h0 => ?_⟩
    rw [wlp_ite]
    refine ⟨fun _ => by simp, fun h1 => ?_⟩
    refine ih.mono ?_
    rintro _ s' ⟨rfl, h⟩
    refine ⟨rfl, fun b hb => ?_⟩
    simp only [List.mem_cons] at hb
    rcases hb with rfl | hb
    · simp only [ne_eq, not_not] at h1
      exact ⟨h0, Nat.dvd_of_mod_eq_zero h1⟩
    · exact h b hb

/-- The individuals chosen for the next generation, before the operators are applied. -/
theorem select_brood {c : SubCfg G} {sel : Sel G} {rest : List (Sel G)} (hs : c.sels = sel :: rest) (hg : sel.Good) (hf : sel.Fills) {m : Mode}
    {inds : List Nat} (hv : Valid s inds) (hm : ∀ r ∈ inds, modeAt s r = some m) :
    wlp (selectStage size c inds) (fun res s' => Brood s inds.length m s' res ∧
          ∀ r ∈ res, ∃ src ∈ inds, CopyOf s s' src r) s := by
  unfold selectStage
  rw [wlp_bind, hs]
  have hnext : wlp (eliteStage size c inds)
      (fun next s' => Ext (fun _ => False) s s' ∧ next.Nodup ∧ next.length ≤ inds.length ∧
        ∀ r ∈ next, ∃ src ∈ inds, CopyOf s s' src r) s := by
    unfold eliteStage
    rw [wlp_ite]
    refine ⟨fun _ => ?_, fun _ => by rw [wlp_pure]; exact ⟨Ext.refl _ _, by simp, by simp, by simp⟩⟩
    refine (elitism_wlp c.nElite c.hib inds [] hv).mono ?_
    rintro res s' ⟨e, new, rfl, h1, h2, h3⟩
    exact ⟨e, by simpa using h1, by simpa [h2] using prefixLength_le _ _, by simpa using h3⟩
  refine hnext.mono ?_
  rintro next s₁ ⟨e1, hnd, hlen, hcopy⟩
  have hv1 : Valid s₁ inds := fun r hr => lt_of_lt_of_le (hv r hr) e1.len
  have hvn : Valid s₁ next := fun r hr => by
    obtain ⟨_, _, hc⟩ := hcopy r hr
    exact hc.valid
  refine ((hg inds next s₁ hv1 hvn).and (hf inds next s₁)).mono ?_
  rintro res s₂ ⟨⟨e2, new, rfl, hnd2, hcopy2⟩, hfill⟩
  have e : Ext (fun _ => False) s s₂ := (e1.trans e2).mono (by simp)
  have hall : ∀ r ∈ next ++ new, ∃ src ∈ inds, CopyOf s s₂ src r := by
    intro r hr
    simp only [List.mem_append] at hr
    rcases hr with hr | hr
    · obtain ⟨src, hsrc, hc⟩ := hcopy r hr
      exact ⟨src, hsrc, hc.right e2 fun h => h⟩
    · obtain ⟨src, hsrc, hc⟩ := hcopy2 r hr
      exact ⟨src, hsrc, hc.left e1 (hv src hsrc) fun h => h⟩
  refine ⟨⟨e, by rw [hfill]; omega, ?_, ?_, ?_, ?_⟩, hall⟩
  · rw [List.nodup_append]
    refine ⟨hnd, hnd2, ?_⟩
    rintro x hx y hy rfl
    obtain ⟨_, _, hc⟩ := hcopy2 x hy
    have := hc.fresh
    have := hvn x hx
    omega
  · intro r hr
    obtain ⟨_, _, hc⟩ := hall r hr
    exact hc.fresh
  · intro r hr
    obtain ⟨_, _, hc⟩ := hall r hr
    exact hc.valid
  · intro r hr
    obtain ⟨src, hsrc, hc⟩ := hall r hr
    rw [hc.mode]
    exact hm src hsrc

theorem breedSub_brood {c : SubCfg G} {sel : Sel G} {rest : List (Sel G)} (hs : c.sels = sel :: rest)
    (hg : sel.Good) (hf : sel.Fills) (ho : ∀ o ∈ c.ops, o.Good) {m : Mode}
    {inds : List Nat} (hv : Valid s inds) (hm : ∀ r ∈ inds, modeAt s r = some m) :
    wlp (breedSub size c inds) (fun res s' => Brood s inds.length m s' res) s := by
  unfold breedSub
  rw [wlp_bind]
  refine (checkArities_wlp c.popSize _).mono ?_
  rintro _ _ ⟨rfl, -⟩
  rename_i s
  rw [wlp_bind]
  exact (select_brood hs hg hf hv hm).mono fun res s₂ h2 => applyOperators_brood c.ops ho h2.1

end Verif.Evo
