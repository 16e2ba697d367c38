import Verif.Lemmas.VecCrossover

/-! # C16, C17: k-point crossover -/

namespace Verif.GA
open PyM

/-- The candidates for cut points of a vector with `n` cells: `range(1, n)`. -/
theorem sorted_points {n k : Nat} {s : List Nat}
    (hs : s.Subperm ((List.range (n - 1)).map (· + 1))) (hk : s.length = k) :
    (Py.sorted s).Pairwise (· < ·) ∧ (Py.sorted s).length = k ∧
      (∀ x ∈ Py.sorted s, 1 ≤ x ∧ x < n) := by
  have hnd : s.Nodup := by
    obtain ⟨l, hp, hl⟩ := hs
    rw [← hp.nodup_iff]
    refine hl.nodup ?_
    rw [List.nodup_map_iff (fun a b h => by simpa using h)]
    exact List.nodup_range
  have hperm := Py.sorted_perm s
  have hle := Py.sorted_pairwise s
  refine ⟨?_, by rw [hperm.length_eq, hk], ?_⟩
  · have hnd' : (Py.sorted s).Pairwise (· ≠ ·) := hperm.nodup_iff.2 hnd
    exact (hle.and hnd').imp fun h => by omega
  · intro x hx
    have := hs.subset (hperm.mem_iff.1 hx)
    simp only [List.mem_map, List.mem_range] at this
    omega

/-- What one run of the crossover does, in terms of the drawn cut points. -/
theorem kPointApply_run {k : Nat} {a b : Vec} {others : List Vec} (hab : a.size = b.size)
    (hk : k < a.size) {t t' : Tape} {s : List Nat}
    (hs : Rand.sample k ((List.range (a.size - 1)).map (· + 1)) t = (.ok s, t')) :
    ∃ w1 w2, kPointApply k (a :: b :: others) t =
        (.ok ({ a with vector := w1 } :: { b with vector := w2 } :: others), t') ∧
      ExchangedAt (segs a.size (k + 1) (some 0) (Py.sorted s ++ [a.size]))
        a.vector b.vector w1 w2 := by
  obtain ⟨hsub, hlen⟩ := Rand.sample_post _ _ _ _ _ hs
  obtain ⟨hp, hl, hr⟩ := sorted_points hsub hlen
  have hp' : (Py.sorted s ++ [a.size]).Pairwise (· < ·) := by
    rw [List.pairwise_append]
    exact ⟨hp, by simp, fun x hx y hy => by simp at hy; subst hy; exact (hr x hx).2⟩
  obtain ⟨w1, w2, hrun, hex⟩ := swapLoop_exchanged (k + 1) (Py.sorted s ++ [a.size]) (some 0)
    a.vector b.vector hab (by unfold Vec.size at hk; omega) hp'
    (fun x hx => by
      simp only [List.mem_append, List.mem_singleton] at hx
      rcases hx with hx | rfl
      · have := (hr x hx).2; unfold Vec.size at this; omega
      · exact le_refl _)
    (fun x hx => by simp at hx; omega) (by simp)
  refine ⟨w1, w2, ?_, hex⟩
  unfold kPointApply
  rw [bind_ok]
  refine ⟨s, t', hs, ?_⟩
  simp only
  rw [bind_ok]
  refine ⟨(w1, w2), t', ?_, rfl⟩
  have : swapVectorParts k a.vector b.vector (Py.sorted s) = .ok (w1, w2) := by
    unfold swapVectorParts
    simp only [hl, if_true, List.length_append, List.length_singleton]
    exact hrun
  rw [PyM.ofExcept, this]

/-- **C16.** Crossing two vectors of equal length (with fewer cut points than cells) always returns
two vectors of that length, and at every index the two children hold the same two genes as the
parents, in the same or in swapped order.  Nothing else about the individuals changes. -/
theorem C16_genes_conserved (k : Nat) (a b : Vec) (others : List Vec) (hab : a.size = b.size)
    (hk : k < a.size) :
    Ensures (kPointApply k (a :: b :: others)) fun out =>
      ∃ w1 w2, out = { a with vector := w1 } :: { b with vector := w2 } :: others ∧
        w1.length = a.vector.length ∧ w2.length = b.vector.length ∧
        ∀ i : Nat, (w1[i]? = a.vector[i]? ∧ w2[i]? = b.vector[i]?) ∨
          (w1[i]? = b.vector[i]? ∧ w2[i]? = a.vector[i]?) := by
  intro t
  obtain ⟨s, t', hs, -⟩ := Rand.sample_ensures k ((List.range (a.size - 1)).map (· + 1))
    (by simp; omega) t
  obtain ⟨w1, w2, hrun, hex⟩ := kPointApply_run (others := others) hab hk hs
  refine ⟨_, t', hrun, w1, w2, rfl, hex.1, hex.2.1, fun i => ?_⟩
  by_cases h : segs a.size (k + 1) (some 0) (Py.sorted s ++ [a.size]) i
  · exact .inr ((hex.2.2 i).1 h)
  · exact .inl ((hex.2.2 i).2 h)

/-- **C16, bounds.** If both parents are within the same bounds, so are the children. -/
theorem C16_bounds_preserved (k : Nat) (a b : Vec) (others : List Vec) (hab : a.size = b.size)
    (hk : k < a.size) (hb : a.bounds = b.bounds) (ha : a.InBounds) (hb' : b.InBounds) :
    Ensures (kPointApply k (a :: b :: others)) fun out =>
      ∃ a' b', out = a' :: b' :: others ∧ a'.InBounds ∧ b'.InBounds := by
  refine (C16_genes_conserved k a b others hab hk).mono ?_
  rintro out ⟨w1, w2, rfl, -, -, h⟩
  refine ⟨_, _, rfl, fun i x hx => ?_, fun i x hx => ?_⟩
  · simp only at hx ⊢
    rcases h i with h | h
    · exact ha i x (h.1 ▸ hx)
    · obtain ⟨lo, hi, hat, hle⟩ := hb' i x (h.1 ▸ hx)
      exact ⟨lo, hi, hb ▸ hat, hle⟩
  · simp only at hx ⊢
    rcases h i with h | h
    · exact hb' i x (h.2 ▸ hx)
    · obtain ⟨lo, hi, hat, hle⟩ := ha i x (h.2 ▸ hx)
      exact ⟨lo, hi, hb ▸ hat, hle⟩

/-- **C16, too many points.** With at least as many cut points as cells the crossover raises
`ValueError` (and nothing is changed). -/
theorem C16_too_many_points (k : Nat) (a : Vec) (rest : List Vec) (hk : a.size ≤ k) (hk0 : 0 < k)
    (t : Tape) : kPointApply k (a :: rest) t = (.error .valueError, t) := by
  unfold kPointApply
  rw [bind_error]
  exact .inl (Rand.sample_raises _ _ (by simp; omega) t)

/-- Two parents of six cells. -/
def Sample.six1 : Vec := ⟨.int, .tup [0, 20], 6, [1, 2, 3, 4, 5, 6]⟩
def Sample.six2 : Vec := ⟨.int, .tup [0, 20], 6, [11, 12, 13, 14, 15, 16]⟩

example : Sample.six1.size = Sample.six2.size ∧ 2 < Sample.six1.size ∧
    Sample.six1.bounds = Sample.six2.bounds := by decide

example : Sample.six1.InBounds ∧ Sample.six2.InBounds := by
  have key : ∀ xs : List ℚ, (∀ x ∈ xs, 0 ≤ x ∧ x ≤ 20) →
      Vec.InBounds ⟨.int, .tup [0, 20], 6, xs⟩ := fun xs h i x hx =>
    ⟨0, 20, rfl, h x (List.mem_of_getElem? hx)⟩
  exact ⟨key _ (by simp; norm_num), key _ (by simp; norm_num)⟩

/-- The statement of C17: whatever distinct cut points are drawn, the children exchange exactly the
segments `[0,p1), [p2,p3), …`. -/
def C17_statement : Prop :=
  ∀ (k : Nat) (a b : Vec) (others : List Vec) (t t' : Tape) (s : List Nat), a.size = b.size →
    k < a.size → Rand.sample k ((List.range (a.size - 1)).map (· + 1)) t = (.ok s, t') →
    ∃ w1 w2, kPointApply k (a :: b :: others) t =
        (.ok ({ a with vector := w1 } :: { b with vector := w2 } :: others), t') ∧
      ExchangedAt (InExchangedSegment s) a.vector b.vector w1 w2

/-- **C17 is false for k = 2.** On six cells with cut points 3 and 4, the segment `[4,6)` should be
exchanged, but only its last cell is. -/
theorem C17_refuted : ¬ C17_statement := by
  intro h
  let t : Tape := fun n => if n = 0 then 2 else if n = 1 then 2 else 0
  have hs : (Rand.sample 2 ((List.range (Sample.six1.size - 1)).map (· + 1)) t).1 = .ok [3, 4] := by
    decide
  have hrun : (kPointApply 2 [Sample.six1, Sample.six2] t).1 =
      .ok [{ Sample.six1 with vector := [11, 12, 13, 4, 5, 16] },
        { Sample.six2 with vector := [1, 2, 3, 14, 15, 6] }] := by decide +kernel
  obtain ⟨w1, w2, h1, h2⟩ := h 2 Sample.six1 Sample.six2 [] t _ [3, 4] rfl (by decide) (Prod.ext hs rfl)
  rw [h1] at hrun
  simp only [Except.ok.injEq, List.cons.injEq, Vec.mk.injEq] at hrun
  obtain ⟨⟨-, -, -, hw1⟩, -⟩ := hrun
  have := ((h2.2.2 4).1 (by unfold InExchangedSegment; decide)).1
  rw [hw1] at this
  revert this
  decide

/-- **C17, what holds (partial).** The segments are exchanged exactly as documented whenever every
cut point that ends an exchanged segment and is followed by another exchanged segment is at most `k`.
Missing: the other draws with `k ≥ 2`, for which the statement is false. -/
theorem C17_segments_partial (k : Nat) (a b : Vec) (others : List Vec) (t t' : Tape) (s : List Nat)
    (hab : a.size = b.size) (hk : k < a.size)
    (hs : Rand.sample k ((List.range (a.size - 1)).map (· + 1)) t = (.ok s, t'))
    (hgood : ∀ j e, 2 * j + 2 ≤ k → (Py.sorted s)[2 * j]? = some e → e ≤ k) :
    ∃ w1 w2, kPointApply k (a :: b :: others) t =
        (.ok ({ a with vector := w1 } :: { b with vector := w2 } :: others), t') ∧
      ExchangedAt (InExchangedSegment s) a.vector b.vector w1 w2 := by
  obtain ⟨w1, w2, hrun, hex⟩ := kPointApply_run (others := others) hab hk hs
  refine ⟨w1, w2, hrun, hex.congr hab fun i hi => ?_⟩
  obtain ⟨hsub, hlen⟩ := Rand.sample_post _ _ _ _ _ hs
  obtain ⟨hp, hl, hr⟩ := sorted_points hsub hlen
  rw [segs_iff_even (n := a.size) (Py.sorted s ++ [a.size]) 0]
  · simp only [Nat.zero_le, true_and, InExchangedSegment, List.filter_append]
    rw [show [a.size].filter (fun x => decide (x ≤ i)) = [] by simp; exact hi, List.append_nil,
      ((Py.sorted_perm s).filter _).length_eq]
  · rw [List.pairwise_append]
    exact ⟨hp, by simp, fun x hx y hy => by simp at hy; subst hy; exact (hr x hx).2⟩
  · intro x hx
    simp only [List.mem_append, List.mem_singleton] at hx
    rcases hx with hx | rfl
    · have := (hr x hx).1; omega
    · omega
  · simp
  · intro x hx; simp at hx; omega
  · intro j e hj he
    simp only [List.length_append, hl, List.length_singleton] at hj
    rw [List.getElem?_append_left (by omega)] at he
    have := hgood j e (by omega) he
    omega
  · exact hi

/-- **C17 for one cut point** (the default): the children exchange exactly the cells before the cut
point and keep the others. -/
theorem C17_one_point_partial (a b : Vec) (others : List Vec) (t t' : Tape) (p : Nat)
    (hab : a.size = b.size) (hk : 1 < a.size)
    (hs : Rand.sample 1 ((List.range (a.size - 1)).map (· + 1)) t = (.ok [p], t')) :
    ∃ w1 w2, kPointApply 1 (a :: b :: others) t =
        (.ok ({ a with vector := w1 } :: { b with vector := w2 } :: others), t') ∧
      ExchangedAt (fun i => i < p) a.vector b.vector w1 w2 := by
  obtain ⟨w1, w2, hrun, hex⟩ := C17_segments_partial 1 a b others t t' [p] hab hk hs
    (fun j e hj => by omega)
  refine ⟨w1, w2, hrun, hex.congr hab fun i _ => ?_⟩
  simp only [InExchangedSegment, List.filter_cons, List.filter_nil]
  split <;> simp_all

/-- **C17, what the code really does**, for every number of points: with `P` the ascending cut points
followed by the length `n`, the children exchange `[0,P0)` and, for every later segment
`[P(2j+1),P(2j+2))`, the whole segment if `P(2j) ≤ k`, and otherwise only its last cell if it reaches
the end of the vector (nothing if it does not). -/
theorem C17_actual_segments_partial (k : Nat) (a b : Vec) (others : List Vec) (t t' : Tape) (s : List Nat)
    (hab : a.size = b.size) (hk : k < a.size)
    (hs : Rand.sample k ((List.range (a.size - 1)).map (· + 1)) t = (.ok s, t')) :
    let P := Py.sorted s ++ [a.size]
    ∃ w1 w2, kPointApply k (a :: b :: others) t =
        (.ok ({ a with vector := w1 } :: { b with vector := w2 } :: others), t') ∧
      ExchangedAt (fun i => (∃ e, P[0]? = some e ∧ i < e) ∨
        ∃ j e p e', P[2 * j]? = some e ∧ P[2 * j + 1]? = some p ∧ P[2 * j + 2]? = some e' ∧
          ((e ≤ k ∧ p ≤ i ∧ i < e') ∨ (k < e ∧ e' = a.size ∧ i + 1 = a.size)))
        a.vector b.vector w1 w2 := by
  intro P
  obtain ⟨w1, w2, hrun, hex⟩ := kPointApply_run (others := others) hab hk hs
  refine ⟨w1, w2, hrun, hex.congr hab fun i _ => ?_⟩
  have key : ∀ (xs : List Nat) (start : Option Nat), segs a.size (k + 1) start xs i ↔
      (∃ e, xs[0]? = some e ∧ seg a.size start e i) ∨
        ∃ j e p e', xs[2 * j]? = some e ∧ xs[2 * j + 1]? = some p ∧ xs[2 * j + 2]? = some e' ∧
          ((e ≤ k ∧ p ≤ i ∧ i < e') ∨ (k < e ∧ e' = a.size ∧ i + 1 = a.size)) := by
    intro xs
    induction xs using List.twoStepInduction with
    | nil => intro start; simp [segs]
    | singleton e => intro start; simp [segs]
    | cons_cons e nxt rest ih _ =>
      intro start
      rw [segs, ih]
      constructor
      · rintro (h | ⟨e', he', h⟩ | ⟨j, e1, p, e2, h1, h2, h3, h4⟩)
        · exact .inl ⟨e, rfl, h⟩
        · refine .inr ⟨0, e, nxt, e', rfl, rfl, by simpa using he', ?_⟩
          by_cases hek : e < k + 1
          · rw [if_pos hek] at h; exact .inl ⟨by omega, h⟩
          · rw [if_neg hek] at h; exact .inr ⟨by omega, h⟩
        · refine .inr ⟨j + 1, e1, p, e2, ?_, ?_, ?_, h4⟩
          · rw [show 2 * (j + 1) = 2 * j + 1 + 1 by ring]; simpa using h1
          · rw [show 2 * (j + 1) + 1 = 2 * j + 1 + 1 + 1 by ring]; simpa using h2
          · rw [show 2 * (j + 1) + 2 = 2 * j + 2 + 1 + 1 by ring]; simpa using h3
      · rintro (⟨e', he', h⟩ | ⟨j, e1, p, e2, h1, h2, h3, h4⟩)
        · simp at he'; subst he'; exact .inl h
        · cases j with
          | zero =>
            simp at h1 h2 h3
            subst h1 h2
            refine .inr (.inl ⟨e2, by simpa using h3, ?_⟩)
            rcases h4 with h4 | h4
            · rw [if_pos (by omega)]; exact h4.2
            · rw [if_neg (by omega)]; exact h4.2
          | succ j =>
            rw [show 2 * (j + 1) = 2 * j + 1 + 1 by ring] at h1 h2 h3
            exact .inr (.inr ⟨j, e1, p, e2, by simpa using h1, by simpa using h2,
              by simpa using h3, h4⟩)
  rw [key]
  simp [seg, P]

/-- Cut points 1 and 4 of six cells satisfy the hypotheses of `C17_segments_partial`. -/
example : (Rand.sample 2 ((List.range (Sample.six1.size - 1)).map (· + 1))
    (fun n => if n = 0 then 0 else 2)).1 = .ok [1, 4] ∧
    ∀ (j : Nat) (e : Nat), 2 * j + 2 ≤ 2 → (Py.sorted [1, 4])[2 * j]? = some e → e ≤ 2 := by
  refine ⟨by decide, fun j e hj he => ?_⟩
  obtain rfl : j = 0 := by omega
  have : Py.sorted [1, 4] = [1, 4] := by decide
  rw [this] at he
  simp at he; omega

end Verif.GA
