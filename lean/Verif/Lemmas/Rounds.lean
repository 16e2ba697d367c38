import Verif.Lemmas.Fronts

/-! # Correctness of the loop of `_select` -/

namespace Verif.Moo

/-- Domination of individuals with the objectives `vec`. -/
def Dominates (dirs : List Bool) (vec : Nat → List ℚ) (x y : Nat) : Prop := Pareto dirs (vec x) (vec y)

/-- After sorting, the fitness objects of the first `K` layers of `S` carry the number of their layer, counted
from 1, and the crowding of the layer; nothing else has changed. -/
structure Sorted (dirs : List Bool) (vec : Nat → List ℚ) (S : List Nat) (h0 : Heap) (K : Nat) (h : Heap) : Prop where
  other : ∀ r, r ∉ S ∨ Rest (Dominates dirs vec) S K r → h r = h0 r
  ranked : ∀ j < K, ∀ r, Layer (Dominates dirs vec) S j r →
    ∃ c, h r = { h0 r with crowding := c, rank := some (j + 1) }
  crowded : ∀ j < K, ∃ front : List Nat, front ≠ [] ∧ front.Nodup ∧ (∀ r, r ∈ front ↔ Layer (Dominates dirs vec) S j r) ∧
    Crowded vec dirs.length front (fun r => (h r).crowding)

/-- The individuals taken in `K` rounds: all of the first `K - 1` layers, and some of the last one, none of them
with less crowding than one of that layer that was not taken. -/
structure Chosen (D : Nat → Nat → Prop) (S : List Nat) (K : Nat) (h : Heap) (dest : List Nat) : Prop where
  nodup : dest.Nodup
  mem : ∀ x ∈ dest, x ∈ S ∧ ¬ Rest D S K x
  all : ∀ x ∈ S, ¬ Rest D S (K - 1) x → x ∈ dest
  best : ∀ x y, x ∈ dest → y ∉ dest → Layer D S (K - 1) x → Layer D S (K - 1) y →
    (h y).crowding.le (h x).crowding = true
  last : 0 < K → ∃ x ∈ dest, Layer D S (K - 1) x

/-- The state at the start of round `k`, when all fronts before were taken completely. -/
structure Loop (dirs : List Bool) (vec : Nat → List ℚ) (S : List Nat) (h0 : Heap) (E : List (Nat × Nat)) (k : Nat)
    (s : SortState) : Prop where
  rank : s.rank = k + 1
  source : ∀ x, x ∈ s.source ↔ Rest (Dominates dirs vec) S k x
  perm : (s.dest ++ s.source).Perm S
  dom : s.dom.Holds E s.dest
  sorted : Sorted dirs vec S h0 k s.heap

theorem Crowded.congr {vec : Nat → List ℚ} {m : Nat} {front : List Nat} {c c' : Nat → Crowd}
    (h : Crowded vec m front c) (he : ∀ r ∈ front, c' r = c r) : Crowded vec m front c' := by
  obtain ⟨L, h1, h2⟩ := h
  exact ⟨L, h1, fun r hr => by rw [he r hr]; exact h2 r hr⟩

theorem Crowded.perm {vec : Nat → List ℚ} {m : Nat} {front front' : List Nat} {c : Nat → Crowd}
    (h : Crowded vec m front c) (hp : front'.Perm front) : Crowded vec m front' c := by
  obtain ⟨L, h1, h2⟩ := h
  exact ⟨L, fun j hj => ⟨(h1 j hj).1.trans hp.symm, (h1 j hj).2⟩, fun r hr => h2 r (hp.mem_iff.1 hr)⟩

variable {dirs : List Bool} {vec : Nat → List ℚ} {S : List Nat} {h0 : Heap} {E : List (Nat × Nat)} {k : Nat}
  {s : SortState} {popSize : Int} {order : Nat → List Nat → List Nat}

theorem Loop.dest_mem (hl : Loop dirs vec S h0 E k s) (hS : S.Nodup) {x : Nat} :
    x ∈ s.dest ↔ x ∈ S ∧ ¬ Rest (Dominates dirs vec) S k x := by
  have hn := (hl.perm.nodup_iff.2 hS)
  rw [List.nodup_append] at hn
  constructor
  · intro hx
    exact ⟨hl.perm.mem_iff.1 (by simp [hx]), fun hr => hn.2.2 x hx x ((hl.source x).2 hr) rfl⟩
  · rintro ⟨h1, h2⟩
    rcases List.mem_append.1 (hl.perm.mem_iff.2 h1) with h | h
    · exact h
    · exact absurd ((hl.source x).1 h) h2

theorem Loop.front_mem (hl : Loop dirs vec S h0 E k s) (hS : S.Nodup)
    (hE : ∀ u z, (u, z) ∈ E ↔ u ∈ S ∧ z ∈ S ∧ Dominates dirs vec u z) {x : Nat} :
    x ∈ paretoFront s.dom s.source ↔ Layer (Dominates dirs vec) S k x := by
  unfold paretoFront Layer
  rw [List.mem_filter, hl.source, decide_eq_true_eq, hl.dom.counter_zero]
  refine and_congr_right fun hx => ?_
  constructor
  · intro h y hy hd
    have := h y ((hE y x).2 ⟨hy.mem, hx.mem, hd⟩)
    exact ((hl.dest_mem hS).1 this).2 hy
  · intro h u hu
    obtain ⟨h1, h2, h3⟩ := (hE u x).1 hu
    rw [hl.dest_mem hS]
    exact ⟨h1, fun hr => h u hr h3⟩

theorem exists_layer (hlen : ∀ r ∈ S, (vec r).length = dirs.length) {x : Nat} (hx : Rest (Dominates dirs vec) S k x) :
    ∃ y, Layer (Dominates dirs vec) S k y := by
  classical
  obtain ⟨y, hy, hmin⟩ := exists_minimal (D := Dominates dirs vec)
    (L := S.filter fun z => decide (Rest (Dominates dirs vec) S k z))
    (List.ne_nil_of_mem (a := x) (by simp [hx, hx.mem])) (fun _ _ => Pareto.irrefl)
    (fun x hx y hy z _ h1 h2 => Pareto.trans (hlen x (List.mem_filter.1 hx).1) (hlen y (List.mem_filter.1 hy).1) h1 h2)
  simp only [List.mem_filter, decide_eq_true_eq] at hy hmin
  exact ⟨y, hy.2, fun z hz => hmin z ⟨hz.mem, hz⟩⟩

theorem sortBy_take_best {h : Heap} (l : List Nat) (n : Nat) (x y : Nat)
    (hx : x ∈ (Py.sortBy (fun a b => (h b).crowding.le (h a).crowding) l).take n)
    (hy : y ∈ l) (hy' : y ∉ (Py.sortBy (fun a b => (h b).crowding.le (h a).crowding) l).take n) :
    (h y).crowding.le (h x).crowding = true := by
  have hp := Py.sortBy_pairwise (le := fun a b : Nat => (h b).crowding.le (h a).crowding)
    (fun a b c h1 h2 => Crowd.le_trans' h2 h1) (fun a b => Crowd.le_total' _ _) l
  have hm : y ∈ (Py.sortBy (fun a b => (h b).crowding.le (h a).crowding) l).drop n := by
    have := (Py.mem_sortBy (le := fun a b : Nat => (h b).crowding.le (h a).crowding)).2 hy
    rw [← List.take_append_drop n (Py.sortBy _ l), List.mem_append] at this
    exact this.resolve_left hy'
  rw [← List.take_append_drop n (Py.sortBy _ l), List.pairwise_append] at hp
  exact hp.2.2 x hx y hm

/-- One round of the loop. -/
theorem sortStep_spec (hS : S.Nodup) (hIs : ∀ r ∈ S, (h0 r).Is dirs (vec r))
    (hE : ∀ u z, (u, z) ∈ E ↔ u ∈ S ∧ z ∈ S ∧ Dominates dirs vec u z) (horder : ∀ k l, (order k l).Perm l)
    (hl : Loop dirs vec S h0 E k s) (hsize : (s.dest.length : Int) < popSize) (hne : s.source ≠ []) :
    ∃ s', sortStep order popSize s = .ok s' ∧ s.dest.length < s'.dest.length ∧ (s'.dest.length : Int) ≤ popSize ∧
      (Loop dirs vec S h0 E (k + 1) s' ∨ ((s'.dest.length : Int) = popSize ∧ Sorted dirs vec S h0 (k + 1) s'.heap)) ∧
      Chosen (Dominates dirs vec) S (k + 1) s'.heap s'.dest := by
  have hlen : ∀ r ∈ S, (vec r).length = dirs.length := fun r hr => (hIs r hr).length
  have hsn : s.source.Nodup := ((List.nodup_append.1 (hl.perm.nodup_iff.2 hS)).2).1
  have hdn : s.dest.Nodup := (List.nodup_append.1 (hl.perm.nodup_iff.2 hS)).1
  set F := paretoFront s.dom s.source with hF
  have hFn : F.Nodup := hsn.filter _
  have hFm : ∀ {x}, x ∈ F ↔ Layer (Dominates dirs vec) S k x := hl.front_mem hS hE
  have hFne : F ≠ [] := by
    obtain ⟨x, hx⟩ := List.exists_mem_of_ne_nil _ hne
    obtain ⟨y, hy⟩ := exists_layer hlen ((hl.source x).1 hx)
    exact List.ne_nil_of_mem (hFm.2 hy)
  have hFS : ∀ r ∈ F, r ∈ S := fun r hr => (hFm.1 hr).1.mem
  have hheap : ∀ r ∈ F, s.heap r = h0 r := fun r hr => hl.sorted.other r (.inr (hFm.1 hr).1)
  obtain ⟨h', l, he, hlp, hout, hin, hcr⟩ := calcCrowding_spec (h := s.heap) (vec := vec) (m := dirs.length) hFne hFn
    (fun r hr => by rw [hheap r hr]; exact (hIs r (hFS r hr)).objs) (fun r hr => hlen r (hFS r hr))
  have hstep : sortStep order popSize s =
      .ok ⟨h'.setAll (fun f => { f with rank := some s.rank }) l,
        s.dom.remove (cut (h'.setAll (fun f => { f with rank := some s.rank }) l) popSize s.dest l),
        remaining (order s.rank) s.source (cut (h'.setAll (fun f => { f with rank := some s.rank }) l) popSize s.dest l),
        s.dest ++ cut (h'.setAll (fun f => { f with rank := some s.rank }) l) popSize s.dest l, s.rank + 1⟩ := by
    unfold sortStep
    rw [← hF, he]
  set h2 := h'.setAll (fun f => { f with rank := some s.rank }) l with hh2
  have hin2 : ∀ r ∈ F, h2 r = { h' r with rank := some s.rank } := fun r hr =>
    setAll_mem h' (f := fun f => { f with rank := some s.rank }) (fun _ => rfl) (hlp.mem_iff.2 hr)
  have hout2 : ∀ r, r ∉ F → h2 r = s.heap r := fun r hr => by
    rw [hh2, setAll_other _ _ (fun hc => hr (hlp.mem_iff.1 hc)), hout r hr]
  have hsorted : Sorted dirs vec S h0 (k + 1) h2 := by
    refine ⟨fun r hr => ?_, fun j hj r hr => ?_, fun j hj => ?_⟩
    · have : r ∉ F := by
        intro hc
        rcases hr with hr | hr
        · exact hr (hFS r hc)
        · exact (rest_succ.1 hr).2 (hFm.1 hc)
      rw [hout2 r this]
      exact hl.sorted.other r (hr.imp id And.left)
    · by_cases hjk : j = k
      · subst hjk
        have hrF := hFm.2 hr
        obtain ⟨c, hc⟩ := hin r hrF
        exact ⟨c, by rw [hin2 r hrF, hc, hheap r hrF, hl.rank]⟩
      · have : r ∉ F := fun hc => hjk (hr.unique (hFm.1 hc))
        rw [hout2 r this]
        exact hl.sorted.ranked j (by omega) r hr
    · by_cases hjk : j = k
      · subst hjk
        exact ⟨F, hFne, hFn, fun r => hFm, hcr.congr fun r hr => by rw [hin2 r hr]⟩
      · obtain ⟨front, h0, h1, h2, h3⟩ := hl.sorted.crowded j (by omega)
        refine ⟨front, h0, h1, h2, h3.congr fun r hr => ?_⟩
        rw [hout2 r fun hc => hjk (((h2 r).1 hr).unique (hFm.1 hc))]
  rw [hstep]
  refine ⟨_, rfl, ?_⟩
  dsimp only
  -- what is taken
  set T := cut h2 popSize s.dest l with hT
  have hTn : T.Nodup ∧ (∀ x ∈ T, x ∈ F) ∧ 0 < T.length ∧ (s.dest.length + T.length : Int) ≤ popSize ∧
      ((∀ x ∈ F, x ∈ T) ∨ (s.dest.length + T.length : Int) = popSize) ∧
      ∀ x y, x ∈ T → y ∈ F → y ∉ T → (h2 y).crowding.le (h2 x).crowding = true := by
    have hlpos : 0 < l.length := by rw [hlp.length_eq]; exact List.length_pos_iff.2 hFne
    unfold cut at hT
    split_ifs at hT with hc
    · have hsp := Py.sortBy_perm (fun a b => (h2 b).crowding.le (h2 a).crowding) l
      have hlt : T.length = (popSize - s.dest.length).toNat := by
        rw [hT, List.length_take, hsp.length_eq]; omega
      refine ⟨?_, fun x hx => ?_, by omega, by omega, .inr (by omega), fun x y hx hy hyn => ?_⟩
      · rw [hT]
        exact (List.take_sublist _ _).nodup (hsp.nodup_iff.2 (hlp.nodup_iff.2 hFn))
      · rw [hT] at hx
        exact hlp.mem_iff.1 (hsp.mem_iff.1 (List.mem_of_mem_take hx))
      · rw [hT] at hx hyn
        exact sortBy_take_best l _ x y hx (hlp.mem_iff.2 hy) hyn
    · rw [hT]
      refine ⟨hlp.nodup_iff.2 hFn, fun x hx => hlp.mem_iff.1 hx, hlpos, by push_cast at hc; omega,
        .inl fun x hx => hlp.mem_iff.2 hx, fun x y hx hy hyn => absurd (hlp.mem_iff.2 hy) hyn⟩
  obtain ⟨hTn, hTF, hTpos, hTle, hTall, hTbest⟩ := hTn
  have hTd : ∀ x ∈ T, x ∉ s.dest := fun x hx hc => ((hl.dest_mem hS).1 hc).2 (hFm.1 (hTF x hx)).1
  refine ⟨by simp only [List.length_append]; omega, by simp only [List.length_append]; omega, ?_, ?_⟩
  · rcases hTall with hall | heq
    · left
      have hTm : ∀ x, x ∈ T ↔ Layer (Dominates dirs vec) S k x := fun x => ⟨fun h => hFm.1 (hTF x h), fun h => hall x (hFm.2 h)⟩
      have hsrc : ∀ x, x ∈ remaining (order s.rank) s.source T ↔ Rest (Dominates dirs vec) S (k + 1) x := by
        intro x
        unfold remaining
        rw [(horder _ _).mem_iff, List.mem_dedup, List.mem_filter, hl.source, rest_succ, decide_eq_true_eq, hTm]
      have hsrcn : (remaining (order s.rank) s.source T).Nodup := (horder _ _).nodup_iff.2 (List.nodup_dedup _)
      refine ⟨by rw [hl.rank], hsrc, ?_, hl.dom.remove T hTn hTd, hsorted⟩
      rw [List.perm_ext_iff_of_nodup _ hS]
      · intro x
        simp only [List.mem_append]
        rw [hsrc, hTm, hl.dest_mem hS, rest_succ]
        constructor
        · rintro ((h | h) | h)
          · exact h.1
          · exact h.1.mem
          · exact h.1.mem
        · intro h
          tauto
      · rw [List.nodup_append, List.nodup_append]
        refine ⟨⟨hdn, hTn, fun a ha b hb hab => hTd b hb (hab ▸ ha)⟩, hsrcn, fun a ha b hb hab => ?_⟩
        subst hab
        have := (rest_succ.1 ((hsrc a).1 hb))
        rcases List.mem_append.1 ha with ha | ha
        · exact ((hl.dest_mem hS).1 ha).2 this.1
        · exact this.2 ((hTm a).1 ha)
    · right
      exact ⟨by simp only [List.length_append]; push_cast; omega, hsorted⟩
  · refine ⟨?_, fun x hx => ?_, fun x hx hr => ?_, fun x y hx hy hLx hLy => ?_, fun _ => ?_⟩
    · rw [List.nodup_append]
      exact ⟨hdn, hTn, fun a ha b hb hab => hTd b hb (hab ▸ ha)⟩
    · rcases List.mem_append.1 hx with hx | hx
      · have := (hl.dest_mem hS).1 hx
        exact ⟨this.1, fun hc => this.2 hc.1⟩
      · have := hFm.1 (hTF x hx)
        exact ⟨this.1.mem, fun hc => (rest_succ.1 hc).2 this⟩
    · rw [List.mem_append]
      exact .inl ((hl.dest_mem hS).2 ⟨hx, hr⟩)
    · simp only [Nat.add_sub_cancel] at hLx hLy
      simp only [List.mem_append, not_or] at hx hy
      refine hTbest x y (hx.resolve_left fun hc => ((hl.dest_mem hS).1 hc).2 hLx.1) (hFm.2 hLy) hy.2
    · obtain ⟨x, hx⟩ := List.exists_mem_of_ne_nil T (List.length_pos_iff.1 hTpos)
      exact ⟨x, by simp [hx], hFm.1 (hTF x hx)⟩

/-- When the wanted number of individuals is there, the loop ends with the first layers. -/
theorem sortLoop_spec (hS : S.Nodup) (hIs : ∀ r ∈ S, (h0 r).Is dirs (vec r))
    (hE : ∀ u z, (u, z) ∈ E ↔ u ∈ S ∧ z ∈ S ∧ Dominates dirs vec u z) (horder : ∀ k l, (order k l).Perm l)
    (hpop : popSize ≤ (S.length : Int)) (fuel : Nat) (k : Nat) (s : SortState)
    (hl : Loop dirs vec S h0 E k s) (hle : (s.dest.length : Int) ≤ popSize)
    (hc : Chosen (Dominates dirs vec) S k s.heap s.dest) (hfuel : popSize ≤ (s.dest.length + fuel : Nat)) :
    ∃ K h dest, sortLoop order popSize fuel s = some (.ok (h, dest)) ∧ Sorted dirs vec S h0 K h ∧
      Chosen (Dominates dirs vec) S K h dest ∧ (dest.length : Int) = popSize := by
  induction fuel generalizing k s with
  | zero =>
    refine ⟨k, s.heap, s.dest, ?_, hl.sorted, hc, by omega⟩
    unfold sortLoop
    rw [if_neg (by omega)]
  | succ fuel ih =>
    by_cases hd : (s.dest.length : Int) < popSize
    · have hne : s.source ≠ [] := by
        intro h
        have := hl.perm.length_eq
        rw [h] at this
        simp at this
        omega
      obtain ⟨s', h1, h2, h3, h4, h5⟩ := sortStep_spec hS hIs hE horder hl hd hne
      unfold sortLoop
      rw [if_pos hd, h1]
      dsimp only
      rcases h4 with h4 | ⟨h4, h6⟩
      · exact ih (k + 1) s' h4 h3 h5 (by omega)
      · refine ⟨k + 1, s'.heap, s'.dest, ?_, h6, h5, h4⟩
        unfold sortLoop
        rw [if_neg (by omega)]
    · refine ⟨k, s.heap, s.dest, ?_, hl.sorted, hc, by omega⟩
      unfold sortLoop
      rw [if_neg hd]

/-- When more individuals are wanted than there are, the loop ends with an `IndexError`. -/
theorem sortLoop_raises (hS : S.Nodup) (hIs : ∀ r ∈ S, (h0 r).Is dirs (vec r))
    (hE : ∀ u z, (u, z) ∈ E ↔ u ∈ S ∧ z ∈ S ∧ Dominates dirs vec u z) (horder : ∀ k l, (order k l).Perm l)
    (hpop : (S.length : Int) < popSize) (fuel : Nat) (k : Nat) (s : SortState)
    (hl : Loop dirs vec S h0 E k s) (hfuel : S.length < s.dest.length + fuel) :
    sortLoop order popSize fuel s = some (.error .indexError) := by
  induction fuel generalizing k s with
  | zero =>
    have := hl.perm.length_eq
    simp at this
    omega
  | succ fuel ih =>
    have hlen := hl.perm.length_eq
    simp only [List.length_append] at hlen
    have hd : (s.dest.length : Int) < popSize := by omega
    unfold sortLoop
    rw [if_pos hd]
    by_cases hne : s.source = []
    · have : sortStep order popSize s = .error .indexError := by
        unfold sortStep
        rw [hne]
        rfl
      rw [this]
    · obtain ⟨s', h1, h2, h3, h4, h5⟩ := sortStep_spec hS hIs hE horder hl hd hne
      rw [h1]
      dsimp only
      rcases h4 with h4 | ⟨h4, h6⟩
      · exact ih (k + 1) s' h4 (by omega)
      · have : s'.dest.length ≤ S.length :=
          (List.subperm_of_subset h5.nodup fun x hx => (h5.mem x hx).1).length_le
        omega

/-- The state before the first round. -/
theorem initDom_loop (hIs : ∀ r ∈ S, (h0 r).Is dirs (vec r)) :
    ∃ d E, initDom h0 S Dom.empty = .ok d ∧ (∀ u z, (u, z) ∈ E ↔ u ∈ S ∧ z ∈ S ∧ Dominates dirs vec u z) ∧
      Loop dirs vec S h0 E 0 ⟨h0, d, S, [], 1⟩ := by
  obtain ⟨d, E, h1, h2, h3⟩ := initDom_holds (h := h0) (D := Dominates dirs vec)
    (fun a ha b hb => C48_dominate (hIs a ha) (hIs b hb)) (fun a _ b _ h => Pareto.asymm h) S (fun _ h => h)
    (d := Dom.empty) (E := []) ⟨fun u => by simp [Dom.empty], fun z => by simp [Dom.empty]⟩
  refine ⟨d, E, h1, h3, rfl, fun x => Iff.rfl, by simp, by simpa using h2, ?_⟩
  exact ⟨fun r hr => rfl, fun j hj => by omega, fun j hj => by omega⟩

end Verif.Moo
