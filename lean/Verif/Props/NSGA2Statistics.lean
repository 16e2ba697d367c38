import Verif.Props.NSGA2Sorting

/-!
# C56, C69 — the statistics of multi-objective runs
-/

namespace Verif.Moo

variable {dirs : List Bool} {vec : Nat → List ℚ} {S : List Nat} {h h' : Heap} {n : Option Int} {fuel : Nat}
  {order : Nat → List Nat → List Nat} {dest : List Nat}

/-! ## Fronts of two objectives -/

theorem AtLeast.of_not_better {d : Bool} {a b : ℚ} (h : ¬ Better d a b) : AtLeast d b a := by
  cases d <;> simp_all [Better, AtLeast]

/-- Of two vectors of two objectives that do not dominate one another, the one that is at least as good in one
objective is at most as good in the other. -/
theorem pareto_two {d0 d1 : Bool} {a0 a1 b0 b1 : ℚ} (hab : ¬ Pareto [d0, d1] [a0, a1] [b0, b1]) :
    (AtLeast d1 a1 b1 → AtLeast d0 b0 a0) := by
  intro h
  apply AtLeast.of_not_better
  intro hb
  apply hab
  refine ⟨?_, 0, d0, a0, b0, rfl, rfl, rfl, hb⟩
  intro i d x y hd hx hy
  match i with
  | 0 =>
    simp only [List.getElem?_cons_zero, Option.some.injEq] at hd hx hy
    subst hd hx hy
    exact hb.atLeast
  | 1 =>
    simp only [List.getElem?_cons_succ, List.getElem?_cons_zero, Option.some.injEq] at hd hx hy
    subst hd hx hy
    exact h
  | i + 2 => simp at hd

theorem pareto_two_eq {d0 d1 : Bool} {a0 a1 b0 b1 : ℚ} (hab : ¬ Pareto [d0, d1] [a0, a1] [b0, b1])
    (hba : ¬ Pareto [d0, d1] [b0, b1] [a0, a1]) (h0 : a0 = b0) : a1 = b1 := by
  have key : ∀ {a1 b1 : ℚ}, ¬ Pareto [d0, d1] [a0, a1] [b0, b1] → AtLeast d1 b1 a1 := by
    intro a1 b1 hab
    apply AtLeast.of_not_better
    intro hb
    apply hab
    refine ⟨?_, 1, d1, a1, b1, rfl, rfl, rfl, hb⟩
    intro i d x y hd hx hy
    match i with
    | 0 =>
      simp only [List.getElem?_cons_zero, Option.some.injEq] at hd hx hy
      subst hd hx hy
      rw [h0]
      cases d0 <;> simp [AtLeast]
    | 1 =>
      simp only [List.getElem?_cons_succ, List.getElem?_cons_zero, Option.some.injEq] at hd hx hy
      subst hd hx hy
      exact hb.atLeast
    | i + 2 => simp at hd
  have h1 := key hab
  have h2 : AtLeast d1 a1 b1 := by
    subst h0
    exact key hba
  cases d1
  · simp only [AtLeast, Bool.false_eq_true, if_false] at h1 h2; exact le_antisymm h2 h1
  · simp only [AtLeast, if_true] at h1 h2; exact le_antisymm h1 h2

/-- In a front of two objectives all individuals of infinite crowding have one of two objective vectors. -/
theorem Crowded.two {d0 d1 : Bool} {front : List Nat} {crowd : Nat → Crowd} (hc : Crowded vec 2 front crowd)
    (hlen : ∀ r ∈ front, (vec r).length = 2)
    (hnd : ∀ x ∈ front, ∀ y ∈ front, ¬ Pareto [d0, d1] (vec x) (vec y)) (hne : front ≠ []) :
    ∃ v w, ∀ r ∈ front, crowd r = .inf → vec r = v ∨ vec r = w := by
  obtain ⟨L, hL, hr⟩ := hc
  have hpair : ∀ r ∈ front, vec r = [val vec 0 r, val vec 1 r] := by
    intro r hr
    have := hlen r hr
    match hv : vec r, this with
    | [a, b], _ => simp [val, hv]
  have hnd' : ∀ x ∈ front, ∀ y ∈ front, ¬ Pareto [d0, d1] [val vec 0 x, val vec 1 x] [val vec 0 y, val vec 1 y] := by
    intro x hx y hy
    rw [← hpair x hx, ← hpair y hy]
    exact hnd x hx y hy
  have hdet : ∀ x ∈ front, ∀ y ∈ front, val vec 0 x = val vec 0 y → vec x = vec y := by
    intro x hx y hy he
    rw [hpair x hx, hpair y hy, he, pareto_two_eq (hnd' x hx y hy) (hnd' y hy x hx) he]
  have ends : ∀ i < 2, ∃ lo ∈ front, ∃ up ∈ front, (∀ y ∈ front, val vec i lo ≤ val vec i y) ∧
      (∀ y ∈ front, val vec i y ≤ val vec i up) ∧ ∀ r, AtEnd (L i) r → r = lo ∨ r = up := by
    intro i hi
    obtain ⟨hp, hs⟩ := hL i hi
    have hLne : L i ≠ [] := fun h0 => hne (by rw [h0] at hp; exact hp.symm.eq_nil)
    obtain ⟨lo, hlo⟩ : ∃ lo, (L i).head? = some lo := by
      cases hl : L i with
      | nil => exact absurd hl hLne
      | cons a l => exact ⟨a, rfl⟩
    obtain ⟨up, hup⟩ : ∃ up, (L i).getLast? = some up := ⟨_, List.getLast?_eq_some_getLast hLne⟩
    refine ⟨lo, hp.mem_iff.1 (List.mem_of_head? hlo), up, hp.mem_iff.1 (List.mem_of_getLast? hup), fun y hy => ?_,
      fun y hy => ?_, fun r hr => ?_⟩
    · exact head_le (R := fun a b => val vec i a ≤ val vec i b) (fun _ => le_refl _) hs hlo (hp.mem_iff.2 hy)
    · exact le_last (R := fun a b => val vec i a ≤ val vec i b) (fun _ => le_refl _) hs hup (hp.mem_iff.2 hy)
    · rcases hr with hr | hr
      · rw [hlo] at hr; left; exact (Option.some.inj hr).symm
      · rw [hup] at hr; right; exact (Option.some.inj hr).symm
  obtain ⟨lo, hlom, up, hupm, hlo, hup, hend⟩ := ends 0 (by norm_num)
  obtain ⟨lo1, hlo1m, up1, hup1m, hlo1, hup1, hend1⟩ := ends 1 (by norm_num)
  -- an extreme one of objective 1 is an extreme one of objective 0
  have hextreme : ∀ r ∈ front, (∀ y ∈ front, val vec 1 r ≤ val vec 1 y) ∨ (∀ y ∈ front, val vec 1 y ≤ val vec 1 r) →
      vec r = vec lo ∨ vec r = vec up := by
    intro r hr hex
    have h1 : (∀ y ∈ front, AtLeast d0 (val vec 0 y) (val vec 0 r)) ∨ (∀ y ∈ front, AtLeast d0 (val vec 0 r) (val vec 0 y)) := by
      have h2 : (∀ y ∈ front, AtLeast d1 (val vec 1 r) (val vec 1 y)) ∨ (∀ y ∈ front, AtLeast d1 (val vec 1 y) (val vec 1 r)) := by
        cases d1
        · simpa only [AtLeast, Bool.false_eq_true, if_false] using hex
        · simpa only [AtLeast, if_true] using hex.symm
      rcases h2 with h2 | h2
      · exact .inl fun y hy => pareto_two (hnd' r hr y hy) (h2 y hy)
      · exact .inr fun y hy => pareto_two (hnd' y hy r hr) (h2 y hy)
    have h3 : (∀ y ∈ front, val vec 0 y ≤ val vec 0 r) ∨ (∀ y ∈ front, val vec 0 r ≤ val vec 0 y) := by
      cases d0
      · simpa only [AtLeast, Bool.false_eq_true, if_false] using h1
      · simpa only [AtLeast, if_true] using h1.symm
    rcases h3 with h3 | h3
    · right; exact hdet r hr up hupm (le_antisymm (hup r hr) (h3 up hupm))
    · left; exact hdet r hr lo hlom (le_antisymm (h3 lo hlom) (hlo r hr))
  refine ⟨vec lo, vec up, fun r hrm hinf => ?_⟩
  by_contra hcon
  have hno : ∀ j < 2, ¬ AtEnd (L j) r := by
    intro j hj hat
    apply hcon
    obtain rfl | rfl : j = 0 ∨ j = 1 := by omega
    · rcases hend r hat with rfl | rfl
      · exact .inl rfl
      · exact .inr rfl
    · rcases hend1 r hat with rfl | rfl
      · exact hextreme r hrm (.inl hlo1)
      · exact hextreme r hrm (.inr hup1)
  obtain ⟨g, -, he⟩ := (hr r hrm).2 hno
  rw [hinf] at he
  simp at he

theorem pureAll_ok {l : List Nat} (hv : ∀ r ∈ l, (h r).objs = some (vec r)) : pureAll h l = .ok (l.map vec) := by
  induction l with
  | nil => rfl
  | cons r l ih =>
    unfold pureAll Fit.pure
    rw [hv r (by simp)]
    dsimp only
    rw [ih fun x hx => hv x (by simp [hx])]
    rfl

/-- If individuals of that rank and infinite crowding exist, and have at most two different vectors, then
`get_corners` returns their vectors, each once. -/
theorem getCorners_ok {perm : List (List ℚ) → List (List ℚ)} (hperm : ∀ l, (perm l).Perm l) {inds : List Nat}
    {rank : Option Nat} (hv : ∀ r ∈ inds, (h r).objs = some (vec r)) {v w : List ℚ}
    (hvw : ∀ r ∈ inds, (h r).rank = rank → (h r).crowding = .inf → vec r = v ∨ vec r = w)
    (hex : ∃ r ∈ inds, (h r).rank = rank ∧ (h r).crowding = .inf) :
    ∃ l, getCorners perm h inds rank = .ok l ∧ l.Nodup ∧ (l.length = 1 ∨ l.length = 2) ∧
      ∀ u, u ∈ l ↔ ∃ r ∈ inds, (h r).rank = rank ∧ (h r).crowding = .inf ∧ vec r = u := by
  unfold getCorners
  set F := inds.filter fun r => decide ((h r).rank = rank) && decide ((h r).crowding = .inf) with hF
  have hFm : ∀ r, r ∈ F ↔ r ∈ inds ∧ (h r).rank = rank ∧ (h r).crowding = .inf := by
    intro r; rw [hF]; simp
  rw [pureAll_ok (vec := vec) fun r hr => hv r ((hFm r).1 hr).1]
  dsimp only
  have hmem : ∀ u, u ∈ (F.map vec).dedup ↔ ∃ r ∈ inds, (h r).rank = rank ∧ (h r).crowding = .inf ∧ vec r = u := by
    intro u
    rw [List.mem_dedup, List.mem_map]
    simp only [hFm, and_assoc]
  have h1 : (F.map vec).dedup.length ≤ 2 := by
    have : (F.map vec).dedup ⊆ [v, w] := by
      intro u hu
      obtain ⟨r, a, b, c, rfl⟩ := (hmem u).1 hu
      simpa using hvw r a b c
    exact (List.subperm_of_subset (List.nodup_dedup _) this).length_le
  have h2 : 0 < (F.map vec).dedup.length := by
    obtain ⟨r, a, b, c⟩ := hex
    exact List.length_pos_of_mem ((hmem (vec r)).2 ⟨r, a, b, c, rfl⟩)
  have h3 : (F.map vec).dedup.length = 1 ∨ (F.map vec).dedup.length = 2 := by omega
  rw [if_pos h3]
  refine ⟨_, rfl, (hperm _).nodup_iff.2 (List.nodup_dedup _), by rw [(hperm _).length_eq]; exact h3, fun u => ?_⟩
  rw [(hperm _).mem_iff, hmem]

theorem lastRank_ok {inds : List Nat} (hne : inds ≠ []) :
    ∃ k, lastRank h inds = .ok k ∧ (∃ r ∈ inds, (h r).rank = k) ∧ ∀ r ∈ inds, rankLe (h r).rank k = true := by
  have hrefl : ∀ a, rankLe a a = true := fun a => by cases a <;> simp [rankLe]
  have htot : ∀ a b, rankLe a b = true ∨ rankLe b a = true := by
    intro a b
    cases a <;> cases b <;> simp [rankLe]
    omega
  have htrans : ∀ {a b c}, rankLe a b = true → rankLe b c = true → rankLe a c = true := by
    intro a b c
    cases a <;> cases b <;> cases c <;> simp [rankLe]
    omega
  induction inds with
  | nil => exact absurd rfl hne
  | cons x xs ih =>
    cases xs with
    | nil => exact ⟨_, rfl, ⟨x, by simp, rfl⟩, by simp [hrefl]⟩
    | cons y ys =>
      obtain ⟨k, h1, ⟨r, h2, h3⟩, h4⟩ := ih (by simp)
      rw [lastRank.eq_3 _ _ _ (by simp), h1]
      dsimp only
      by_cases hk : rankLe k (h x).rank = true
      · rw [if_pos hk]
        refine ⟨_, rfl, ⟨x, by simp, rfl⟩, fun z hz => ?_⟩
        rcases List.mem_cons.1 hz with rfl | hz
        · exact hrefl _
        · exact htrans (h4 z hz) hk
      · rw [if_neg hk]
        refine ⟨_, rfl, ⟨r, by simp only [List.mem_cons] at h2 ⊢; exact .inr h2, h3⟩, fun z hz => ?_⟩
        rcases List.mem_cons.1 hz with rfl | hz
        · exact (htot _ _).resolve_right hk
        · exact h4 z hz

/-- C56: the last rank is the largest one, infinity (no rank) if there is an individual without. -/
theorem C56_last_rank {inds : List Nat} (hne : inds ≠ []) : ∃ k, lastRank h inds = .ok k ∧
    (k = none ↔ ∃ r ∈ inds, (h r).rank = none) ∧
    ∀ b, k = some b → (∃ r ∈ inds, (h r).rank = some b) ∧ ∀ r ∈ inds, ∃ a, (h r).rank = some a ∧ a ≤ b := by
  obtain ⟨k, h1, ⟨r, hr, h2⟩, h3⟩ := lastRank_ok (h := h) hne
  refine ⟨k, h1, ⟨fun hk => ⟨r, hr, h2.trans hk⟩, ?_⟩, ?_⟩
  · rintro ⟨x, hx, hn⟩
    have := h3 x hx
    rw [hn] at this
    cases k with
    | none => rfl
    | some b => simp [rankLe] at this
  · rintro b rfl
    refine ⟨⟨r, hr, h2⟩, fun x hx => ?_⟩
    have := h3 x hx
    cases hx' : (h x).rank with
    | none => rw [hx'] at this; simp [rankLe] at this
    | some a => rw [hx'] at this; exact ⟨a, rfl, by simpa [rankLe] using this⟩

example : lastRank (fun r => exFit [0, 0] .inf (some (r + 1))) [0, 2, 1] = .ok (some 3) := rfl

/-- After sorting by two objectives, the survivors of every front have one or two different corners. -/
theorem survivors_corners (hS : S.Nodup) (hIs : ∀ r ∈ S, (h r).Is dirs (vec r)) (horder : ∀ k l, (order k l).Perm l)
    (hrun : select order fuel h S [] n = some (.ok (h', dest))) (htwo : dirs.length = 2) {x : Nat} (hx : x ∈ dest)
    {perm : List (List ℚ) → List (List ℚ)} (hperm : ∀ l, (perm l).Perm l) :
    ∃ l, getCorners perm h' dest (h' x).rank = .ok l ∧ l.Nodup ∧ (l.length = 1 ∨ l.length = 2) ∧
      ∀ u, u ∈ l ↔ ∃ r ∈ dest, (h' r).rank = (h' x).rank ∧ (h' r).crowding = .inf ∧ vec r = u := by
  have hsub := (C50_survivors hS hIs horder hrun).2.1
  obtain ⟨k, hL⟩ := exists_layer_of_mem (vec := vec) hIs (hsub x hx)
  have hrank := (C49_survivor hS hIs horder hrun hx k).2 hL
  rw [hrank]
  obtain ⟨front, h1, h2, h3⟩ := C51_crowding hS hIs horder hrun hx hL
  obtain ⟨d0, d1, rfl⟩ : ∃ d0 d1, dirs = [d0, d1] := by
    match dirs, htwo with
    | [a, b], _ => exact ⟨a, b, rfl⟩
  obtain ⟨v, w, hvw⟩ := h3.two (d0 := d0) (d1 := d1) (fun r hr => (hIs r ((h2 r).1 hr).1.mem).length)
    (fun a ha b hb hp => ((h2 b).1 hb).2 a ((h2 a).1 ha).1 hp) (List.ne_nil_of_mem ((h2 x).2 hL))
  refine getCorners_ok hperm (v := v) (w := w) (fun r hr => ?_) (fun r hr hrk hinf => ?_) ?_
  · rw [(C49_frame hS hIs horder hrun r).2]
    exact (hIs r (hsub r hr)).objs
  · exact hvw r ((h2 r).2 ((C49_survivor hS hIs horder hrun hr k).1 hrk)) hinf
  · obtain ⟨⟨lo, a1, a2, -⟩, -⟩ := C51_extremes hS hIs horder hrun hx hL (i := 0) (by simp)
    by_cases hlo : lo ∈ dest
    · exact ⟨lo, hlo, (C49_survivor hS hIs horder hrun hlo k).2 a1, a2⟩
    · refine ⟨x, hx, hrank, ?_⟩
      have := C50_cut hS hIs horder hrun hx hlo hL a1
      rw [a2] at this
      cases hc : (h' x).crowding with
      | inf => rfl
      | fin q => rw [hc] at this; simp [Crowd.le] at this

/-- C56: after sorting by two objectives the statistics of the survivors are printed: the corners of the first and
of the last front are one or two distinct objective vectors of survivors of that front, and the percentage is the
share of the survivors of rank 1. -/
theorem C56_two_objectives (hS : S.Nodup) (hIs : ∀ r ∈ S, (h r).Is dirs (vec r))
    (horder : ∀ k l, (order k l).Perm l) (hrun : select order fuel h S [] n = some (.ok (h', dest)))
    (htwo : dirs.length = 2) (hne : dest ≠ []) {perm : List (List ℚ) → List (List ℚ)}
    (hperm : ∀ l, (perm l).Perm l) :
    ∃ line, moeLine perm h' dest = .ok line ∧
      (line.first.Nodup ∧ (line.first.length = 1 ∨ line.first.length = 2) ∧
        ∀ u ∈ line.first, ∃ r ∈ dest, (h' r).rank = some 1 ∧ vec r = u) ∧
      (line.last.Nodup ∧ (line.last.length = 1 ∨ line.last.length = 2) ∧
        ∀ u ∈ line.last, ∃ r ∈ dest, (h' r).rank = line.lastRank ∧ vec r = u) ∧
      (∃ k, line.lastRank = some k ∧ ∀ r ∈ dest, ∃ a, (h' r).rank = some a ∧ a ≤ k) ∧
      line.frontSize = dest.countP (fun r => decide ((h' r).rank = some 1)) ∧ 0 < line.frontSize ∧
      line.percent = (line.frontSize : ℚ) / dest.length * 100 := by
  have hsub := (C50_survivors hS hIs horder hrun).2.1
  -- a survivor of rank 1
  obtain ⟨x, hx, hxr⟩ : ∃ x ∈ dest, (h' x).rank = some 1 := by
    obtain ⟨y, hy⟩ := List.exists_mem_of_ne_nil _ hne
    obtain ⟨K, hs, hc, -⟩ := select_run hS hIs horder hrun
    obtain ⟨j, hj, hL⟩ := hc.layer hy
    by_cases hK : K = 1
    · obtain rfl : j = 0 := by omega
      exact ⟨y, hy, (C49_survivor hS hIs horder hrun hy 0).2 hL⟩
    · obtain ⟨z, hz⟩ := exists_layer (fun r hr => (hIs r hr).length) (k := 0) (hsub y hy)
      have hzd : z ∈ dest := hc.all z hz.1.mem ((not_rest hz.1.mem).2 ⟨0, by omega, hz⟩)
      exact ⟨z, hzd, (C49_survivor hS hIs horder hrun hzd 0).2 hz⟩
  obtain ⟨l1, a1, a2, a3, a4⟩ := survivors_corners hS hIs horder hrun htwo hx hperm
  obtain ⟨k, b1, b2, b3⟩ := C56_last_rank (h := h') hne
  have hk : k ≠ none := by
    intro hk
    obtain ⟨r, hr, hn⟩ := b2.1 hk
    obtain ⟨j, hL⟩ := exists_layer_of_mem (vec := vec) hIs (hsub r hr)
    rw [(C49_survivor hS hIs horder hrun hr j).2 hL] at hn
    cases hn
  obtain ⟨b, rfl⟩ := Option.ne_none_iff_exists'.1 hk
  obtain ⟨⟨y, hy, hyb⟩, b3⟩ := b3 b rfl
  rw [← hyb] at b1
  obtain ⟨l2, c1, c2, c3, c4⟩ := survivors_corners hS hIs horder hrun htwo hy hperm
  rw [hxr] at a1 a4
  have hp := pureAll_ok (h := h') (vec := vec) (l := dest.filter fun r => decide ((h' r).rank = some 1)) fun r hr => by
    rw [(C49_frame hS hIs horder hrun r).2]
    exact (hIs r (hsub r (List.mem_of_mem_filter hr))).objs
  unfold moeLine
  rw [a1]
  dsimp only
  rw [b1]
  dsimp only
  rw [c1]
  dsimp only
  rw [hp]
  dsimp only
  rw [if_neg (by simpa using hne)]
  refine ⟨_, rfl, ⟨a2, a3, fun u hu => ?_⟩, ⟨c2, c3, fun u hu => ?_⟩, ⟨b, hyb, b3⟩, ?_, ?_, rfl⟩
  · obtain ⟨r, e1, e2, -, e4⟩ := (a4 u).1 hu
    exact ⟨r, e1, e2, e4⟩
  · obtain ⟨r, e1, e2, -, e4⟩ := (c4 u).1 hu
    exact ⟨r, e1, e2, e4⟩
  · rw [List.length_map, List.countP_eq_length_filter]
  · rw [List.length_map]
    exact List.length_pos_of_mem (List.mem_filter.2 ⟨hx, by simpa using hxr⟩)

/-- C56: before the first sorting, when no individual has a rank, the statistics fail. -/
theorem C56_unsorted {inds : List Nat} (hu : ∀ r ∈ inds, (h r).rank = none)
    (perm : List (List ℚ) → List (List ℚ)) : moeLine perm h inds = .error .assertionError := by
  have : (inds.filter fun r => decide ((h r).rank = some 1) && decide ((h r).crowding = .inf)) = [] := by
    rw [List.filter_eq_nil_iff]
    intro r hr
    simp [hu r hr]
  unfold moeLine getCorners
  rw [this]
  rfl

/-- C69: the statistics of sorted survivors are printed for any number of objectives. -/
def C69_statement : Prop :=
  ∀ (dirs : List Bool) (vec : Nat → List ℚ) (S : List Nat) (h h' : Heap) (n : Option Int) (fuel : Nat)
    (order : Nat → List Nat → List Nat) (dest : List Nat) (perm : List (List ℚ) → List (List ℚ)),
    S.Nodup → (∀ r ∈ S, (h r).Is dirs (vec r)) → (∀ k l, (order k l).Perm l) → (∀ l, (perm l).Perm l) →
    select order fuel h S [] n = some (.ok (h', dest)) → dest ≠ [] → ∃ line, moeLine perm h' dest = .ok line

/-- Three individuals, each the best one in one of three objectives. -/
def exVec3 : Nat → List ℚ
  | 0 => [0, 1, 1] | 1 => [1, 0, 1] | _ => [1, 1, 0]

/-- Their fitness objects. -/
def exHeap3 : Heap := fun r => ⟨some (exVec3 r), .each [false, false, false], false, false, .fin 0, none⟩

/-- The statistics after sorting three individuals. -/
def exStats3 : Option (Except Err Nat) :=
  match select (fun _ l => l) 4 exHeap3 [0, 1, 2] [] (some 3) with
  | some (.ok (h', dest)) => match moeLine (fun l => l) h' dest with
    | .ok _ => some (.ok dest.length)
    | .error e => some (.error e)
  | _ => none

/-- C69 is false of the code: with three objectives a front may have three corners, and the assertion fails. -/
theorem C69_refuted : ¬ C69_statement := by
  intro hall
  have hrun : exStats3 = some (.error .assertionError) := by decide +kernel
  have hIs : ∀ r ∈ [0, 1, 2], (exHeap3 r).Is [false, false, false] (exVec3 r) := by
    intro r hr
    refine ⟨rfl, rfl, ?_⟩
    simp only [List.mem_cons, List.not_mem_nil, or_false] at hr
    rcases hr with rfl | rfl | rfl <;> rfl
  obtain ⟨h', dest, hsel⟩ := (C50_terminates (n := some 3) (order := fun _ l => l) (fuel := 4) (h := exHeap3)
    (S := [0, 1, 2]) (by decide) hIs (fun _ l => .refl l) (by decide)).1 (by decide)
  have hd := (C50_size (by decide) hIs (fun _ l => .refl l) hsel).2 3 rfl (by decide)
  obtain ⟨line, hl⟩ := hall _ _ _ _ _ _ _ _ _ (fun l => l) (by decide) hIs (fun _ l => .refl l) (fun l => .refl l) hsel
    (by intro h0; rw [h0] at hd; simp at hd)
  unfold exStats3 at hrun
  rw [hsel] at hrun
  dsimp only at hrun
  rw [hl] at hrun
  simp at hrun

/-- C69, the part that holds: two objectives. -/
theorem C69_two_objectives_partial (hS : S.Nodup) (hIs : ∀ r ∈ S, (h r).Is dirs (vec r))
    (horder : ∀ k l, (order k l).Perm l) (hrun : select order fuel h S [] n = some (.ok (h', dest)))
    (htwo : dirs.length = 2) (hne : dest ≠ []) {perm : List (List ℚ) → List (List ℚ)}
    (hperm : ∀ l, (perm l).Perm l) : ∃ line, moeLine perm h' dest = .ok line := by
  obtain ⟨line, h1, -⟩ := C56_two_objectives hS hIs horder hrun htwo hne hperm
  exact ⟨line, h1⟩

/-- The statistics after sorting the six individuals of the example. -/
def exStats : Option (Option Nat × Nat × List (List ℚ)) :=
  match select (fun _ l => l) 7 exHeap (List.range 6) [] (some 4) with
  | some (.ok (h', dest)) => match moeLine (fun l => l.reverse) h' dest with
    | .ok line => some (line.lastRank, line.frontSize, [line.percent] :: line.first ++ line.last)
    | .error _ => none
  | _ => none

example : exStats = some (some 2, 3, [[75], [0, 4], [4, 0], [3, 2]]) := by decide +kernel

end Verif.Moo
