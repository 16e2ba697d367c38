import Verif.Lemmas.Rounds
import Mathlib.Algebra.BigOperators.Group.List.Basic
import Mathlib.Algebra.Order.BigOperators.Group.List

/-!
# C49, C50, C51 — NSGA-II front sorting

`S` are the individuals of a sub-population, `vec` their objectives, `dirs` the direction of each objective.  The
theorems are about every run of `_select` on an empty destination list: `order` is the arbitrary iteration order
of the sets built in it.
-/

namespace Verif.Moo

variable {dirs : List Bool} {vec : Nat → List ℚ} {S : List Nat} {h h' : Heap} {n : Option Int} {fuel : Nat}
  {order : Nat → List Nat → List Nat} {dest : List Nat}

theorem sortLoop_mono {popSize : Int} (fuel : Nat) (s : SortState) (r : Except Err (Heap × List Nat)) (d : Nat)
    (hr : sortLoop order popSize fuel s = some r) : sortLoop order popSize (fuel + d) s = some r := by
  induction fuel generalizing s with
  | zero =>
    unfold sortLoop at hr ⊢
    split_ifs at hr ⊢ with h1
    exact hr
  | succ fuel ih =>
    rw [Nat.add_right_comm]
    unfold sortLoop at hr ⊢
    split_ifs at hr ⊢ with h1
    · dsimp only at hr ⊢
      split at hr
      · exact hr
      · exact ih _ hr
    · exact hr

/-- Every run of `_select`: it ends; with an `IndexError` if more individuals are wanted than there are. -/
theorem select_all (hS : S.Nodup) (hIs : ∀ r ∈ S, (h r).Is dirs (vec r)) (horder : ∀ k l, (order k l).Perm l)
    (hfuel : S.length < fuel) :
    ((S.length : Int) < wantedSize S n ∧ select order fuel h S [] n = some (.error .indexError)) ∨
    (wantedSize S n ≤ (S.length : Int) ∧ ∃ K h' dest, select order fuel h S [] n = some (.ok (h', dest)) ∧
      Sorted dirs vec S h K h' ∧ Chosen (Dominates dirs vec) S K h' dest ∧ dest.length = (wantedSize S n).toNat) := by
  obtain ⟨d, E, h1, h2, h3⟩ := initDom_loop (S := S) hIs
  unfold select
  rw [h1]
  dsimp only
  have hc : Chosen (Dominates dirs vec) S 0 h [] :=
    ⟨List.nodup_nil, fun x hx => by simp at hx, fun x hx hr => absurd hx hr, fun x y hx => by simp at hx,
      fun hk => by omega⟩
  rcases lt_or_ge (S.length : Int) (wantedSize S n) with hlt | hge
  · left
    exact ⟨hlt, sortLoop_raises hS hIs h2 horder hlt _ 0 _ h3 (by simpa using hfuel)⟩
  · right
    refine ⟨hge, ?_⟩
    rcases lt_or_ge (wantedSize S n) 0 with hneg | hpos
    · refine ⟨0, h, [], ?_, h3.sorted, hc, by simp; omega⟩
      unfold sortLoop
      simp only [List.length_nil]
      rw [if_neg (by omega)]
    · obtain ⟨K, h', dest, h4, h5, h6, h7⟩ := sortLoop_spec hS hIs h2 horder hge fuel 0 _ h3 (by simpa using hpos) hc
        (by simp; omega)
      exact ⟨K, h', dest, h4, h5, h6, by omega⟩

theorem select_run (hS : S.Nodup) (hIs : ∀ r ∈ S, (h r).Is dirs (vec r)) (horder : ∀ k l, (order k l).Perm l)
    (hrun : select order fuel h S [] n = some (.ok (h', dest))) :
    ∃ K, Sorted dirs vec S h K h' ∧ Chosen (Dominates dirs vec) S K h' dest ∧
      dest.length = (wantedSize S n).toNat := by
  have hmono : select order (fuel + (S.length + 1)) h S [] n = some (.ok (h', dest)) := by
    unfold select at hrun ⊢
    split at hrun
    · exact hrun
    · exact sortLoop_mono _ _ _ _ hrun
  rcases select_all (h := h) (dirs := dirs) (vec := vec) (n := n) (order := order)
    (fuel := fuel + (S.length + 1)) hS hIs horder (by omega) with ⟨-, h1⟩ | ⟨-, K, h'', dest', h1, h2, h3, h4⟩
  · rw [hmono] at h1; simp at h1
  · rw [hmono] at h1
    simp only [Option.some.injEq, Except.ok.injEq, Prod.mk.injEq] at h1
    obtain ⟨rfl, rfl⟩ := h1
    exact ⟨K, h2, h3, h4⟩

/-- C50: front sorting always ends, after as many rounds as there are individuals at the latest; it succeeds
exactly if no more individuals are wanted than there are. -/
theorem C50_terminates (hS : S.Nodup) (hIs : ∀ r ∈ S, (h r).Is dirs (vec r)) (horder : ∀ k l, (order k l).Perm l)
    (hfuel : S.length < fuel) :
    (wantedSize S n ≤ (S.length : Int) → ∃ h' dest, select order fuel h S [] n = some (.ok (h', dest))) ∧
    ((S.length : Int) < wantedSize S n → select order fuel h S [] n = some (.error .indexError)) := by
  rcases select_all (h := h) (dirs := dirs) (vec := vec) (n := n) (order := order) hS hIs horder hfuel with
    ⟨h1, h2⟩ | ⟨h1, K, h', dest, h2, -⟩
  · exact ⟨fun hc => by omega, fun _ => h2⟩
  · exact ⟨fun _ => ⟨h', dest, h2⟩, fun hc => by omega⟩

/-- C50: as many survivors as wanted — half of the individuals if no number (or 0) is given. -/
theorem C50_size (hS : S.Nodup) (hIs : ∀ r ∈ S, (h r).Is dirs (vec r)) (horder : ∀ k l, (order k l).Perm l)
    (hrun : select order fuel h S [] n = some (.ok (h', dest))) :
    (n = none ∨ n = some 0 → dest.length = S.length / 2) ∧
    (∀ k : Nat, n = some (k : Int) → k ≠ 0 → dest.length = k) := by
  obtain ⟨K, -, -, h1⟩ := select_run hS hIs horder hrun
  constructor
  · rintro (rfl | rfl)
    · rw [h1]; simp only [wantedSize]; omega
    · rw [h1]; simp only [wantedSize, if_true]; omega
  · rintro k rfl hk
    rw [h1]
    simp [wantedSize, hk]

/-- C50: the survivors are distinct members of the source, and whoever dominates a survivor survives. -/
theorem C50_survivors (hS : S.Nodup) (hIs : ∀ r ∈ S, (h r).Is dirs (vec r)) (horder : ∀ k l, (order k l).Perm l)
    (hrun : select order fuel h S [] n = some (.ok (h', dest))) :
    dest.Nodup ∧ (∀ x ∈ dest, x ∈ S) ∧
    ∀ x ∈ dest, ∀ y ∈ S, Pareto dirs (vec y) (vec x) → y ∈ dest := by
  obtain ⟨K, -, hc, -⟩ := select_run hS hIs horder hrun
  refine ⟨hc.nodup, fun x hx => (hc.mem x hx).1, fun x hx y hy hd => ?_⟩
  obtain ⟨hxS, hx'⟩ := hc.mem x hx
  obtain ⟨j, hj, hL⟩ := (not_rest hxS).1 hx'
  refine hc.all y hy fun hr => ?_
  exact hL.2 y (hr.mono (by omega)) hd

theorem Chosen.layer {D : Nat → Nat → Prop} {K : Nat} (hc : Chosen D S K h dest) {x : Nat} (hx : x ∈ dest) :
    ∃ j < K, Layer D S j x := by
  obtain ⟨hxS, hx'⟩ := hc.mem x hx
  exact (not_rest hxS).1 hx'

/-- C50: in the front that is cut, no survivor has less crowding than one that does not survive. -/
theorem C50_cut (hS : S.Nodup) (hIs : ∀ r ∈ S, (h r).Is dirs (vec r)) (horder : ∀ k l, (order k l).Perm l)
    (hrun : select order fuel h S [] n = some (.ok (h', dest))) {x y k : Nat} (hx : x ∈ dest) (hy : y ∉ dest)
    (hLx : Layer (Dominates dirs vec) S k x) (hLy : Layer (Dominates dirs vec) S k y) :
    (h' y).crowding.le (h' x).crowding = true := by
  obtain ⟨K, -, hc, -⟩ := select_run hS hIs horder hrun
  obtain ⟨j, hj, hL⟩ := hc.layer hx
  obtain rfl := hL.unique hLx
  have : j = K - 1 := by
    by_contra hne
    exact hy (hc.all y hLy.1.mem ((not_rest hLy.1.mem).2 ⟨j, by omega, hLy⟩))
  subst this
  exact hc.best x y hx hy hLx hLy

theorem countP_lt {l : List Nat} {p q : Nat → Bool} {y : Nat} (hy : y ∈ l) (h1 : p y = true) (h2 : ¬ q y = true)
    (hpq : ∀ z, q z = true → p z = true) : l.countP q < l.countP p := by
  induction l with
  | nil => simp at hy
  | cons a l ih =>
    simp only [List.countP_cons]
    rcases List.mem_cons.1 hy with rfl | hy
    · have : l.countP q ≤ l.countP p := List.countP_mono_left fun z _ => hpq z
      simp only [h1, h2, if_true, if_false, Bool.false_eq_true]
      omega
    · have := ih hy
      by_cases hq : q a = true
      · simp only [hq, hpq a hq, if_true]; omega
      · simp only [hq, if_false, Bool.false_eq_true]; omega

/-- Every individual is in a layer, so that the layers are a partition of the individuals (see `Layer.unique`). -/
theorem exists_layer_of_mem (hIs : ∀ r ∈ S, (h r).Is dirs (vec r)) {x : Nat} (hx : x ∈ S) :
    ∃ k, Layer (Dominates dirs vec) S k x := by
  classical
  have hlen : ∀ r ∈ S, (vec r).length = dirs.length := fun r hr => (hIs r hr).length
  by_contra hno
  have hall : ∀ k, Rest (Dominates dirs vec) S k x := fun k => by
    by_contra hc
    obtain ⟨j, -, hj⟩ := (not_rest hx).1 hc
    exact hno ⟨j, hj⟩
  have hcount : ∀ k, (S.countP fun z => decide (Rest (Dominates dirs vec) S k z)) + k ≤ S.length := by
    intro k
    induction k with
    | zero => simpa using List.countP_le_length
    | succ k ih =>
      obtain ⟨y, hy⟩ := exists_layer hlen (hall k)
      have : (S.countP fun z => decide (Rest (Dominates dirs vec) S (k + 1) z)) <
          S.countP fun z => decide (Rest (Dominates dirs vec) S k z) := by
        refine countP_lt hy.1.mem (by simpa using hy.1) ?_ (fun z => ?_)
        · simpa using fun hc => (rest_succ.1 hc).2 hy
        · simp only [decide_eq_true_eq]; exact And.left
      omega
  have := hcount (S.length + 1)
  omega

/-- C49: a survivor has rank `k + 1` exactly if it is in the layer `k`: not dominated by any of those left after
the layers before were removed. -/
theorem C49_survivor (hS : S.Nodup) (hIs : ∀ r ∈ S, (h r).Is dirs (vec r)) (horder : ∀ k l, (order k l).Perm l)
    (hrun : select order fuel h S [] n = some (.ok (h', dest))) {x : Nat} (hx : x ∈ dest) (k : Nat) :
    (h' x).rank = some (k + 1) ↔ Layer (Dominates dirs vec) S k x := by
  obtain ⟨K, hs, hc, -⟩ := select_run hS hIs horder hrun
  obtain ⟨j, hj, hL⟩ := hc.layer hx
  obtain ⟨c, he⟩ := hs.ranked j hj x hL
  rw [he]
  constructor
  · intro h1
    simp only [Option.some.injEq] at h1
    obtain rfl : j = k := by omega
    exact hL
  · intro h1
    rw [hL.unique h1]

/-- C49: not only the survivors, but the whole of every layer that has a survivor, and of every layer before it,
is ranked. -/
theorem C49_layers (hS : S.Nodup) (hIs : ∀ r ∈ S, (h r).Is dirs (vec r)) (horder : ∀ k l, (order k l).Perm l)
    (hrun : select order fuel h S [] n = some (.ok (h', dest))) {x k : Nat} (hx : x ∈ dest)
    (hL : Layer (Dominates dirs vec) S k x) {y j : Nat} (hjk : j ≤ k) (hy : Layer (Dominates dirs vec) S j y) :
    (h' y).rank = some (j + 1) := by
  obtain ⟨K, hs, hc, -⟩ := select_run hS hIs horder hrun
  obtain ⟨j', hj', hL'⟩ := hc.layer hx
  obtain rfl := hL'.unique hL
  obtain ⟨c, he⟩ := hs.ranked j (by omega) y hy
  rw [he]

/-- C49: the fitness of the other individuals is left as it was; of the ranked ones only rank and crowding are
changed. -/
theorem C49_frame (hS : S.Nodup) (hIs : ∀ r ∈ S, (h r).Is dirs (vec r)) (horder : ∀ k l, (order k l).Perm l)
    (hrun : select order fuel h S [] n = some (.ok (h', dest))) (y : Nat) :
    ((¬ ∃ k, Layer (Dominates dirs vec) S k y ∧ ∃ x ∈ dest, Layer (Dominates dirs vec) S k x) → h' y = h y) ∧
    h' y = { h y with crowding := (h' y).crowding, rank := (h' y).rank } := by
  obtain ⟨K, hs, hc, -⟩ := select_run hS hIs horder hrun
  by_cases hy : y ∉ S ∨ Rest (Dominates dirs vec) S K y
  · rw [hs.other y hy]
    exact ⟨fun _ => rfl, rfl⟩
  · obtain ⟨hyS, hyr⟩ := not_or.1 hy
    rw [not_not] at hyS
    obtain ⟨j, hj, hL⟩ := (not_rest hyS).1 hyr
    obtain ⟨c, he⟩ := hs.ranked j hj y hL
    constructor
    · intro hno
      exfalso
      apply hno
      refine ⟨j, hL, ?_⟩
      by_cases hjK : j = K - 1
      · subst hjK
        exact hc.last (by omega)
      · exact ⟨y, hc.all y hyS ((not_rest hyS).2 ⟨j, by omega, hL⟩), hL⟩
    · rw [he]

theorem Chosen.rounds {D : Nat → Nat → Prop} {K K' : Nat} {h h' : Heap} {dest dest' : List Nat}
    (hc : Chosen D S K h dest) (hc' : Chosen D S K' h' dest') (hl : dest.length = dest'.length) : K' ≤ K := by
  by_contra hlt
  obtain ⟨x, hx, hL⟩ := hc'.last (by omega)
  -- everything in `dest` is in `dest'` too, so that `dest'` cannot hold the further `x`
  have hsub : ∀ y ∈ x :: dest, y ∈ dest' := by
    intro y hy
    rcases List.mem_cons.1 hy with rfl | hy
    · exact hx
    · obtain ⟨j, hj, hLy⟩ := hc.layer hy
      exact hc'.all y hLy.1.mem ((not_rest hLy.1.mem).2 ⟨j, by omega, hLy⟩)
  have hxn : x ∉ dest := fun hxd => by
    obtain ⟨j, hj, hLx⟩ := hc.layer hxd
    have := hLx.unique hL
    omega
  have := (List.subperm_of_subset (List.nodup_cons.2 ⟨hxn, hc.nodup⟩) hsub).length_le
  simp only [List.length_cons] at this
  omega

/-- C49: the ranks do not depend on the iteration order of the sets. -/
theorem C49_order_independent (hS : S.Nodup) (hIs : ∀ r ∈ S, (h r).Is dirs (vec r))
    (horder : ∀ k l, (order k l).Perm l) {order' : Nat → List Nat → List Nat} (horder' : ∀ k l, (order' k l).Perm l)
    (hrun : select order fuel h S [] n = some (.ok (h', dest))) {fuel' : Nat} {h'' : Heap} {dest' : List Nat}
    (hrun' : select order' fuel' h S [] n = some (.ok (h'', dest'))) (y : Nat) : (h' y).rank = (h'' y).rank := by
  obtain ⟨K, hs, hc, hl⟩ := select_run hS hIs horder hrun
  obtain ⟨K', hs', hc', hl'⟩ := select_run hS hIs horder' hrun'
  have hK : K = K' := le_antisymm (hc'.rounds hc (by omega)) (hc.rounds hc' (by omega))
  subst hK
  by_cases hy : y ∉ S ∨ Rest (Dominates dirs vec) S K y
  · rw [hs.other y hy, hs'.other y hy]
  · obtain ⟨hyS, hyr⟩ := not_or.1 hy
    rw [not_not] at hyS
    obtain ⟨j, hj, hL⟩ := (not_rest hyS).1 hyr
    obtain ⟨c, he⟩ := hs.ranked j hj y hL
    obtain ⟨c', he'⟩ := hs'.ranked j hj y hL
    rw [he, he']

/-! ## Crowding -/

/-- C51: the crowding of every layer that has a survivor is the one of the definition (`Crowded`): each
objective sorts the layer; infinite at both ends of one of these listings, and otherwise the sum of the normalised
gaps between the two neighbours, a gap being 0 for an objective that is the same in the whole layer. -/
theorem C51_crowding (hS : S.Nodup) (hIs : ∀ r ∈ S, (h r).Is dirs (vec r)) (horder : ∀ k l, (order k l).Perm l)
    (hrun : select order fuel h S [] n = some (.ok (h', dest))) {x k : Nat} (hx : x ∈ dest)
    (hL : Layer (Dominates dirs vec) S k x) :
    ∃ front : List Nat, front.Nodup ∧ (∀ r, r ∈ front ↔ Layer (Dominates dirs vec) S k r) ∧
      Crowded vec dirs.length front (fun r => (h' r).crowding) := by
  obtain ⟨K, hs, hc, -⟩ := select_run hS hIs horder hrun
  obtain ⟨j, hj, hL'⟩ := hc.layer hx
  obtain rfl := hL'.unique hL
  obtain ⟨front, -, h1, h2, h3⟩ := hs.crowded j hj
  exact ⟨front, h1, h2, h3⟩

theorem head_le {R : Nat → Nat → Prop} (hR : ∀ x, R x x) {l : List Nat} {x lo : Nat} (hp : l.Pairwise R)
    (hl : l.head? = some lo) (hx : x ∈ l) : R lo x := by
  cases l with
  | nil => simp at hl
  | cons a l =>
    simp only [List.head?_cons, Option.some.injEq] at hl
    subst hl
    rcases List.mem_cons.1 hx with rfl | hx
    · exact hR x
    · exact (List.pairwise_cons.1 hp).1 x hx

theorem le_last {R : Nat → Nat → Prop} (hR : ∀ x, R x x) {l : List Nat} {x hi : Nat} (hp : l.Pairwise R)
    (hl : l.getLast? = some hi) (hx : x ∈ l) : R x hi := by
  obtain ⟨l', rfl⟩ : ∃ l', l = l' ++ [hi] := by
    rw [List.getLast?_eq_some_iff] at hl
    exact hl
  rcases List.mem_append.1 hx with hx | hx
  · exact (List.pairwise_append.1 hp).2.2 x hx hi (by simp)
  · simp only [List.mem_singleton] at hx
    subst hx
    exact hR x

/-- The listings of a crowded front. -/
theorem Crowded.extremes {m : Nat} {front : List Nat} {crowd : Nat → Crowd} (hc : Crowded vec m front crowd)
    (hne : front ≠ []) {i : Nat} (hi : i < m) :
    (∃ lo ∈ front, crowd lo = .inf ∧ ∀ y ∈ front, val vec i lo ≤ val vec i y) ∧
    (∃ up ∈ front, crowd up = .inf ∧ ∀ y ∈ front, val vec i y ≤ val vec i up) := by
  obtain ⟨L, hL, hr⟩ := hc
  obtain ⟨hp, hs⟩ := hL i hi
  have hLne : L i ≠ [] := fun h0 => hne (by rw [h0] at hp; exact hp.symm.eq_nil)
  obtain ⟨lo, hlo⟩ : ∃ lo, (L i).head? = some lo := by
    cases hl : L i with
    | nil => exact absurd hl hLne
    | cons a l => exact ⟨a, rfl⟩
  obtain ⟨up, hup⟩ : ∃ up, (L i).getLast? = some up := ⟨_, List.getLast?_eq_some_getLast hLne⟩
  have hlom : lo ∈ front := hp.mem_iff.1 (List.mem_of_head? hlo)
  have hupm : up ∈ front := hp.mem_iff.1 (List.mem_of_getLast? hup)
  exact ⟨⟨lo, hlom, (hr lo hlom).1 ⟨i, hi, .inl hlo⟩, fun y hy => head_le (R := fun a b => val vec i a ≤ val vec i b) (fun _ => le_refl _) hs hlo (hp.mem_iff.2 hy)⟩,
    ⟨up, hupm, (hr up hupm).1 ⟨i, hi, .inr hup⟩, fun y hy => le_last (R := fun a b => val vec i a ≤ val vec i b) (fun _ => le_refl _) hs hup (hp.mem_iff.2 hy)⟩⟩

theorem IsGap.bounds {j r : Nat} {l : List Nat} {g : ℚ} (hg : IsGap vec j l r g)
    (hs : l.Pairwise fun a b => val vec j a ≤ val vec j b) : 0 ≤ g ∧ g ≤ 1 := by
  obtain ⟨pre, a, c, post, lo, hi, hl, hlo, hhi, h | h⟩ := hg
  · rw [h.2]; constructor <;> norm_num
  · rw [h.2]
    have h1 : val vec j lo ≤ val vec j a := head_le (R := fun a b => val vec j a ≤ val vec j b) (fun _ => le_refl _) hs hlo (by rw [hl]; simp)
    have h2 : val vec j c ≤ val vec j hi := le_last (R := fun a b => val vec j a ≤ val vec j b) (fun _ => le_refl _) hs hhi (by rw [hl]; simp)
    have h3 : val vec j a ≤ val vec j c := by
      rw [hl, List.pairwise_append] at hs
      exact (List.pairwise_cons.1 hs.2.1).1 c (by simp)
    have h4 : 0 < val vec j hi - val vec j lo := by
      rcases lt_or_eq_of_le (show val vec j lo ≤ val vec j hi by linarith) with h5 | h5
      · linarith
      · exact absurd h5.symm h.1
    constructor
    · exact div_nonneg (by linarith) h4.le
    · rw [div_le_one h4]; linarith

/-- C51: in every layer that has a survivor and for every objective, one that has the least value and one that
has the greatest value of the layer have infinite crowding. -/
theorem C51_extremes (hS : S.Nodup) (hIs : ∀ r ∈ S, (h r).Is dirs (vec r)) (horder : ∀ k l, (order k l).Perm l)
    (hrun : select order fuel h S [] n = some (.ok (h', dest))) {x k : Nat} (hx : x ∈ dest)
    (hL : Layer (Dominates dirs vec) S k x) {i : Nat} (hi : i < dirs.length) :
    (∃ lo, Layer (Dominates dirs vec) S k lo ∧ (h' lo).crowding = .inf ∧
      ∀ y, Layer (Dominates dirs vec) S k y → val vec i lo ≤ val vec i y) ∧
    (∃ up, Layer (Dominates dirs vec) S k up ∧ (h' up).crowding = .inf ∧
      ∀ y, Layer (Dominates dirs vec) S k y → val vec i y ≤ val vec i up) := by
  obtain ⟨front, h1, h2, h3⟩ := C51_crowding hS hIs horder hrun hx hL
  obtain ⟨⟨lo, a1, a2, a3⟩, ⟨up, b1, b2, b3⟩⟩ := h3.extremes (List.ne_nil_of_mem ((h2 x).2 hL)) hi
  exact ⟨⟨lo, (h2 lo).1 a1, a2, fun y hy => a3 y ((h2 y).2 hy)⟩, ⟨up, (h2 up).1 b1, b2, fun y hy => b3 y ((h2 y).2 hy)⟩⟩

theorem Crowded.bounds {m : Nat} {front : List Nat} {crowd : Nat → Crowd} (hc : Crowded vec m front crowd) {y : Nat}
    (hy : y ∈ front) {q : ℚ} (hq : crowd y = .fin q) : 0 ≤ q ∧ q ≤ m := by
  obtain ⟨L, hL, hr⟩ := hc
  obtain ⟨hr1, hr2⟩ := hr y hy
  have hno : ∀ j < m, ¬ AtEnd (L j) y := fun j hj hc => by
    rw [hr1 ⟨j, hj, hc⟩] at hq; simp at hq
  obtain ⟨g, hg, he⟩ := hr2 hno
  rw [hq] at he
  simp only [Crowd.fin.injEq] at he
  rw [he]
  have hb : ∀ j ∈ List.range m, 0 ≤ g j ∧ g j ≤ 1 := fun j hj =>
    (hg j (List.mem_range.1 hj)).bounds (hL j (List.mem_range.1 hj)).2
  clear hr1 hr2 hno he hg hL
  constructor
  · refine List.sum_nonneg fun q hq => ?_
    obtain ⟨j, hj, rfl⟩ := List.mem_map.1 hq
    exact (hb j hj).1
  · have : ∀ (l : List Nat), (∀ j ∈ l, 0 ≤ g j ∧ g j ≤ 1) → (l.map g).sum ≤ l.length := by
      intro l
      induction l with
      | nil => simp
      | cons a l ih =>
        intro h
        have h1 := ih fun j hj => h j (by simp [hj])
        have h2 := h a (by simp)
        simp only [List.map_cons, List.sum_cons, List.length_cons]
        push_cast
        linarith
    simpa using this _ hb

/-- C51: every other crowding value is between 0 and the number of objectives. -/
theorem C51_bounds (hS : S.Nodup) (hIs : ∀ r ∈ S, (h r).Is dirs (vec r)) (horder : ∀ k l, (order k l).Perm l)
    (hrun : select order fuel h S [] n = some (.ok (h', dest))) {x k : Nat} (hx : x ∈ dest)
    (hL : Layer (Dominates dirs vec) S k x) {y : Nat} (hy : Layer (Dominates dirs vec) S k y) {q : ℚ}
    (hq : (h' y).crowding = .fin q) : 0 ≤ q ∧ q ≤ dirs.length := by
  obtain ⟨front, h1, h2, h3⟩ := C51_crowding hS hIs horder hrun hx hL
  exact h3.bounds ((h2 y).2 hy) hq

/-! ## A concrete run -/

/-- Six individuals with two objectives to be minimised: layers {0, 1, 2}, {3, 4}, {5}. -/
def exVec : Nat → List ℚ
  | 0 => [0, 4] | 1 => [1, 1] | 2 => [4, 0] | 3 => [2, 3] | 4 => [3, 2] | _ => [5, 5]

/-- Their fitness objects. -/
def exHeap : Heap := fun r => exFit (exVec r) (.fin 0) none

theorem exHeap_is : ∀ r ∈ List.range 6, (exHeap r).Is [false, false] (exVec r) := by
  intro r hr
  refine ⟨rfl, rfl, ?_⟩
  simp only [List.mem_range] at hr
  have : r = 0 ∨ r = 1 ∨ r = 2 ∨ r = 3 ∨ r = 4 ∨ r = 5 := by omega
  rcases this with rfl | rfl | rfl | rfl | rfl | rfl <;> rfl

/-- What is observed of a run in the examples: survivors, ranks and crowding of the six individuals. -/
def observe : Option (Except Err (Heap × List Nat)) → Option (List Nat × List (Option Nat × Crowd))
  | some (.ok (h, dest)) => some (dest, (List.range 6).map fun r => ((h r).rank, (h r).crowding))
  | _ => none


theorem exSorted : ∃ h', select (fun _ l => l) 7 exHeap (List.range 6) [] (some 4) = some (.ok (h', [2, 1, 0, 4])) ∧
    (List.range 6).map (fun r => ((h' r).rank, (h' r).crowding)) =
      [(some 1, .inf), (some 1, .fin 2), (some 1, .inf), (some 2, .inf), (some 2, .inf), (none, .fin 0)] := by
  have h : observe (select (fun _ l => l) 7 exHeap (List.range 6) [] (some 4)) = some ([2, 1, 0, 4],
      [(some 1, .inf), (some 1, .fin 2), (some 1, .inf), (some 2, .inf), (some 2, .inf), (none, .fin 0)]) := by
    decide +kernel
  revert h
  generalize select (fun _ l => l) 7 exHeap (List.range 6) [] (some 4) = r
  rcases r with _ | _ | ⟨h', dest⟩ <;> intro h
  · cases h
  · cases h
  · simp only [observe, Option.some.injEq, Prod.mk.injEq] at h
    exact ⟨h', by rw [h.1], h.2⟩

theorem exSortedAll : ∃ h', select (fun _ l => l.reverse) 7 exHeap (List.range 6) [] (some 6) =
    some (.ok (h', [2, 1, 0, 4, 3, 5])) ∧ (h' 3).rank = some 2 := by
  have h : (observe (select (fun _ l => l.reverse) 7 exHeap (List.range 6) [] (some 6))).map
      (fun r => (r.1, r.2.map (·.1))) =
      some ([2, 1, 0, 4, 3, 5], [some 1, some 1, some 1, some 2, some 2, some 3]) := by
    decide +kernel
  revert h
  generalize select (fun _ l => l.reverse) 7 exHeap (List.range 6) [] (some 6) = r
  rcases r with _ | _ | ⟨h', dest⟩ <;> intro h
  · cases h
  · cases h
  · simp only [observe, Option.map_some, Option.some.injEq, Prod.mk.injEq, List.range, List.range.loop, List.map_cons,
      List.map_nil, List.cons.injEq] at h
    exact ⟨h', by rw [h.1], h.2.2.2.2.1⟩

/-- C50 at work: four of the six survive, the whole first layer among them, and more than six are refused. -/
example : (∃ h' dest, select (fun _ l => l) 7 exHeap (List.range 6) [] (some 4) = some (.ok (h', dest))) ∧
    select (fun _ l => l) 7 exHeap (List.range 6) [] (some 7) = some (.error .indexError) :=
  ⟨(C50_terminates List.nodup_range exHeap_is (fun _ l => .refl l) (by simp)).1 (by decide),
   (C50_terminates List.nodup_range exHeap_is (fun _ l => .refl l) (by simp)).2 (by decide)⟩

/-- C49 to C51 at work: layers from ranks, ranks from layers, the cut, the frame and the extremes. -/
example : ∃ h', select (fun _ l => l) 7 exHeap (List.range 6) [] (some 4) = some (.ok (h', [2, 1, 0, 4])) ∧
    Layer (Dominates [false, false] exVec) (List.range 6) 0 1 ∧
    Layer (Dominates [false, false] exVec) (List.range 6) 1 4 ∧
    ¬ Layer (Dominates [false, false] exVec) (List.range 6) 0 4 ∧
    (∀ y, Layer (Dominates [false, false] exVec) (List.range 6) 1 y → (h' y).rank = some 2) ∧
    h' 5 = exHeap 5 ∧
    (∃ lo, Layer (Dominates [false, false] exVec) (List.range 6) 1 lo ∧ (h' lo).crowding = .inf ∧
      ∀ y, Layer (Dominates [false, false] exVec) (List.range 6) 1 y → val exVec 0 lo ≤ val exVec 0 y) ∧
    (0 : ℚ) ≤ 2 ∧ (2 : ℚ) ≤ [false, false].length := by
  obtain ⟨h', hrun, ho⟩ := exSorted
  simp only [List.range, List.range.loop, List.map_cons, List.map_nil, List.cons.injEq, Prod.mk.injEq, and_true] at ho
  obtain ⟨⟨-, -⟩, ⟨a1, b1⟩, -, -, ⟨a4, -⟩, ⟨a5, b5⟩⟩ := ho
  have hL1 := (C49_survivor List.nodup_range exHeap_is (fun _ l => .refl l) hrun (x := 1) (by simp) 0).1 a1
  have hL4 := (C49_survivor List.nodup_range exHeap_is (fun _ l => .refl l) hrun (x := 4) (by simp) 1).1 a4
  refine ⟨h', hrun, hL1, hL4, fun h => ?_, fun y hy => ?_, ?_, ?_, ?_⟩
  · have := (C49_survivor List.nodup_range exHeap_is (fun _ l => .refl l) hrun (x := 4) (by simp) 0).2 h
    rw [a4] at this
    exact absurd this (by decide)
  · exact C49_layers List.nodup_range exHeap_is (fun _ l => .refl l) hrun (x := 4) (by simp) hL4 (Nat.le_refl 1) hy
  · have := (C49_frame List.nodup_range exHeap_is (fun _ l => .refl l) hrun 5).2
    rw [this, a5, b5]
    rfl
  · exact (C51_extremes List.nodup_range exHeap_is (fun _ l => .refl l) hrun (x := 4) (by simp) hL4 (by simp)).1
  · exact C51_bounds List.nodup_range exHeap_is (fun _ l => .refl l) hrun (x := 1) (by simp) hL1 hL1 b1

/-- C50 at work: the individual 3 is in the layer of 4 and does not survive; its crowding is not the greater one. -/
example : ∃ h', select (fun _ l => l) 7 exHeap (List.range 6) [] (some 4) = some (.ok (h', [2, 1, 0, 4])) ∧
    (h' 3).crowding.le (h' 4).crowding = true := by
  obtain ⟨h', hrun, ho⟩ := exSorted
  simp only [List.range, List.range.loop, List.map_cons, List.map_nil, List.cons.injEq, Prod.mk.injEq, and_true] at ho
  obtain ⟨-, -, -, -, ⟨a4, -⟩, -⟩ := ho
  have hL4 := (C49_survivor List.nodup_range exHeap_is (fun _ l => .refl l) hrun (x := 4) (by simp) 1).1 a4
  obtain ⟨h6, hrun6, ho6⟩ := exSortedAll
  have hL3 := (C49_survivor List.nodup_range exHeap_is (fun _ l => List.reverse_perm l) hrun6 (x := 3) (by simp) 1).1 ho6
  exact ⟨h', hrun, C50_cut List.nodup_range exHeap_is (fun _ l => .refl l) hrun (by simp) (by simp) hL4 hL3⟩

/-- C49 at work: with the sets iterated in reverse and only four survivors, the ranks are the same. -/
example : ∃ h' h'' dest', select (fun _ l => l) 7 exHeap (List.range 6) [] (some 4) = some (.ok (h', [2, 1, 0, 4])) ∧
    select (fun _ l => l.reverse) 7 exHeap (List.range 6) [] (some 4) = some (.ok (h'', dest')) ∧
    (h' 3).rank = (h'' 3).rank := by
  obtain ⟨h', hrun, -⟩ := exSorted
  obtain ⟨h'', dest', hrun'⟩ := (C50_terminates (order := fun _ l => l.reverse) (n := some 4) (fuel := 7)
    List.nodup_range exHeap_is (fun _ l => List.reverse_perm l) (by simp)).1 (by decide)
  exact ⟨h', h'', dest', hrun, hrun', C49_order_independent List.nodup_range exHeap_is (fun _ l => .refl l)
    (fun _ l => List.reverse_perm l) hrun hrun' 3⟩

end Verif.Moo
