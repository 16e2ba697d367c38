import Verif.Props.NSGA2Sorting

/-! # What survives front sorting: extreme values, and the first front if it fits -/

namespace Verif.Moo

variable {dirs : List Bool} {vec : Nat → List ℚ} {S : List Nat} {h h' : Heap} {n : Option Int} {fuel : Nat}
  {order : Nat → List Nat → List Nat} {dest : List Nat}

theorem AtLeast.refl (d : Bool) (a : ℚ) : AtLeast d a a := by
  unfold AtLeast
  split_ifs <;> exact le_refl a

theorem Pareto.at {a b : List ℚ} (hp : Pareto dirs a b) (ha : a.length = dirs.length) (hb : b.length = dirs.length)
    {i : Nat} {d : Bool} (hd : dirs[i]? = some d) : AtLeast d (a.getD i 0) (b.getD i 0) := by
  have hi : i < dirs.length := by
    rcases Nat.lt_or_ge i dirs.length with h | h
    · exact h
    · rw [List.getElem?_eq_none h] at hd; simp at hd
  refine hp.1 i d _ _ hd ?_ ?_
  · rw [List.getD_eq_getElem?_getD, List.getElem?_eq_getElem (by omega)]; rfl
  · rw [List.getD_eq_getElem?_getD, List.getElem?_eq_getElem (by omega)]; rfl

/-- Above every individual there is one of the first layer. -/
theorem exists_front_above (hlen : ∀ r ∈ S, (vec r).length = dirs.length) {x : Nat} (hx : x ∈ S) :
    ∃ y, Layer (Dominates dirs vec) S 0 y ∧ (y = x ∨ Pareto dirs (vec y) (vec x)) := by
  classical
  obtain ⟨y, hy, hmin⟩ := exists_minimal (D := Dominates dirs vec)
    (L := S.filter fun z => decide (z = x ∨ Pareto dirs (vec z) (vec x)))
    (List.ne_nil_of_mem (a := x) (by simp [hx])) (fun _ _ => Pareto.irrefl)
    (fun a ha b hb c _ h1 h2 => Pareto.trans (hlen a (List.mem_filter.1 ha).1) (hlen b (List.mem_filter.1 hb).1) h1 h2)
  simp only [List.mem_filter, decide_eq_true_eq] at hy hmin
  refine ⟨y, ⟨hy.1, fun z hz hzy => ?_⟩, hy.2⟩
  refine hmin z ⟨hz, .inr ?_⟩ hzy
  rcases hy.2 with rfl | h
  · exact hzy
  · exact Pareto.trans (hlen z hz) (hlen y hy.1) hzy h

/-- If one of the first layer is removed, all survivors are of the first layer. -/
theorem Chosen.first {D : Nat → Nat → Prop} {K : Nat} (hc : Chosen D S K h dest) {y : Nat} (hy : Layer D S 0 y)
    (hyn : y ∉ dest) : ∀ x ∈ dest, Layer D S 0 x := by
  intro x hx
  obtain ⟨j, hj, hL⟩ := hc.layer hx
  have hK : K ≤ 1 := by
    by_contra hK
    exact hyn (hc.all y hy.1.mem ((not_rest hy.1.mem).2 ⟨0, by omega, hy⟩))
  obtain rfl : j = 0 := by omega
  exact hL

/-- At most two individuals of a front for each objective have infinite crowding. -/
theorem Crowded.infinite {m : Nat} {front l : List Nat} {crowd : Nat → Crowd} (hc : Crowded vec m front crowd)
    (hl : l.Nodup) (hf : ∀ x ∈ l, x ∈ front) (hi : ∀ x ∈ l, crowd x = .inf) : l.length ≤ 2 * m := by
  obtain ⟨L, -, hr⟩ := hc
  have hsub : ∀ x ∈ l, x ∈ (List.range m).flatMap fun j => (L j).head?.toList ++ (L j).getLast?.toList := by
    intro x hx
    have : ∃ j < m, AtEnd (L j) x := by
      by_contra hno
      obtain ⟨g, -, he⟩ := (hr x (hf x hx)).2 fun j hj hc => hno ⟨j, hj, hc⟩
      rw [hi x hx] at he
      simp at he
    obtain ⟨j, hj, he⟩ := this
    refine List.mem_flatMap.2 ⟨j, List.mem_range.2 hj, ?_⟩
    rcases he with he | he <;> simp [he]
  have h1 := (List.subperm_of_subset hl hsub).length_le
  have h2 : ∀ js : List Nat, (js.flatMap fun j => (L j).head?.toList ++ (L j).getLast?.toList).length ≤ 2 * js.length := by
    intro js
    induction js with
    | nil => simp
    | cons j js ih =>
      simp only [List.flatMap_cons, List.length_append, List.length_cons]
      have a : (L j).head?.toList.length ≤ 1 := by cases (L j).head? <;> simp
      have b : (L j).getLast?.toList.length ≤ 1 := by cases (L j).getLast? <;> simp
      omega
  have h3 := h2 (List.range m)
  rw [List.length_range] at h3
  omega

/-- For every objective front sorting keeps a best value, if at least two survivors for each objective are wanted. -/
theorem select_keeps_extreme (hS : S.Nodup) (hIs : ∀ r ∈ S, (h r).Is dirs (vec r)) (horder : ∀ k l, (order k l).Perm l)
    (hrun : select order fuel h S [] n = some (.ok (h', dest))) (hsize : 2 * dirs.length ≤ dest.length)
    {i : Nat} {d : Bool} (hd : dirs[i]? = some d) {x : Nat} (hx : x ∈ S) :
    ∃ y ∈ dest, AtLeast d (val vec i y) (val vec i x) := by
  have hlen : ∀ r ∈ S, (vec r).length = dirs.length := fun r hr => (hIs r hr).length
  have hi : i < dirs.length := by
    rcases Nat.lt_or_ge i dirs.length with h | h
    · exact h
    · rw [List.getElem?_eq_none h] at hd; simp at hd
  obtain ⟨z, hz, hzx⟩ := exists_front_above (dirs := dirs) hlen hx
  have hzx' : AtLeast d (val vec i z) (val vec i x) := by
    rcases hzx with rfl | hp
    · exact AtLeast.refl _ _
    · exact hp.at (hlen z hz.1.mem) (hlen x hx) hd
  by_cases hzd : z ∈ dest
  · exact ⟨z, hzd, hzx'⟩
  obtain ⟨K, hs, hc, -⟩ := select_run hS hIs horder hrun
  have hfirst := hc.first hz hzd
  obtain ⟨a, ha⟩ : ∃ a, a ∈ dest := by
    cases hdest : dest with
    | nil => rw [hdest, List.length_nil] at hsize; omega
    | cons a l => exact ⟨a, by simp⟩
  obtain ⟨front, f1, f2, f3⟩ := C51_crowding hS hIs horder hrun ha (hfirst a ha)
  obtain ⟨e, he, hei, hez⟩ : ∃ e, Layer (Dominates dirs vec) S 0 e ∧ (h' e).crowding = .inf ∧
      AtLeast d (val vec i e) (val vec i z) := by
    obtain ⟨⟨lo, a1, a2, a3⟩, ⟨up, b1, b2, b3⟩⟩ := C51_extremes hS hIs horder hrun ha (hfirst a ha) hi
    cases d with
    | true => exact ⟨up, b1, b2, by simpa [AtLeast] using b3 z hz⟩
    | false => exact ⟨lo, a1, a2, by simpa [AtLeast] using a3 z hz⟩
  by_cases hed : e ∈ dest
  · exact ⟨e, hed, hez.trans hzx'⟩
  exfalso
  have hinf : ∀ y ∈ e :: dest, (h' y).crowding = .inf := by
    intro y hy
    rcases List.mem_cons.1 hy with rfl | hy
    · exact hei
    · have := C50_cut hS hIs horder hrun hy hed (hfirst y hy) he
      rw [hei] at this
      cases hcy : (h' y).crowding with
      | inf => rfl
      | fin q => rw [hcy] at this; simp [Crowd.le] at this
  have := f3.infinite (l := e :: dest) (List.nodup_cons.2 ⟨hed, hc.nodup⟩) (fun y hy => by
    rcases List.mem_cons.1 hy with rfl | hy
    · exact (f2 _).2 he
    · exact (f2 _).2 (hfirst y hy)) hinf
  simp only [List.length_cons] at this
  omega

/-- If the non-dominated individuals fit into the survivors, every individual is a survivor or dominated by one. -/
theorem select_keeps_front (hS : S.Nodup) (hIs : ∀ r ∈ S, (h r).Is dirs (vec r)) (horder : ∀ k l, (order k l).Perm l)
    (hrun : select order fuel h S [] n = some (.ok (h', dest))) {front : List Nat} (hfit : front.length ≤ dest.length)
    (hfront : ∀ x ∈ S, (∀ y ∈ S, ¬ Pareto dirs (vec y) (vec x)) → x ∈ front) {x : Nat} (hx : x ∈ S) :
    ∃ y ∈ dest, y = x ∨ Pareto dirs (vec y) (vec x) := by
  have hlen : ∀ r ∈ S, (vec r).length = dirs.length := fun r hr => (hIs r hr).length
  obtain ⟨z, hz, hzx⟩ := exists_front_above (dirs := dirs) hlen hx
  refine ⟨z, ?_, hzx⟩
  by_contra hzd
  obtain ⟨K, hs, hc, -⟩ := select_run hS hIs horder hrun
  have hfirst := hc.first hz hzd
  have := (List.subperm_of_subset (List.nodup_cons.2 ⟨hzd, hc.nodup⟩) (fun y hy => by
    have hL : Layer (Dominates dirs vec) S 0 y := by
      rcases List.mem_cons.1 hy with rfl | hy
      · exact hz
      · exact hfirst y hy
    exact hfront y hL.1.mem fun w hw => hL.2 w hw)).length_le
  simp only [List.length_cons] at this
  omega

end Verif.Moo
