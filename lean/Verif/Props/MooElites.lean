import Verif.Lemmas.MooRun
import Verif.Props.Selection
import Verif.Py.Sim

/-! # C170: which individuals are elites when there are several objectives -/

namespace Verif.Moo
open PyM
variable {G : Type}

/-- `a` is better than `b` in the first objective in which they differ. -/
def LexBetter (hib : Bool) (a b : List ℚ) : Prop :=
  ∃ (j : Nat) (x y : ℚ), a[j]? = some x ∧ b[j]? = some y ∧ Better hib x y ∧ ∀ i < j, a[i]? = b[i]?

theorem LexBetter.cons {hib : Bool} {a b : List ℚ} {x y : ℚ} :
    LexBetter hib (x :: a) (y :: b) ↔ Better hib x y ∨ x = y ∧ LexBetter hib a b := by
  constructor
  · rintro ⟨j, u, v, h1, h2, h3, h4⟩
    cases j with
    | zero => simp at h1 h2; subst h1 h2; exact .inl h3
    | succ j =>
      refine .inr ⟨by simpa using h4 0 (by omega), j, u, v, by simpa using h1, by simpa using h2, h3, fun i hi => ?_⟩
      simpa using h4 (i + 1) (by omega)
  · rintro (h | ⟨rfl, j, u, v, h1, h2, h3, h4⟩)
    · exact ⟨0, x, y, rfl, rfl, h, by simp⟩
    · refine ⟨j + 1, u, v, by simpa using h1, by simpa using h2, h3, fun i hi => ?_⟩
      cases i with
      | zero => rfl
      | succ i => simpa using h4 i (by omega)

theorem lexLe_iff {a b : List ℚ} (h : a.length = b.length) : lexLe a b = true ↔ ¬ LexBetter true a b := by
  induction a generalizing b with
  | nil =>
    cases b with
    | nil => simp [lexLe, LexBetter]
    | cons => simp at h
  | cons x a ih =>
    cases b with
    | nil => simp at h
    | cons y b =>
      rw [LexBetter.cons, lexLe]
      have := ih (b := b) (by simpa using h)
      by_cases h1 : x < y
      · simp [h1, Better, not_lt.2 h1.le, h1.ne]
      · by_cases h2 : y < x
        · simp [h1, h2, Better]
        · obtain rfl : x = y := le_antisymm (not_lt.1 h2) (not_lt.1 h1)
          simpa [Better] using this

theorem LexBetter.flip {a b : List ℚ} : LexBetter false a b ↔ LexBetter true b a := by
  constructor <;> rintro ⟨j, x, y, h1, h2, h3, h4⟩ <;> exact ⟨j, y, x, h2, h1, h3, fun i hi => (h4 i hi).symm⟩

theorem lexLe_total (a b : List ℚ) : lexLe a b = true ∨ lexLe b a = true := by
  induction a generalizing b with
  | nil => exact .inl rfl
  | cons x a ih =>
    cases b with
    | nil => exact .inr rfl
    | cons y b =>
      unfold lexLe
      rcases lt_trichotomy x y with h | rfl | h
      · simp [h]
      · simpa using ih b
      · simp [h]

theorem lexLe_trans {a b c : List ℚ} (h1 : lexLe a b = true) (h2 : lexLe b c = true) : lexLe a c = true := by
  induction a generalizing b c with
  | nil => rfl
  | cons x a ih =>
    cases b with
    | nil => simp [lexLe] at h1
    | cons y b =>
      cases c with
      | nil => simp [lexLe] at h2
      | cons z c =>
        unfold lexLe at h1 h2 ⊢
        rcases lt_trichotomy x y with h | rfl | h
        · rcases lt_trichotomy y z with k | rfl | k
          · simp [h.trans k]
          · simp [h]
          · simp [k, not_lt.2 k.le] at h2
        · rcases lt_trichotomy x z with k | rfl | k
          · simp [k]
          · simp at h1 h2 ⊢; exact ih h1 h2
          · simp [k, not_lt.2 k.le] at h2
        · simp [h, not_lt.2 h.le] at h1

theorem lexKeys_eq {h : Heap} {vec : Nat → List ℚ} {rs : List Nat} (hv : ∀ r ∈ rs, (h r).objs = some (vec r)) :
    lexKeys h rs = .ok (rs.map fun r => (r, vec r)) := by
  induction rs with
  | nil => rfl
  | cons r rs ih =>
    have h1 : (h r).pure = .ok (vec r) := by unfold Fit.pure; rw [hv r (by simp)]
    rw [lexKeys, h1, ih fun x hx => hv x (by simp [hx])]
    rfl

/-- What the clones of `refs` are. -/
theorem cloneAll (refs : List Nat) (w : MWorld G) (hx : ∀ r ∈ refs, r < w.next) : ∃ w', mapL cloneM refs w
      = (.ok (List.range' w.next refs.length), w') ∧ w'.tape = w.tape ∧ w'.next = w.next + refs.length ∧
    (∀ x < w.next, w'.genome x = w.genome x ∧ w'.fits x = w.fits x) ∧
    (List.range' w.next refs.length).map w'.genome = refs.map w.genome := by
  induction refs generalizing w with
  | nil => exact ⟨w, rfl, rfl, rfl, fun _ _ => ⟨rfl, rfl⟩, rfl⟩
  | cons r rs ih =>
    set w₁ : MWorld G := { w with
      fits := fun x => if x = w.next then (w.fits r).copy else w.fits x
      genome := fun x => if x = w.next then w.genome r else w.genome x
      next := w.next + 1 } with hw
    have e : cloneM r w = (.ok w.next, w₁) := rfl
    obtain ⟨w', h1, h2, h3, h4, h5⟩ := ih w₁ fun x hx' => by
      have := hx x (by simp [hx']); simp [hw]; omega
    have hold : ∀ x < w.next, w₁.genome x = w.genome x ∧ w₁.fits x = w.fits x := fun x hx' => by
      simp [hw, show x ≠ w.next by omega]
    refine ⟨w', ?_, h2, by rw [h3]; simp [hw]; omega, fun x hx' => ?_, ?_⟩
    · unfold mapL
      rw [bind_of_ok e, bind_of_ok h1]
      simp [List.range'_succ, hw]
    · obtain ⟨a, b⟩ := h4 x (by simp [hw]; omega)
      rw [a, b]
      exact hold x hx'
    · rw [List.length_cons, List.range'_succ, List.map_cons, (h4 w.next (by simp [hw])).1, List.map_cons]
      have e1 : w₁.genome w.next = w.genome r := by simp [hw]
      have e2 : rs.map w₁.genome = rs.map w.genome :=
        List.map_congr_left fun x hx' => (hold x (hx x (by simp [hx']))).1
      rw [e1, ← e2, ← h5]

/-- **C170.** `ElitismSelection` with several objectives appends clones of the individuals that are best in the first
objective in which they differ, ties in the order of the population, and changes nothing else. -/
theorem C170_lexicographic_partial {w : MWorld G} {source : List Nat} {vec : Nat → List ℚ} {m : Nat} (n : Int) (hib : Bool) (dest : List Nat)
    (hx : ∀ r ∈ source, r < w.next) (hv : ∀ r ∈ source, (w.fits r).objs = some (vec r))
    (hm : ∀ r ∈ source, (vec r).length = m) : ∃ (taken left : List Nat) (w' : MWorld G), (taken ++ left).Perm source ∧
      taken.length = Evo.prefixLength n source.length ∧
      elitesM n hib source dest w = (.ok (dest ++ List.range' w.next taken.length), w') ∧
      (List.range' w.next taken.length).map w'.genome = taken.map w.genome ∧
      (∀ x < w.next, w'.genome x = w.genome x ∧ w'.fits x = w.fits x) ∧ w'.tape = w.tape ∧
      (taken ++ left).Pairwise (fun a b => ¬ LexBetter hib (vec b) (vec a)) ∧
      ∀ v, (taken ++ left).filter (fun r => vec r = v) = source.filter fun r => vec r = v := by
  set le : Nat × List ℚ → Nat × List ℚ → Bool := fun a b => if hib then lexLe b.2 a.2 else lexLe a.2 b.2 with hle
  set le' : Nat → Nat → Bool := fun a b => if hib then lexLe (vec b) (vec a) else lexLe (vec a) (vec b) with hle'
  have hs : (Py.sortBy le (source.map fun r => (r, vec r))).map Prod.fst = Py.sortBy le' source := by
    rw [Py.sortBy_map (fun r => (r, vec r)) (le' := le) (le := le') fun a b => rfl, List.map_map]
    exact List.map_id' _
  have htot : ∀ a b, le' a b = true ∨ le' b a = true := fun a b => by
    cases hib <;> simp only [hle', if_true, Bool.false_eq_true, if_false]
    · exact lexLe_total _ _
    · exact lexLe_total _ _
  have htr : ∀ a b c, le' a b = true → le' b c = true → le' a c = true := fun a b c h1 h2 => by
    cases hib <;> simp only [hle', if_true, Bool.false_eq_true, if_false] at h1 h2 ⊢
    · exact lexLe_trans h1 h2
    · exact lexLe_trans h2 h1
  have hpw := Py.sortBy_pairwise htr htot source
  have hperm := Py.sortBy_perm le' source
  set l := Py.sortBy le' source with hl
  set k := Evo.prefixLength n source.length with hk
  have hkl : k ≤ l.length := by rw [hperm.length_eq]; exact Evo.prefixLength_le _ _
  obtain ⟨w', h1, h2, h3, h4, h5⟩ := cloneAll (l.take k) w fun r hr => hx r (hperm.mem_iff.1 (List.mem_of_mem_take hr))
  refine ⟨l.take k, l.drop k, w', by rw [List.take_append_drop]; exact hperm, by simp [hkl], ?_, h5, h4, h2, ?_, ?_⟩
  · unfold elitesM
    rw [bind_of_ok (show PyM.get w = (.ok w, w) from rfl)]
    rw [bind_of_ok (show (ofExcept (lexKeys w.fits source) : MM G _) w = (.ok _, w) by rw [lexKeys_eq hv]; rfl)]
    show (mapL cloneM (Py.slice ((Py.sortBy le (source.map fun r => (r, vec r))).map Prod.fst) 0 n) >>= _) w = _
    rw [hs, Evo.slice_zero, hperm.length_eq, bind_of_ok h1]
    rfl
  · rw [List.take_append_drop]
    refine List.Pairwise.imp_of_mem ?_ hpw
    intro a b ha hb hab
    have hlen : (vec a).length = (vec b).length := by rw [hm a (hperm.mem_iff.1 ha), hm b (hperm.mem_iff.1 hb)]
    cases hib
    · simp only [hle', Bool.false_eq_true, if_false] at hab
      rw [LexBetter.flip]
      exact (lexLe_iff hlen).1 hab
    · simp only [hle', if_true] at hab
      exact (lexLe_iff hlen.symm).1 hab
  · intro v
    rw [List.take_append_drop, hl]
    refine Py.sortBy_stable (fun a b ha hb => ?_) source
    simp only [decide_eq_true_eq] at ha hb
    simp only [hle', ha, hb, ite_self]
    exact (lexLe_total v v).elim id id

/-- Who dominates is better in the first objective in which the two differ, if all objectives have the same direction. -/
theorem Pareto.lexBetter {hib : Bool} {m : Nat} {a b : List ℚ} (ha : a.length = m) (hb : b.length = m)
    (h : Pareto (List.replicate m hib) a b) : LexBetter hib a b := by
  induction m generalizing a b with
  | zero =>
    obtain ⟨-, i, d, x, y, h1, -⟩ := h
    simp at h1
  | succ m ih =>
    cases a with
    | nil => simp at ha
    | cons x a =>
      cases b with
      | nil => simp at hb
      | cons y b =>
        obtain ⟨h1, i, d, u, v, h2, h3, h4, h5⟩ := h
        have h0 := h1 0 hib x y (by simp [List.replicate_succ]) rfl rfl
        rw [LexBetter.cons]
        by_cases hxy : x = y
        · refine .inr ⟨hxy, ih (by simpa using ha) (by simpa using hb) ⟨fun j d p q e1 e2 e3 => ?_, ?_⟩⟩
          · exact h1 (j + 1) d p q (by simpa [List.replicate_succ] using e1) (by simpa using e2) (by simpa using e3)
          · cases i with
            | zero =>
              simp [List.replicate_succ] at h2 h3 h4
              subst h2 h3 h4 hxy
              cases hib <;> simp [Better] at h5
            | succ i => exact ⟨i, d, u, v, by simpa [List.replicate_succ] using h2, by simpa using h3, by simpa using h4, h5⟩
        · left
          cases hib <;> simp only [AtLeast, Better] at h0 ⊢
          · exact lt_of_le_of_ne h0 hxy
          · exact lt_of_le_of_ne h0 (Ne.symm hxy)

/-- C170: no individual that is left out dominates an elite, and no individual dominates the first elite. -/
def C170_statement : Prop :=
  ∀ (w : MWorld Nat) (source : List Nat) (vec : Nat → List ℚ) (dirs : List Bool) (n : Nat) (hib : Bool) (res : List Nat) (w' : MWorld Nat),
    (∀ r ∈ source, r < w.next) → (∀ r ∈ source, (w.fits r).Is dirs (vec r)) → elitesM n hib source [] w = (.ok res, w') →
    ∃ taken left : List Nat, (taken ++ left).Perm source ∧ res.map w'.genome = taken.map w.genome ∧
      (∀ t ∈ taken, ∀ o ∈ left, ¬ Pareto dirs (vec o) (vec t)) ∧
      ∀ t, taken.head? = some t → ∀ o ∈ source, ¬ Pareto dirs (vec o) (vec t)

/-- **C170 (partial).** It holds if all objectives have the direction of the sub-population; no later elite dominates an
earlier one, either.  What is missing: objectives with different directions. -/
theorem C170_partial {w w' : MWorld G} {source res : List Nat} {vec : Nat → List ℚ} {m : Nat} {n : Int} {hib : Bool}
    (hx : ∀ r ∈ source, r < w.next) (hv : ∀ r ∈ source, (w.fits r).Is (List.replicate m hib) (vec r))
    (hirr : elitesM n hib source [] w = (.ok res, w')) :
    ∃ taken left : List Nat, (taken ++ left).Perm source ∧ taken.length = Evo.prefixLength n source.length ∧
      res.map w'.genome = taken.map w.genome ∧
      taken.Pairwise (fun a b => ¬ Pareto (List.replicate m hib) (vec b) (vec a)) ∧
      (∀ t ∈ taken, ∀ o ∈ left, ¬ Pareto (List.replicate m hib) (vec o) (vec t)) ∧
      ∀ t, taken.head? = some t → ∀ o ∈ source, ¬ Pareto (List.replicate m hib) (vec o) (vec t) := by
  have hm : ∀ r ∈ source, (vec r).length = m := fun r hr => by simpa using (hv r hr).length
  obtain ⟨taken, left, w₁, h1, h2, h3, h4, -, -, h5, -⟩ := C170_lexicographic_partial n hib [] hx (fun r hr => (hv r hr).objs) hm
  rw [hirr, Prod.mk.injEq, Except.ok.injEq] at h3
  obtain ⟨rfl, rfl⟩ := h3
  have hp : (taken ++ left).Pairwise (fun a b => ¬ Pareto (List.replicate m hib) (vec b) (vec a)) :=
    List.Pairwise.imp_of_mem (fun {a b} ha hb hab hd =>
      hab (hd.lexBetter (hm b (h1.mem_iff.1 hb)) (hm a (h1.mem_iff.1 ha)))) h5
  obtain ⟨p1, p2, p3⟩ := List.pairwise_append.1 hp
  refine ⟨taken, left, h1, h2, by simpa using h4, p1, p3, fun t ht o ho hd => ?_⟩
  cases taken with
  | nil => simp at ht
  | cons t' ts =>
    simp only [List.head?_cons, Option.some.injEq] at ht
    subst ht
    have ho' := h1.mem_iff.2 ho
    rw [List.cons_append, List.mem_cons] at ho'
    rcases ho' with rfl | ho'
    · obtain ⟨-, i, d, x, y, -, e2, e3, e4⟩ := hd
      rw [e2, Option.some.injEq] at e3
      subst e3
      cases d <;> simp [Better] at e4
    · exact (List.pairwise_cons.1 hp).1 o ho' hd

/-- Two individuals; the first objective is to be maximised, the second to be minimised. -/
def exMixed : MWorld Nat :=
  ⟨fun r => ⟨some (if r = 0 then [1, 5] else [1, 3]), .each [true, false], true, false, .fin 0, none⟩, fun r => r, 2, fun n => n⟩

/-- **C170 is false** for objectives with different directions: of (1, 5) and (1, 3) the first becomes the elite. -/
theorem C170_refuted : ¬ C170_statement := by
  intro h
  have hrun : elitesM 1 true [0, 1] [] exMixed = (.ok [2], (elitesM 1 true [0, 1] [] exMixed).2) := by
    refine Prod.ext ?_ rfl
    decide +kernel
  obtain ⟨taken, left, h1, h2, h3, -⟩ := h exMixed [0, 1] (fun r => if r = 0 then [1, 5] else [1, 3]) [true, false] 1 true _ _
    (by simp [exMixed]) (by simp [exMixed]; exact ⟨⟨rfl, rfl, rfl⟩, rfl, rfl, rfl⟩) hrun
  have hg : [2].map (elitesM 1 true [0, 1] [] exMixed).2.genome = [0] := by decide +kernel
  rw [hg] at h2
  have ht : taken = [0] := by simpa [exMixed] using h2.symm
  subst ht
  have hl : left = [1] := by
    have := (List.perm_cons 0).1 h1
    exact List.perm_singleton.1 this
  subst hl
  refine h3 0 (by simp) 1 (by simp) ⟨?_, 1, false, 3, 5, rfl, rfl, rfl, by norm_num [Better]⟩
  intro i d x y e1 e2 e3
  match i with
  | 0 => simp at e1 e2 e3; subst e1 e2 e3; simp [AtLeast]
  | 1 => simp at e1 e2 e3; subst e1 e2 e3; norm_num [AtLeast]
  | i + 2 => simp at e1

/-- Three individuals with two objectives that are both to be maximised. -/
def exAlike : MWorld Nat :=
  ⟨fun r => ⟨some ([[1, 5], [2, 0], [2, 1]].getD r []), .each [true, true], true, false, .fin 0, none⟩, fun r => r + 10, 3, fun n => n⟩

example : (elitesM 2 true [0, 1, 2] [] exAlike).1 = .ok [3, 4] ∧
    [3, 4].map (elitesM 2 true [0, 1, 2] [] exAlike).2.genome = [12, 11] := by decide +kernel

theorem exAlike_is : ∀ r ∈ [0, 1, 2], (exAlike.fits r).Is [true, true] ([[1, 5], [2, 0], [2, 1]].getD r []) := by
  intro r hr
  simp only [List.mem_cons, List.not_mem_nil, or_false] at hr
  rcases hr with rfl | rfl | rfl <;> exact ⟨rfl, rfl, rfl⟩

example := C170_lexicographic_partial (w := exAlike) (source := [0, 1, 2]) (vec := fun r => [[1, 5], [2, 0], [2, 1]].getD r []) (m := 2) 2 true []
  (by simp [exAlike]) (fun r hr => (exAlike_is r hr).objs) (by simp)

theorem exAlike_run : elitesM 2 true [0, 1, 2] [] exAlike = (.ok [3, 4], (elitesM 2 true [0, 1, 2] [] exAlike).2) := by
  refine Prod.ext ?_ rfl
  decide +kernel

example := C170_partial (m := 2) (vec := fun r => [[1, 5], [2, 0], [2, 1]].getD r []) (by simp [exAlike]) exAlike_is exAlike_run

end Verif.Moo
