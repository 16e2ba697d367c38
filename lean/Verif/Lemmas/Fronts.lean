import Verif.Lemmas.Crowding
import Verif.Props.NSGA2Fitness
import Mathlib.Data.List.Dedup

/-! # The rounds of NSGA-II front sorting -/

namespace Verif.Moo

/-! ## Specification: Pareto layers -/

/-- The members of `S` left after `k` layers were removed: those dominated by another one of those left before. -/
def Rest (D : Nat → Nat → Prop) (S : List Nat) : Nat → Nat → Prop
  | 0, x => x ∈ S
  | k + 1, x => Rest D S k x ∧ ∃ y, Rest D S k y ∧ D y x

/-- Layer `k` (counted from 0): the non-dominated ones of those left after `k` layers were removed. -/
def Layer (D : Nat → Nat → Prop) (S : List Nat) (k x : Nat) : Prop :=
  Rest D S k x ∧ ∀ y, Rest D S k y → ¬ D y x

theorem Rest.mem {D : Nat → Nat → Prop} {S : List Nat} {k x : Nat} (h : Rest D S k x) : x ∈ S := by
  induction k with
  | zero => exact h
  | succ k ih => exact ih h.1

theorem Rest.mono {D : Nat → Nat → Prop} {S : List Nat} {k l x : Nat} (h : Rest D S l x) (hkl : k ≤ l) :
    Rest D S k x := by
  induction hkl with
  | refl => exact h
  | step _ ih => exact ih h.1

theorem rest_succ {D : Nat → Nat → Prop} {S : List Nat} {k x : Nat} :
    Rest D S (k + 1) x ↔ Rest D S k x ∧ ¬ Layer D S k x := by
  unfold Layer
  constructor
  · rintro ⟨h1, y, hy, hd⟩
    exact ⟨h1, fun h => h.2 y hy hd⟩
  · rintro ⟨h1, h2⟩
    refine ⟨h1, ?_⟩
    by_contra hc
    exact h2 ⟨h1, fun y hy hd => hc ⟨y, hy, hd⟩⟩

theorem not_rest {D : Nat → Nat → Prop} {S : List Nat} {k x : Nat} (hx : x ∈ S) :
    ¬ Rest D S k x ↔ ∃ j < k, Layer D S j x := by
  induction k with
  | zero => simp [Rest, hx]
  | succ k ih =>
    rw [rest_succ, not_and_or, not_not, ih]
    constructor
    · rintro (⟨j, hj, h⟩ | h)
      · exact ⟨j, by omega, h⟩
      · exact ⟨k, by omega, h⟩
    · rintro ⟨j, hj, h⟩
      rcases Nat.lt_or_ge j k with hjk | hjk
      · exact .inl ⟨j, hjk, h⟩
      · obtain rfl : j = k := by omega
        exact .inr h

/-- An individual belongs to one layer at most. -/
theorem Layer.unique {D : Nat → Nat → Prop} {S : List Nat} {j k x : Nat} (h : Layer D S j x) (h' : Layer D S k x) :
    j = k := by
  rcases Nat.lt_trichotomy j k with hl | he | hl
  · exact absurd h (rest_succ.1 (h'.1.mono hl)).2
  · exact he
  · exact absurd h' (rest_succ.1 (h.1.mono hl)).2

/-- A strict order has a minimal element on a non-empty list. -/
theorem exists_minimal {D : Nat → Nat → Prop} {L : List Nat} (hne : L ≠ [])
    (hir : ∀ x ∈ L, ¬ D x x) (htr : ∀ x ∈ L, ∀ y ∈ L, ∀ z ∈ L, D x y → D y z → D x z) :
    ∃ x ∈ L, ∀ y ∈ L, ¬ D y x := by
  induction L with
  | nil => exact absurd rfl hne
  | cons a L ih =>
    by_cases hL : L = []
    · subst hL
      refine ⟨a, by simp, fun y hy => ?_⟩
      simp only [List.mem_singleton] at hy
      subst hy
      exact hir y (by simp)
    · obtain ⟨x, hx, hmin⟩ := ih hL (fun x hx => hir x (by simp [hx]))
        (fun x hx y hy z hz => htr x (by simp [hx]) y (by simp [hy]) z (by simp [hz]))
      by_cases hax : D a x
      · refine ⟨a, by simp, fun y hy hd => ?_⟩
        rcases List.mem_cons.1 hy with rfl | hy
        · exact hir y (by simp) hd
        · exact hmin y hy (htr y (by simp [hy]) a (by simp) x (by simp [hx]) hd hax)
      · refine ⟨x, by simp [hx], fun y hy hd => ?_⟩
        rcases List.mem_cons.1 hy with rfl | hy
        · exact hax hd
        · exact hmin y hy hd

/-! ## The domination dictionary -/

/-- The dictionary holds the domination pairs `E`, the counters without those from removed individuals. -/
structure Dom.Holds (d : Dom) (E : List (Nat × Nat)) (removed : List Nat) : Prop where
  dominates : ∀ u, d.dominates u = (E.filter fun e => decide (e.1 = u)).map Prod.snd
  counter : ∀ z, d.counter z = (E.countP fun e => decide (e.2 = z ∧ e.1 ∉ removed) : Nat)

theorem Dom.Holds.increase {d : Dom} {E : List (Nat × Nat)} (h : d.Holds E []) (x y : Nat) :
    (d.increase x y).Holds (E ++ [(x, y)]) [] where
  dominates u := by
    simp only [Dom.increase, h.dominates, List.filter_append, List.map_append]
    by_cases hu : u = x
    · subst hu; simp
    · rw [if_neg hu]; simp [Ne.symm hu]
  counter z := by
    simp only [Dom.increase, h.counter, List.countP_append]
    by_cases hz : z = y
    · subst hz; simp
    · rw [if_neg hz]; simp [Ne.symm hz]

section
variable {h : Heap} {S : List Nat} {D : Nat → Nat → Prop}

theorem handleAll_holds (hD : ∀ a ∈ S, ∀ b ∈ S, (D a b → (h a).dominate (h b) = .ok true) ∧
      (¬ D a b → (h a).dominate (h b) = .ok false))
    (has : ∀ a ∈ S, ∀ b ∈ S, D a b → ¬ D b a) {x : Nat} (hx : x ∈ S) (ys : List Nat) (hys : ∀ y ∈ ys, y ∈ S)
    {d : Dom} {E : List (Nat × Nat)} (hd : d.Holds E []) :
    ∃ d' E', handleAll h x ys d = .ok d' ∧ d'.Holds (E ++ E') [] ∧
      ∀ u z, (u, z) ∈ E' ↔ (u = x ∧ z ∈ ys ∧ D x z) ∨ (z = x ∧ u ∈ ys ∧ D u x) := by
  induction ys generalizing d E with
  | nil => exact ⟨d, [], rfl, by simpa using hd, by simp⟩
  | cons y ys ih =>
    have hy := hys y (by simp)
    have hys' : ∀ y ∈ ys, y ∈ S := fun z hz => hys z (by simp [hz])
    unfold handleAll handle
    by_cases h1 : D y x
    · rw [(hD y hy x hx).1 h1]
      obtain ⟨d', E', h2, h3, h4⟩ := ih hys' (hd.increase y x)
      refine ⟨d', (y, x) :: E', h2, by simpa using h3, fun u z => ?_⟩
      have hn := has y hy x hx h1
      simp only [List.mem_cons, Prod.mk.injEq, h4]
      constructor
      · rintro (⟨rfl, rfl⟩ | ⟨rfl, hz, hd⟩ | ⟨rfl, hu, hd⟩)
        · exact .inr ⟨rfl, .inl rfl, h1⟩
        · exact .inl ⟨rfl, .inr hz, hd⟩
        · exact .inr ⟨rfl, .inr hu, hd⟩
      · rintro (⟨rfl, rfl | hz, hd⟩ | ⟨rfl, rfl | hu, hd⟩)
        · exact absurd hd hn
        · exact .inr (.inl ⟨rfl, hz, hd⟩)
        · exact .inl ⟨rfl, rfl⟩
        · exact .inr (.inr ⟨rfl, hu, hd⟩)
    · rw [(hD y hy x hx).2 h1]
      by_cases h2 : D x y
      · rw [(hD x hx y hy).1 h2]
        obtain ⟨d', E', h3, h4, h5⟩ := ih hys' (hd.increase x y)
        refine ⟨d', (x, y) :: E', h3, by simpa using h4, fun u z => ?_⟩
        simp only [List.mem_cons, Prod.mk.injEq, h5]
        constructor
        · rintro (⟨rfl, rfl⟩ | ⟨rfl, hz, hd⟩ | ⟨rfl, hu, hd⟩)
          · exact .inl ⟨rfl, .inl rfl, h2⟩
          · exact .inl ⟨rfl, .inr hz, hd⟩
          · exact .inr ⟨rfl, .inr hu, hd⟩
        · rintro (⟨rfl, rfl | hz, hd⟩ | ⟨rfl, rfl | hu, hd⟩)
          · exact .inl ⟨rfl, rfl⟩
          · exact .inr (.inl ⟨rfl, hz, hd⟩)
          · exact absurd hd h1
          · exact .inr (.inr ⟨rfl, hu, hd⟩)
      · rw [(hD x hx y hy).2 h2]
        obtain ⟨d', E', h3, h4, h5⟩ := ih hys' hd
        refine ⟨d', E', h3, h4, fun u z => ?_⟩
        simp only [List.mem_cons, h5]
        constructor
        · rintro (⟨rfl, hz, hd⟩ | ⟨rfl, hu, hd⟩)
          · exact .inl ⟨rfl, .inr hz, hd⟩
          · exact .inr ⟨rfl, .inr hu, hd⟩
        · rintro (⟨rfl, rfl | hz, hd⟩ | ⟨rfl, rfl | hu, hd⟩)
          · exact absurd hd h2
          · exact .inl ⟨rfl, hz, hd⟩
          · exact absurd hd h1
          · exact .inr ⟨rfl, hu, hd⟩

theorem initDom_holds (hD : ∀ a ∈ S, ∀ b ∈ S, (D a b → (h a).dominate (h b) = .ok true) ∧
      (¬ D a b → (h a).dominate (h b) = .ok false))
    (has : ∀ a ∈ S, ∀ b ∈ S, D a b → ¬ D b a) (xs : List Nat) (hxs : ∀ x ∈ xs, x ∈ S)
    {d : Dom} {E : List (Nat × Nat)} (hd : d.Holds E []) :
    ∃ d' E', initDom h xs d = .ok d' ∧ d'.Holds (E ++ E') [] ∧
      ∀ u z, (u, z) ∈ E' ↔ u ∈ xs ∧ z ∈ xs ∧ D u z := by
  induction xs generalizing d E with
  | nil => exact ⟨d, [], rfl, by simpa using hd, by simp⟩
  | cons x xs ih =>
    have hx := hxs x (by simp)
    have hxs' : ∀ x ∈ xs, x ∈ S := fun z hz => hxs z (by simp [hz])
    obtain ⟨d1, E1, h1, h2, h3⟩ := handleAll_holds hD has hx xs hxs' hd
    obtain ⟨d2, E2, h4, h5, h6⟩ := ih hxs' h2
    refine ⟨d2, E1 ++ E2, by rw [initDom, h1]; exact h4, by simpa using h5, fun u z => ?_⟩
    rw [List.mem_append, h3, h6]
    simp only [List.mem_cons]
    constructor
    · rintro ((⟨rfl, hz, hd⟩ | ⟨rfl, hu, hd⟩) | ⟨hu, hz, hd⟩)
      · exact ⟨.inl rfl, .inr hz, hd⟩
      · exact ⟨.inr hu, .inl rfl, hd⟩
      · exact ⟨.inr hu, .inr hz, hd⟩
    · rintro ⟨rfl | hu, rfl | hz, hd⟩
      · exact absurd hd (has _ hx _ hx hd)
      · exact .inl (.inl ⟨rfl, hz, hd⟩)
      · exact .inl (.inr ⟨rfl, hu, hd⟩)
      · exact .inr ⟨hu, hz, hd⟩

end

theorem decrease_spec (ys : List Nat) (d : Dom) :
    (d.decrease ys).dominates = d.dominates ∧ ∀ z, (d.decrease ys).counter z = d.counter z - (ys.count z : Nat) := by
  induction ys generalizing d with
  | nil => exact ⟨rfl, fun z => by simp [Dom.decrease]⟩
  | cons y ys ih =>
    obtain ⟨h1, h2⟩ := ih ⟨d.dominates, fun z => if z = y then d.counter z - 1 else d.counter z⟩
    refine ⟨h1, fun z => ?_⟩
    rw [Dom.decrease, h2, List.count_cons]
    by_cases hz : z = y
    · subst hz; simp; omega
    · simp [hz, Ne.symm hz]

theorem Dom.Holds.remove {d : Dom} {E : List (Nat × Nat)} {removed : List Nat} (h : d.Holds E removed)
    (xs : List Nat) (hn : xs.Nodup) (hdis : ∀ x ∈ xs, x ∉ removed) : (d.remove xs).Holds E (removed ++ xs) := by
  induction xs generalizing d removed with
  | nil => simpa [Dom.remove] using h
  | cons x xs ih =>
    obtain ⟨hx, hn'⟩ := List.nodup_cons.1 hn
    obtain ⟨h1, h2⟩ := decrease_spec (d.dominates x) d
    have h3 : (d.decrease (d.dominates x)).Holds E (removed ++ [x]) := by
      refine ⟨fun u => by rw [h1, h.dominates], fun z => ?_⟩
      rw [h2, h.counter, h.dominates]
      have hxr := hdis x (by simp)
      clear h h1 h2 ih
      induction E with
      | nil => simp
      | cons e E ihE =>
        obtain ⟨u, v⟩ := e
        simp only [List.countP_cons, List.filter_cons]
        by_cases hu : u = x
        · subst hu
          simp only [decide_true, if_true, List.map_cons, List.count_cons]
          by_cases hv : v = z
          · subst hv; simp [hxr] at ihE ⊢; omega
          · simp [hv] at ihE ⊢; omega
        · simp only [hu, decide_false, Bool.false_eq_true, if_false]
          by_cases hv : v = z ∧ u ∉ removed
          · simp [hv, hu] at ihE ⊢; omega
          · have : ¬ (v = z ∧ u ∉ removed ++ [x]) := by
              rintro ⟨a, b⟩; exact hv ⟨a, fun hc => b (by simp [hc])⟩
            simp only [hv, this, decide_false, Bool.false_eq_true, if_false]
            omega
    have := ih h3 hn' (fun y hy => by
      simp only [List.mem_append, List.mem_singleton, not_or]
      exact ⟨hdis y (by simp [hy]), fun he => hx (he ▸ hy)⟩)
    simpa [Dom.remove] using this

theorem Dom.Holds.counter_zero {d : Dom} {E : List (Nat × Nat)} {removed : List Nat} (h : d.Holds E removed) (z : Nat) :
    d.counter z = 0 ↔ ∀ u, (u, z) ∈ E → u ∈ removed := by
  rw [h.counter]
  rw [Int.natCast_eq_zero, List.countP_eq_zero]
  constructor
  · intro h1 u hu
    by_contra hc
    exact h1 (u, z) hu (by simp [hc])
  · rintro h1 ⟨u, v⟩ he hc
    simp only [decide_eq_true_eq] at hc
    obtain ⟨rfl, hr⟩ := hc
    exact hr (h1 u he)

end Verif.Moo
