import Verif.Lemmas.Selection
import Mathlib.Data.Set.Card
import Mathlib.Data.Nat.Factorial.Basic
import Mathlib.Algebra.BigOperators.Group.Finset.Sigma
import Mathlib.Algebra.Order.BigOperators.Group.Finset
import Mathlib.Logic.Equiv.Basic

/-! # Counting tournaments -/

namespace Verif.Evo
open Finset

/-- All tournaments of `k` participants from a set, with or without repetitions. -/
def allTours (replace : Bool) : (k : Nat) → Finset Nat → Finset (List Nat)
  | 0, _ => {[]}
  | k + 1, S => (S.sigma fun x => allTours replace k (if replace then S else S.erase x)).image fun p => p.1 :: p.2

/-- The number of them. -/
def tourCount (replace : Bool) (k n : Nat) : Nat := if replace then n ^ k else n.descFactorial k

theorem mem_allTours {replace : Bool} {k : Nat} {S : Finset Nat} {t : List Nat} :
    t ∈ allTours replace k S ↔ t.length = k ∧ (∀ p ∈ t, p ∈ S) ∧ (replace = false → t.Nodup) := by
  induction k generalizing S t with
  | zero =>
    simp only [allTours, mem_singleton, List.length_eq_zero_iff]
    constructor
    · rintro rfl; simp
    · exact fun h => h.1
  | succ k ih =>
    simp only [allTours, mem_image, mem_sigma]
    constructor
    · rintro ⟨⟨x, u⟩, ⟨hx, hu⟩, rfl⟩
      dsimp only at hx hu ⊢
      rw [ih] at hu
      obtain ⟨h1, h2, h3⟩ := hu
      cases replace with
      | true => simp_all
      | false =>
        simp only [Bool.false_eq_true, if_false, mem_erase] at h2
        refine ⟨by simp [h1], ?_, fun _ => List.nodup_cons.2 ⟨fun hc => (h2 x hc).1 rfl, h3 rfl⟩⟩
        intro p hp
        rcases List.mem_cons.1 hp with rfl | hp
        · exact hx
        · exact (h2 p hp).2
    · rintro ⟨h1, h2, h3⟩
      cases t with
      | nil => simp at h1
      | cons x u =>
        refine ⟨⟨x, u⟩, ⟨h2 x (by simp), ?_⟩, rfl⟩
        dsimp only
        rw [ih]
        refine ⟨by simpa using h1, ?_, fun hr => (List.nodup_cons.1 (h3 hr)).2⟩
        intro p hp
        cases replace with
        | true => simpa using h2 p (by simp [hp])
        | false =>
          simp only [Bool.false_eq_true, if_false, mem_erase]
          exact ⟨fun hc => (List.nodup_cons.1 (h3 rfl)).1 (hc ▸ hp), h2 p (by simp [hp])⟩

theorem card_allTours (replace : Bool) (k : Nat) (S : Finset Nat) : (allTours replace k S).card = tourCount replace k S.card := by
  induction k generalizing S with
  | zero => cases replace <;> simp [allTours, tourCount]
  | succ k ih =>
    unfold allTours
    rw [card_image_of_injective, card_sigma]
    · cases replace with
      | true => simp [ih, tourCount, pow_succ, Nat.mul_comm]
      | false =>
        simp only [Bool.false_eq_true, if_false, ih, tourCount]
        rw [sum_const_nat fun x hx => by rw [card_erase_of_mem hx]]
        cases h : S.card with
        | zero => simp
        | succ n => rw [Nat.succ_descFactorial_succ, Nat.add_sub_cancel]
    · rintro ⟨x, u⟩ ⟨y, v⟩ h
      simp only [List.cons.injEq] at h
      obtain ⟨rfl, rfl⟩ := h
      rfl

/-! ## Winners -/

section
variable {B : Nat → Nat → Prop} {κ : Nat → ℚ} {S : Finset Nat} {replace : Bool} {k : Nat} {a b : Nat}

open Classical in
/-- The tournaments that a participant wins. -/
noncomputable def won (B : Nat → Nat → Prop) (replace : Bool) (k : Nat) (S : Finset Nat) (a : Nat) : Finset (List Nat) :=
  (allTours replace k S).filter fun t => FirstBest B t a

theorem mem_won {t : List Nat} : t ∈ won B replace k S a ↔ t ∈ allTours replace k S ∧ FirstBest B t a := by
  simp [won]

theorem firstBest_exists (hB : ∀ p ∈ S, ∀ q ∈ S, B p q ↔ κ q < κ p) {t : List Nat} (hne : t ≠ []) (ht : ∀ p ∈ t, p ∈ S) :
    ∃ a ∈ S, FirstBest B t a := by
  induction t with
  | nil => exact absurd rfl hne
  | cons x t ih =>
    have hx := ht x (by simp)
    by_cases h0 : t = []
    · subst h0
      exact ⟨x, hx, [], [], rfl, by simp, by simp⟩
    · obtain ⟨a, ha, pre, post, rfl, h1, h2⟩ := ih h0 fun p hp => ht p (by simp [hp])
      have hS : ∀ p ∈ pre ++ a :: post, p ∈ S := fun p hp => ht p (by simp [hp])
      by_cases hax : κ x < κ a
      · refine ⟨a, ha, x :: pre, post, rfl, ?_, h2⟩
        intro p hp
        rcases List.mem_cons.1 hp with rfl | hp
        · exact (hB a ha p hx).2 hax
        · exact h1 p hp
      · refine ⟨x, hx, [], pre ++ a :: post, rfl, by simp, ?_⟩
        intro p hp
        rw [hB p (hS p hp) x hx]
        have hp' := hp
        simp only [List.mem_append, List.mem_cons] at hp
        rcases hp with hp | rfl | hp
        · have := (hB a ha p (hS p hp')).1 (h1 p hp)
          exact fun hc => hax (hc.trans this)
        · exact hax
        · have := h2 p hp
          rw [hB p (hS p hp') a ha] at this
          exact fun hc => hax (hc.trans_le (not_lt.1 this))

theorem firstBest_max (hB : ∀ p ∈ S, ∀ q ∈ S, B p q ↔ κ q < κ p) {t : List Nat} (ht : ∀ p ∈ t, p ∈ S) (h : FirstBest B t a) :
    a ∈ t ∧ ∀ p ∈ t, κ p ≤ κ a := by
  obtain ⟨pre, post, rfl, h1, h2⟩ := h
  have ha := ht a (by simp)
  refine ⟨by simp, fun p hp => ?_⟩
  have hp' := ht p hp
  simp only [List.mem_append, List.mem_cons] at hp
  rcases hp with hp | rfl | hp
  · exact ((hB a ha p hp').1 (h1 p hp)).le
  · exact le_refl _
  · have := h2 p hp
    rw [hB p hp' a ha] at this
    exact not_lt.1 this

theorem firstBest_unique (hB : ∀ p ∈ S, ∀ q ∈ S, B p q ↔ κ q < κ p) {t : List Nat} (ht : ∀ p ∈ t, p ∈ S) (ha : FirstBest B t a)
    (hb : FirstBest B t b) : a = b := by
  have hab := le_antisymm ((firstBest_max hB ht hb).2 a (firstBest_max hB ht ha).1)
    ((firstBest_max hB ht ha).2 b (firstBest_max hB ht hb).1)
  obtain ⟨pre, post, rfl, h1, -⟩ := ha
  obtain ⟨pre', post', hl, h1', -⟩ := hb
  have haS := ht a (by simp)
  have hbS := ht b (by rw [hl]; simp)
  rcases List.append_eq_append_iff.1 hl with ⟨c, rfl, hc⟩ | ⟨c, rfl, hc⟩
  · cases c with
    | nil => simpa using (List.cons.inj hc).1
    | cons x c =>
      obtain ⟨rfl, -⟩ := List.cons.inj hc
      have := (hB b hbS a haS).1 (h1' a (by simp))
      rw [hab] at this
      exact absurd this (lt_irrefl _)
  · cases c with
    | nil => simpa using (List.cons.inj hc).1.symm
    | cons x c =>
      obtain ⟨rfl, -⟩ := List.cons.inj hc
      have := (hB a haS b hbS).1 (h1 b (by simp))
      rw [hab] at this
      exact absurd this (lt_irrefl _)

/-- Exchanging two individuals of the set. -/
theorem swap_mem (ha : a ∈ S) (hb : b ∈ S) {p : Nat} (hp : p ∈ S) : Equiv.swap a b p ∈ S := by
  rw [Equiv.swap_apply_def]
  split
  · exact hb
  · split
    · exact ha
    · exact hp

theorem swap_tour (ha : a ∈ S) (hb : b ∈ S) {t : List Nat} (ht : t ∈ allTours replace k S) :
    t.map (Equiv.swap a b) ∈ allTours replace k S := by
  rw [mem_allTours] at ht ⊢
  refine ⟨by simpa using ht.1, ?_, fun hr => (ht.2.2 hr).map (Equiv.injective _)⟩
  intro p hp
  obtain ⟨q, hq, rfl⟩ := List.mem_map.1 hp
  exact swap_mem ha hb (ht.2.1 q hq)

/-- If `b` wins and is not better than `a`, and `a` does not participate or is not better, then `a` wins in its place. -/
theorem swap_won (hB : ∀ p ∈ S, ∀ q ∈ S, B p q ↔ κ q < κ p) (ha : a ∈ S) (hb : b ∈ S) (hab : κ b ≤ κ a) {t : List Nat}
    (ht : t ∈ won B replace k S b) : t.map (Equiv.swap b a) ∈ won B replace k S a := by
  rw [mem_won] at ht ⊢
  obtain ⟨ht, hw⟩ := ht
  refine ⟨swap_tour hb ha ht, ?_⟩
  have hS := (mem_allTours.1 ht).2.1
  obtain ⟨-, hmax⟩ := firstBest_max hB hS hw
  obtain ⟨pre, post, rfl, h1, h2⟩ := hw
  refine ⟨pre.map (Equiv.swap b a), post.map (Equiv.swap b a), by simp, ?_, ?_⟩
  · intro p hp
    obtain ⟨q, hq, rfl⟩ := List.mem_map.1 hp
    have hqS := hS q (by simp [hq])
    rw [hB a ha _ (swap_mem hb ha hqS)]
    have hlt := (hB b hb q hqS).1 (h1 q hq)
    rw [Equiv.swap_apply_def]
    split
    · rename_i e; subst e; exact absurd hlt (lt_irrefl _)
    · split
      · rename_i e; subst e; exact absurd hlt (not_lt.2 hab)
      · exact hlt.trans_le hab
  · intro p hp
    obtain ⟨q, hq, rfl⟩ := List.mem_map.1 hp
    have hqS := hS q (by simp [hq])
    rw [hB _ (swap_mem hb ha hqS) a ha, not_lt]
    rw [Equiv.swap_apply_def]
    split
    · exact le_refl _
    · split
      · exact hab
      · exact (hmax q (by simp [hq])).trans hab

theorem map_swap_injective (a b : Nat) : Function.Injective (List.map (Equiv.swap a b)) :=
  List.map_injective_iff.2 (Equiv.injective _)

theorem won_le (hB : ∀ p ∈ S, ∀ q ∈ S, B p q ↔ κ q < κ p) (ha : a ∈ S) (hb : b ∈ S) (hab : κ b ≤ κ a) :
    (won B replace k S b).card ≤ (won B replace k S a).card :=
  card_le_card_of_injOn _ (fun _ ht => swap_won hB ha hb hab ht) (map_swap_injective b a).injOn

theorem won_lt (hB : ∀ p ∈ S, ∀ q ∈ S, B p q ↔ κ q < κ p) (ha : a ∈ S) (hb : b ∈ S) (hab : κ b < κ a) (hk : 2 ≤ k)
    (hr : replace = false → k ≤ (S.filter fun p => κ p ≤ κ a).card) :
    (won B replace k S b).card < (won B replace k S a).card := by
  have hne : a ≠ b := fun h => by rw [h] at hab; exact lt_irrefl _ hab
  obtain ⟨t, ht, hbt⟩ : ∃ t ∈ won B replace k S a, b ∈ t := by
    obtain ⟨j, rfl⟩ : ∃ j, k = j + 2 := ⟨k - 2, by omega⟩
    cases replace with
    | true =>
      refine ⟨a :: b :: List.replicate j a, ?_, by simp⟩
      rw [mem_won, mem_allTours]
      refine ⟨⟨by simp, ?_, by simp⟩, [], _, rfl, by simp, ?_⟩
      · intro p hp
        simp only [List.mem_cons, List.mem_replicate] at hp
        rcases hp with rfl | rfl | ⟨-, rfl⟩ <;> assumption
      · intro p hp
        simp only [List.mem_cons, List.mem_replicate] at hp
        rcases hp with rfl | ⟨-, rfl⟩
        · rw [hB _ hb _ ha]; exact not_lt.2 hab.le
        · rw [hB _ ha _ ha]; exact lt_irrefl _
    | false =>
      have hcard := hr rfl
      have hmem : ∀ p, p ∈ ((S.filter fun p => κ p ≤ κ a).erase a).erase b ↔ p ≠ b ∧ p ≠ a ∧ p ∈ S ∧ κ p ≤ κ a := by
        intro p; simp
      have hc : j ≤ (((S.filter fun p => κ p ≤ κ a).erase a).erase b).card := by
        rw [card_erase_of_mem (by simp [hb, hab.le, Ne.symm hne]), card_erase_of_mem (by simp [ha])]
        omega
      obtain ⟨u, hu, hj⟩ := exists_subset_card_eq hc
      refine ⟨a :: b :: u.toList, ?_, by simp⟩
      have hu' : ∀ p ∈ u, p ≠ b ∧ p ≠ a ∧ p ∈ S ∧ κ p ≤ κ a := fun p hp => (hmem p).1 (hu hp)
      rw [mem_won, mem_allTours]
      refine ⟨⟨by simp [hj], ?_, fun _ => ?_⟩, [], _, rfl, by simp, ?_⟩
      · intro p hp
        simp only [List.mem_cons, mem_toList] at hp
        rcases hp with rfl | rfl | hp
        · exact ha
        · exact hb
        · exact (hu' p hp).2.2.1
      · refine List.nodup_cons.2 ⟨?_, List.nodup_cons.2 ⟨?_, nodup_toList _⟩⟩
        · simp only [List.mem_cons, mem_toList, not_or]
          exact ⟨hne, fun h => (hu' a h).2.1 rfl⟩
        · simp only [mem_toList]
          exact fun h => (hu' b h).1 rfl
      · intro p hp
        simp only [List.mem_cons, mem_toList] at hp
        rcases hp with rfl | hp
        · rw [hB _ hb _ ha]; exact not_lt.2 hab.le
        · rw [hB _ (hu' p hp).2.2.1 _ ha]; exact not_lt.2 (hu' p hp).2.2.2
  rw [← card_image_of_injective (won B replace k S b) (map_swap_injective b a)]
  refine card_lt_card (Finset.ssubset_iff_subset_ne.2 ⟨?_, ?_⟩)
  · intro u hu
    obtain ⟨v, hv, rfl⟩ := mem_image.1 hu
    exact swap_won hB ha hb hab.le hv
  · intro he
    rw [← he] at ht
    obtain ⟨v, hv, rfl⟩ := mem_image.1 ht
    obtain ⟨p, hp, hpb⟩ := List.mem_map.1 hbt
    obtain ⟨hvt, hvw⟩ := mem_won.1 hv
    have hmax := (firstBest_max hB (mem_allTours.1 hvt).2.1 hvw).2 p hp
    have : p = a := by
      rw [Equiv.swap_apply_def] at hpb
      split at hpb
      · exact absurd hpb hne
      · split at hpb
        · assumption
        · rename_i h _; exact absurd hpb h
    subst this
    exact absurd hab (not_lt.2 hmax)

/-- The tournaments won by an individual as good as `a`: those that somebody as good as `a`, but nobody better, joins. -/
theorem won_class (hB : ∀ p ∈ S, ∀ q ∈ S, B p q ↔ κ q < κ p) (hk : 0 < k) :
    ((S.filter fun p => κ p = κ a).biUnion (won B replace k S)) =
      allTours replace k (S.filter fun p => κ p ≤ κ a) \ allTours replace k (S.filter fun p => κ p < κ a) := by
  ext t
  simp only [mem_biUnion, mem_sdiff, mem_filter, mem_allTours, mem_won]
  constructor
  · rintro ⟨p, ⟨hp, hpa⟩, ⟨h1, h2, h3⟩, hw⟩
    obtain ⟨hmem, hmax⟩ := firstBest_max hB h2 hw
    refine ⟨⟨h1, fun q hq => ⟨h2 q hq, hpa ▸ hmax q hq⟩, h3⟩, fun hc => ?_⟩
    have := (hc.2.1 p hmem).2
    rw [hpa] at this
    exact lt_irrefl _ this
  · rintro ⟨⟨h1, h2, h3⟩, hn⟩
    have hS : ∀ p ∈ t, p ∈ S := fun p hp => (h2 p hp).1
    obtain ⟨p, hp, hw⟩ := firstBest_exists hB (t := t) (by rintro rfl; simp at h1; omega) hS
    obtain ⟨hmem, hmax⟩ := firstBest_max hB hS hw
    refine ⟨p, ⟨hp, ?_⟩, ⟨h1, hS, h3⟩, hw⟩
    by_contra hne
    refine hn ⟨h1, fun q hq => ⟨hS q hq, ?_⟩, h3⟩
    exact (hmax q hq).trans_lt (lt_of_le_of_ne (h2 p hmem).2 hne)

theorem won_count (hB : ∀ p ∈ S, ∀ q ∈ S, B p q ↔ κ q < κ p) (ha : a ∈ S) (hk : 0 < k) :
    (S.filter fun p => κ p = κ a).card * (won B replace k S a).card =
      tourCount replace k (S.filter fun p => κ p ≤ κ a).card - tourCount replace k (S.filter fun p => κ p < κ a).card := by
  rw [← card_allTours, ← card_allTours, ← card_sdiff_of_subset, ← won_class hB hk, card_biUnion]
  · refine (sum_const_nat fun p hp => ?_).symm
    obtain ⟨hp, he⟩ := mem_filter.1 hp
    exact Nat.le_antisymm (won_le hB ha hp he.le) (won_le hB hp ha he.ge)
  · intro p hp q hq hne
    rw [Function.onFun, disjoint_left]
    intro t h1 h2
    rw [mem_won] at h1 h2
    exact hne (firstBest_unique hB (mem_allTours.1 h1.1).2.1 h1.2 h2.2)
  · intro t ht
    rw [mem_allTours] at ht ⊢
    exact ⟨ht.1, fun p hp => by
      have := ht.2.1 p hp
      simp only [mem_filter] at this ⊢
      exact ⟨this.1, this.2.le⟩, ht.2.2⟩

end

end Verif.Evo
