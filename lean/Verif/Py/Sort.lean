import Verif.Py.Basic
import Mathlib.Data.List.Perm.Basic

/-! # Python's `sorted`: a stable sort -/

namespace Verif.Py
variable {α : Type}

/-- Insert before the first element that `a` is `le` to. -/
def insertBy (le : α → α → Bool) (a : α) : List α → List α
  | [] => [a]
  | b :: l => if le a b then a :: b :: l else b :: insertBy le a l

/-- `sorted(xs, …)`: stable sort with respect to the comparison `le`
(`key(a) <= key(b)`, or `key(a) >= key(b)` with `reverse=True`, which is stable as well). -/
def sortBy (le : α → α → Bool) : List α → List α
  | [] => []
  | a :: l => insertBy le a (sortBy le l)

theorem insertBy_perm (le : α → α → Bool) (a : α) (l : List α) : (insertBy le a l).Perm (a :: l) := by
  induction l with
  | nil => exact .refl _
  | cons b l ih =>
    unfold insertBy
    split
    · exact .refl _
    · exact (ih.cons b).trans (.swap a b l)

theorem sortBy_perm (le : α → α → Bool) (l : List α) : (sortBy le l).Perm l := by
  induction l with
  | nil => exact .refl _
  | cons a l ih => exact (insertBy_perm le a _).trans (ih.cons a)

theorem sortBy_length (le : α → α → Bool) (l : List α) : (sortBy le l).length = l.length :=
  (sortBy_perm le l).length_eq

theorem mem_sortBy {le : α → α → Bool} {l : List α} {x : α} : x ∈ sortBy le l ↔ x ∈ l :=
  (sortBy_perm le l).mem_iff

theorem insertBy_pairwise {le : α → α → Bool} (htr : ∀ a b c, le a b → le b c → le a c)
    (htot : ∀ a b, le a b ∨ le b a) (a : α) (l : List α) (h : l.Pairwise (fun a b => le a b)) :
    (insertBy le a l).Pairwise (fun a b => le a b) := by
  induction l with
  | nil => simp [insertBy]
  | cons b l ih =>
    obtain ⟨h1, h2⟩ := List.pairwise_cons.1 h
    unfold insertBy
    split
    · rename_i hab
      refine List.pairwise_cons.2 ⟨fun c hc => ?_, h⟩
      rcases List.mem_cons.1 hc with rfl | hc
      · exact hab
      · exact htr _ _ _ hab (h1 c hc)
    · rename_i hab
      refine List.pairwise_cons.2 ⟨fun c hc => ?_, ih h2⟩
      rcases List.mem_cons.1 ((insertBy_perm le a l).mem_iff.1 hc) with rfl | hc
      · exact (htot _ _).resolve_left (by simpa using hab)
      · exact h1 c hc

/-- The result is sorted. -/
theorem sortBy_pairwise {le : α → α → Bool} (htr : ∀ a b c, le a b → le b c → le a c)
    (htot : ∀ a b, le a b ∨ le b a) (l : List α) :
    (sortBy le l).Pairwise (fun a b => le a b) := by
  induction l with
  | nil => exact .nil
  | cons a l ih => exact insertBy_pairwise htr htot a _ ih

/-- A sorted list is left alone. -/
theorem sortBy_of_pairwise {le : α → α → Bool} {l : List α} (h : l.Pairwise (fun a b => le a b)) :
    sortBy le l = l := by
  induction l with
  | nil => rfl
  | cons a l ih =>
    obtain ⟨h1, h2⟩ := List.pairwise_cons.1 h
    rw [sortBy, ih h2]
    cases l with
    | nil => rfl
    | cons b l => rw [insertBy, if_pos (h1 b (by simp))]

theorem insertBy_filter {le : α → α → Bool} {p : α → Bool}
    (hp : ∀ a b, p a → p b → le a b) (a : α) (l : List α) :
    (insertBy le a l).filter p = (a :: l).filter p := by
  induction l with
  | nil => rfl
  | cons b l ih =>
    unfold insertBy
    split
    · rfl
    · rename_i hab
      rw [List.filter_cons, ih]
      by_cases ha : p a <;> by_cases hb : p b
      · exact absurd (hp a b ha hb) hab
      all_goals simp [ha, hb]

/-- Stability: elements with equal keys keep their order. -/
theorem sortBy_stable {le : α → α → Bool} {p : α → Bool}
    (hp : ∀ a b, p a → p b → le a b) (l : List α) :
    (sortBy le l).filter p = l.filter p := by
  induction l with
  | nil => rfl
  | cons a l ih =>
    rw [sortBy, insertBy_filter hp, List.filter_cons, List.filter_cons, ih]

/-- `sorted` of a list of natural numbers. -/
def sorted (xs : List Nat) : List Nat := sortBy (fun a b => decide (a ≤ b)) xs

theorem sorted_perm (xs : List Nat) : (sorted xs).Perm xs := sortBy_perm _ _

theorem sorted_pairwise (xs : List Nat) : (sorted xs).Pairwise (· ≤ ·) :=
  (sortBy_pairwise (le := fun a b : Nat => decide (a ≤ b))
    (fun a b c h1 h2 => by simp at *; omega) (fun a b => by simp; omega) xs).imp
    fun h => by simpa using h

end Verif.Py
