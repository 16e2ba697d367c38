import Verif.Lemmas.Selection

/-! # Sorting individuals by fitness -/

namespace Verif.Evo
open PyM
variable {G : Type} {size : G → Nat} {d : Bool} {s s' : World G}

theorem keyed_eq {refs : List Nat} (h : Evaluated size d s refs) :
    ∃ ks, keyed size s.heap refs = .ok ks ∧ ks.map Prod.fst = refs ∧
      ∀ p ∈ ks, ∃ x, p.2 = .num x ∧ HasScore size d s p.1 x := by
  induction refs with
  | nil => exact ⟨[], rfl, rfl, by simp⟩
  | cons r rs ih =>
    obtain ⟨ks, h1, h2, h3⟩ := ih fun r hr => h r (by simp [hr])
    obtain ⟨x, hx⟩ := h r (by simp)
    refine ⟨(r, .num x) :: ks, ?_, by simp [h2], ?_⟩
    · unfold keyed; rw [augOf_eq hx, h1]
    · intro p hp
      simp only [List.mem_cons] at hp
      rcases hp with rfl | hp
      · exact ⟨x, rfl, hx⟩
      · exact h3 p hp

/-- `sorted(…, key=get_augmented_fitness, reverse=rev)` of evaluated individuals: a stable sort, in which
nobody is followed by somebody strictly better (with the best-first `reverse`), respectively strictly
worse. -/
theorem sortedByFitness_eq {refs : List Nat} (h : Evaluated size d s refs) (rev : Bool) :
    ∃ l, sortedByFitness size s.heap rev refs = .ok l ∧ l.Perm refs ∧
      l.Pairwise (fun a b => if rev = d then ¬ Beats size d s b a else ¬ Beats size d s a b) ∧
      ∀ p : Nat → Bool, (∀ a b, p a → p b → ¬ Beats size d s a b) → l.filter p = refs.filter p := by
  obtain ⟨ks, h1, h2, h3⟩ := keyed_eq h
  have hnum : ks.any (fun p => !p.2.isNum) = false := by
    rw [List.any_eq_false]
    intro p hp
    obtain ⟨x, hx, -⟩ := h3 p hp
    simp [hx, FVal.isNum]
  set le : Nat × FVal → Nat × FVal → Bool := fun a b => if rev then decide (b.2.toRat ≤ a.2.toRat)
        else decide (a.2.toRat ≤ b.2.toRat) with hle
  have hl : ∀ a b, le a b = true ↔ if rev then b.2.toRat ≤ a.2.toRat else a.2.toRat ≤ b.2.toRat := by
    intro a b; simp only [hle]; cases rev <;> simp
  refine ⟨(Py.sortBy le ks).map Prod.fst, ?_, ?_, ?_, ?_⟩
  · unfold sortedByFitness
    rw [h1]
    simp only [hnum, Bool.and_false, Bool.false_eq_true, if_false]
    rfl
  · rw [← h2]; exact (Py.sortBy_perm le ks).map _
  · rw [List.pairwise_map]
    have hp := Py.sortBy_pairwise (le := le)
      (fun a b c h1 h2 => by
        rw [hl] at *; cases rev <;> simp only [if_true, Bool.false_eq_true, if_false] at * <;> linarith)
      (fun a b => by
        rw [hl, hl]
        cases rev <;> simp only [if_true, Bool.false_eq_true, if_false]
        · exact le_total _ _
        · exact le_total _ _) ks
    refine hp.imp_of_mem fun {a b} ha hb hab => ?_
    rw [Py.mem_sortBy] at ha hb
    obtain ⟨x, hx, sx⟩ := h3 a ha
    obtain ⟨y, hy, sy⟩ := h3 b hb
    rw [hl, hx, hy] at hab
    simp only [FVal.toRat] at hab
    rw [beats_iff sx sy, beats_iff sy sx]
    cases rev <;> cases d <;> simp only [Preferred, if_true, Bool.false_eq_true, if_false, not_lt] at * <;>
      exact hab
  · intro p hp
    have key : (Py.sortBy le ks).filter (fun a => p a.1 && decide (a ∈ ks)) =
        ks.filter (fun a => p a.1 && decide (a ∈ ks)) := by
      apply Py.sortBy_stable
      intro a b ha hb
      simp only [Bool.and_eq_true, decide_eq_true_eq] at ha hb
      obtain ⟨x, hx, sx⟩ := h3 a ha.2
      obtain ⟨y, hy, sy⟩ := h3 b hb.2
      have n1 := hp a.1 b.1 ha.1 hb.1
      have n2 := hp b.1 a.1 hb.1 ha.1
      rw [beats_iff sx sy] at n1
      rw [beats_iff sy sx] at n2
      rw [hl, hx, hy]
      simp only [FVal.toRat]
      cases rev <;> cases d <;>
        simp only [Preferred, if_true, Bool.false_eq_true, if_false, not_lt] at * <;> assumption
    have e1 : ∀ l : List (Nat × FVal), (∀ a ∈ l, a ∈ ks) →
        l.filter (fun a => p a.1 && decide (a ∈ ks)) = l.filter (fun a => p a.1) := by
      intro l hl
      apply List.filter_congr
      intro a ha
      simp [hl a ha]
    rw [e1 _ (fun a ha => (Py.mem_sortBy).1 ha), e1 _ (fun a ha => ha)] at key
    rw [List.filter_map, ← h2, List.filter_map]
    exact congrArg _ key

end Verif.Evo
