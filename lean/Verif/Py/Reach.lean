import Verif.Py.Random
import Mathlib.Data.List.Perm.Basic
import Mathlib.Data.List.Perm.Subperm
import Mathlib.Tactic.Ring
import Mathlib.Tactic.NormNum

/-!
# Which results a random computation can have

`Reach m x`: some draws make `m` return `x`, whatever is to be drawn afterwards.
-/

namespace Verif
open PyM

/-- Some draws make `m` return `x`, and any further draws can follow. -/
def Reach {α : Type} (m : Rand α) (x : α) : Prop := ∀ t', ∃ t, m t = (.ok x, t')

namespace Reach
variable {α β : Type}

theorem pure (a : α) : Reach (pure a : Rand α) a := fun t' => ⟨t', rfl⟩

theorem bind {m : Rand α} {f : α → Rand β} {a : α} {b : β} (h1 : Reach m a) (h2 : Reach (f a) b) :
    Reach (m >>= f) b := by
  intro t'
  obtain ⟨t1, ht1⟩ := h2 t'
  obtain ⟨t, ht⟩ := h1 t1
  exact ⟨t, bind_ok.2 ⟨a, t1, ht, ht1⟩⟩

theorem ofExcept {r : Except Err α} {a : α} (h : r = .ok a) : Reach (PyM.ofExcept r : Rand α) a :=
  fun t' => ⟨t', by rw [h]; rfl⟩

theorem of_eq {m : Rand α} {a b : α} (h : Reach m a) (e : a = b) : Reach m b := e ▸ h

theorem next (n : Nat) : Reach Rand.next n := fun t' =>
  ⟨fun i => if i = 0 then n else t' (i - 1), by simp [Rand.next]⟩

theorem choice {xs : List α} {x : α} (h : x ∈ xs) : Reach (Rand.choice xs) x :=
  Rand.choice_complete h

/-- Every rational of `[0, 1)` can be drawn. -/
theorem random {u : ℚ} (h0 : 0 ≤ u) (h1 : u < 1) : Reach Rand.random u := by
  unfold Rand.random
  refine (Reach.next u.num.toNat).bind ?_
  refine (Reach.next (u.den - 1)).bind ?_
  refine (Reach.pure _).of_eq ?_
  have hd : u.den - 1 + 1 = u.den := by have := u.den_pos; omega
  rw [hd]
  have hn : 0 ≤ u.num := Rat.num_nonneg.2 h0
  have hlt : u.num < u.den := by
    have hq : (0 : ℚ) < (u.den : ℚ) := by exact_mod_cast u.den_pos
    have h2 := h1
    rw [← Rat.num_div_den u, div_lt_one hq] at h2
    exact_mod_cast h2
  rw [Nat.mod_eq_of_lt (by omega)]
  have : ((u.num.toNat : Nat) : ℚ) = ((u.num : ℤ) : ℚ) := by
    have : ((u.num.toNat : Nat) : ℤ) = u.num := Int.toNat_of_nonneg hn
    exact_mod_cast this
  rw [this]
  exact Rat.num_div_den u

/-- Every rational of `[a, b)` can be drawn, and `a` itself. -/
theorem uniform {a b x : ℚ} (h : (a ≤ x ∧ x < b) ∨ x = a) : Reach (Rand.uniform a b) x := by
  unfold Rand.uniform
  rcases h with ⟨h1, h2⟩ | rfl
  · have hd : 0 < b - a := by linarith
    refine (Reach.random (u := (x - a) / (b - a)) (div_nonneg (by linarith) hd.le) ?_).bind ?_
    · rw [div_lt_one hd]; linarith
    · refine (Reach.pure _).of_eq ?_
      rw [mul_div_cancel₀ _ hd.ne']; ring
  · refine (Reach.random (u := 0) le_rfl (by norm_num)).bind ?_
    exact (Reach.pure _).of_eq (by ring)

/-- Every integer of the closed range can be drawn. -/
theorem randint {a b z : ℤ} (h1 : a ≤ z) (h2 : z ≤ b) : Reach (Rand.randint a b) z := by
  unfold Rand.randint
  have ha : ((a : ℚ)).den = 1 := Rat.den_intCast a
  have hb : ((b : ℚ)).den = 1 := Rat.den_intCast b
  rw [if_neg (by rw [ha, hb]; simp)]
  have hna : ((a : ℚ)).num = a := Rat.num_intCast a
  have hnb : ((b : ℚ)).num = b := Rat.num_intCast b
  rw [hna, hnb]
  rw [if_neg (by omega)]
  refine (Reach.next (z - a).toNat).bind ?_
  refine (Reach.pure _).of_eq ?_
  rw [Nat.mod_eq_of_lt (by omega)]
  omega

/-- Every rational can be drawn if the standard deviation is not zero. -/
theorem gauss (mu : ℚ) {sigma : ℚ} (hs : sigma ≠ 0) (y : ℚ) : Reach (Rand.gauss mu sigma) y := by
  obtain ⟨x, rfl⟩ : ∃ x, y = mu + x * sigma := ⟨(y - mu) / sigma, by rw [div_mul_cancel₀ _ hs]; ring⟩
  unfold Rand.gauss
  refine (Reach.next (if 0 ≤ x then 0 else 1)).bind ?_
  refine (Reach.next x.num.natAbs).bind ?_
  refine (Reach.next (x.den - 1)).bind ?_
  refine (Reach.pure _).of_eq ?_
  congr 2
  have hd : x.den - 1 + 1 = x.den := by have := x.den_pos; omega
  rw [hd]
  by_cases hx : 0 ≤ x
  · have hn : 0 ≤ x.num := Rat.num_nonneg.2 hx
    have : ((x.num.natAbs : Nat) : ℚ) = ((x.num : ℤ) : ℚ) := by
      have : ((x.num.natAbs : Nat) : ℤ) = x.num := Int.natAbs_of_nonneg hn
      rw [← Int.cast_natCast, this]
    simp only [hx, if_true, Nat.zero_mod, this]
    exact Rat.num_div_den x
  · have hn : x.num ≤ 0 := by
      have := Rat.num_neg.2 (not_le.1 hx); omega
    have : ((x.num.natAbs : Nat) : ℚ) = -((x.num : ℤ) : ℚ) := by
      have : ((x.num.natAbs : Nat) : ℤ) = -x.num := Int.ofNat_natAbs_of_nonpos hn
      rw [← Int.cast_natCast, this, Int.cast_neg]
    simp only [hx, if_false, Nat.one_mod, this]
    rw [if_neg (by decide), neg_div, neg_neg]
    exact Rat.num_div_den x

/-- Every sequence of distinct positions can be drawn. -/
theorem sample {xs ys : List α} (h : ys.Subperm xs) : Reach (Rand.sample ys.length xs) ys := by
  induction ys generalizing xs with
  | nil => exact Reach.pure []
  | cons y ys ih =>
    have hmem : y ∈ xs := h.subset (by simp)
    obtain ⟨i, hi, rfl⟩ := List.getElem_of_mem hmem
    show Reach (Rand.sample (ys.length + 1) xs) _
    unfold Rand.sample
    have hlen := h.length_le
    simp only [List.length_cons] at hlen
    rw [if_neg (by omega)]
    refine (Reach.next i).bind ?_
    simp only [Nat.mod_eq_of_lt hi, List.getElem?_eq_getElem hi]
    refine (ih ?_).bind (Reach.pure _)
    have hp : xs.Perm (xs[i] :: xs.eraseIdx i) := (List.getElem_cons_eraseIdx_perm hi).symm
    exact List.subperm_cons _ |>.1 (h.trans hp.subperm)

theorem mapL {f : α → Rand β} {xs : List α} {ys : List β}
    (h : List.Forall₂ (fun x y => Reach (f x) y) xs ys) : Reach (PyM.mapL f xs) ys := by
  induction h with
  | nil => exact Reach.pure []
  | cons h _ ih => exact h.bind (ih.bind (Reach.pure _))

theorem replicateM {f : Rand β} {ys : List β} (h : ∀ y ∈ ys, Reach f y) :
    Reach (PyM.replicateM ys.length f) ys := by
  induction ys with
  | nil => exact Reach.pure []
  | cons y ys ih =>
    exact (h y (by simp)).bind ((ih fun z hz => h z (by simp [hz])).bind (Reach.pure _))

end Reach
end Verif
