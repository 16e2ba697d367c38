import Verif.Props.Pressure
import Mathlib.Data.Rat.Floor

/-! # C118: the probability of an operator -/

namespace Verif.Evo
open PyM
variable {G : Type} {s : World G}

/-- The world in which the generator is going to produce the given draws first. -/
def World.drawing (s : World G) (ds : List Nat) : World G := { s with tape := prepend ds s.tape }

/-- The outcome of `apply_operator`, if `random.random()` returns `k / n`: the generator of CPython returns
`k / 2^53`, for every `k < 2^53` equally often. -/
def outcome (o : Op G) (inds : List Nat) (s : World G) (k n : Nat) : Except Err (List Nat) × World G :=
  applyOperator o inds (s.drawing [k, n - 1])

/-- The operator is passed over: nothing happens, whatever it would do. -/
def HasPassed (inds : List Nat) (s : World G) (r : Except Err (List Nat) × World G) : Prop := r = (.ok inds, s)

/-- The operator is applied: what happens is what happens to the same operator if it is applied without a chance of being
passed over (with the same further random numbers). -/
def HasApplied (o : Op G) (inds : List Nat) (s : World G) (r : Except Err (List Nat) × World G) : Prop :=
  r = (do
    forL setNotEvaluated inds
    match ← o.apply inds with
    | none => raise .typeError
    | some res => do
      let ids ← mapL (fun r => do let i ← deref r; pure i.id) inds
      forL (fun r => update r (record o.name ids)) res
      pure res : WM G (List Nat)) s

theorem applyOperator_drawing (o : Op G) (inds : List Nat) {k n : Nat} (hk : k < n) :
    ((k : ℚ) / n ≤ o.probability → HasApplied o inds s (outcome o inds s k n)) ∧
    (o.probability < (k : ℚ) / n → HasPassed inds s (outcome o inds s k n)) := by
  have hu : (rand Rand.random : WM G ℚ) (s.drawing [k, n - 1]) = (.ok ((k : ℚ) / n), s) := by
    have h1 : n - 1 + 1 = n := by omega
    show ((Except.ok (((k % (n - 1 + 1) : Nat) : ℚ) / ((n - 1 + 1 : Nat) : ℚ)) : Except Err ℚ), s) = _
    rw [h1, Nat.mod_eq_of_lt hk]
  unfold outcome applyOperator
  rw [bind_of_ok hu]
  constructor
  · intro h
    rw [if_pos h]
    rfl
  · intro h
    rw [if_neg (not_le.2 h)]
    rfl

/-- C118: what the property says. -/
def C118_statement (G : Type) : Prop :=
  ∀ (o : Op G) (inds : List Nat) (s : World G) (k n : Nat), k < n →
    (o.probability = 0 → HasPassed inds s (outcome o inds s k n)) ∧ (o.probability = 1 → HasApplied o inds s (outcome o inds s k n))

/-- **C118 (partial)**: an operator of probability one (or more) is always applied. -/
theorem C118_one_partial (o : Op G) (inds : List Nat) (hp : 1 ≤ o.probability) {k n : Nat} (hk : k < n) :
    HasApplied o inds s (outcome o inds s k n) := by
  refine (applyOperator_drawing o inds hk).1 (le_trans ?_ hp)
  have hn : (0 : ℚ) < n := by exact_mod_cast (by omega : 0 < n)
  rw [div_le_one hn]
  exact_mod_cast hk.le

/-- **C118 (partial)**: an operator of probability zero is passed over unless `random.random()` returns zero exactly, one of
negative probability always. -/
theorem C118_zero_partial (o : Op G) (inds : List Nat) {k n : Nat} (hk : k < n)
    (hp : (o.probability = 0 ∧ 0 < k) ∨ o.probability < 0) : HasPassed inds s (outcome o inds s k n) := by
  refine (applyOperator_drawing o inds hk).2 ?_
  have hn : (0 : ℚ) < n := by exact_mod_cast (by omega : 0 < n)
  rcases hp with ⟨hp, h0⟩ | hp
  · rw [hp]
    exact div_pos (by exact_mod_cast h0) hn
  · exact lt_of_lt_of_le hp (div_nonneg (by positivity) hn.le)

/-- C118: the exact odds.  Of the `n` equally likely values of `random.random()`, `⌊n * probability⌋ + 1` let an operator
with a probability from 0 to less than 1 be applied; for all others it is passed over. -/
theorem C118_odds (o : Op G) (inds : List Nat) (h0 : 0 ≤ o.probability) (h1 : o.probability < 1) {n : Nat} (hn : 0 < n) :
    ∃ l : Nat, (l : ℤ) = ⌊n * o.probability⌋ + 1 ∧ l ≤ n ∧ (∀ k < l, HasApplied o inds s (outcome o inds s k n)) ∧
      ∀ k, l ≤ k → k < n → HasPassed inds s (outcome o inds s k n) := by
  have hn' : (0 : ℚ) < n := by exact_mod_cast hn
  have hf0 : 0 ≤ ⌊n * o.probability⌋ := Int.floor_nonneg.2 (mul_nonneg hn'.le h0)
  have hf1 : ⌊n * o.probability⌋ < n := by
    rw [Int.floor_lt]
    have := mul_lt_mul_of_pos_left h1 hn'
    rw [mul_one] at this
    exact_mod_cast this
  refine ⟨⌊n * o.probability⌋.toNat + 1, by omega, by omega, fun k hk => ?_, fun k hk hkn => ?_⟩
  · refine (applyOperator_drawing o inds (by omega)).1 ?_
    rw [div_le_iff₀ hn', mul_comm]
    have : (k : ℤ) ≤ ⌊n * o.probability⌋ := by omega
    have := Int.le_floor.1 this
    exact_mod_cast this
  · refine (applyOperator_drawing o inds hkn).2 ?_
    rw [lt_div_iff₀ hn', mul_comm]
    have : ⌊n * o.probability⌋ < (k : ℤ) := by omega
    have := Int.floor_lt.1 this
    exact_mod_cast this

/-- An operator of probability zero. -/
def exNever : Op Nat := ⟨"Never", 0, 1, fun refs => pure (some refs)⟩

/-- **C118 is false**: if `random.random()` returns 0.0, an operator of probability 0 is applied; the individual loses its
fitness and carries the name of the operator. -/
theorem C118_refuted : ¬ C118_statement Nat := by
  intro h
  have h1 := (h exNever [0] exWorld 0 (2 ^ 53) (by decide)).1 rfl
  unfold HasPassed at h1
  have h2 : ((outcome exNever [0] exWorld 0 (2 ^ 53)).2.heap.map (·.appliedOps)) = [["Never"], [], []] := by decide +kernel
  rw [h1] at h2
  exact absurd h2 (by decide +kernel)

example : HasApplied (G := Nat) { exNever with probability := 1 } [0] exWorld (outcome { exNever with probability := 1 } [0] exWorld 7 9) :=
  C118_one_partial _ _ (le_refl _) (by decide)

example : HasPassed (G := Nat) [0] exWorld (outcome exNever [0] exWorld 7 9) := C118_zero_partial _ _ (by decide) (.inl ⟨rfl, by decide⟩)

example := C118_odds (s := exWorld) { exNever with probability := 1 / 2 } [0] (by norm_num) (by norm_num) (n := 2 ^ 53) (by decide)

end Verif.Evo
