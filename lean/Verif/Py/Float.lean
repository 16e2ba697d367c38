import Mathlib.Algebra.Order.Field.Rat
import Mathlib.Algebra.Order.Field.Basic
import Mathlib.Algebra.Order.Floor.Ring
import Mathlib.Data.Rat.Floor
import Mathlib.Tactic.Linarith

/-! # Rounding: Python's `round`, IEEE double precision, and `sum` -/

namespace Verif.Py

/-- `round(q)`: the nearest integer, ties to the even one. -/
def round (q : ℚ) : ℤ :=
  if q - q.floor < 1 / 2 then q.floor
  else if 1 / 2 < q - q.floor then q.floor + 1
  else if q.floor % 2 = 0 then q.floor
  else q.floor + 1

/-- The largest `e` with `2 ^ e ≤ n / d`, for positive `n` and `d`. -/
def log2 (n d : Nat) : ℤ :=
  let e : ℤ := (Nat.log2 n : ℤ) - Nat.log2 d
  if (2 : ℚ) ^ e ≤ (n : ℚ) / d then e else e - 1

/-- Rounding to an IEEE double (53 bits, ties to even).  Overflow and subnormal numbers are not
modelled. -/
def double (q : ℚ) : ℚ :=
  if q = 0 then 0
  else
    let ulp : ℚ := (2 : ℚ) ^ (log2 q.num.natAbs q.den - 52)
    (round (q / ulp) : ℚ) * ulp

/-- The float operations of a Python version that `Subpopulation.__init__` uses. -/
structure Arith where
  /-- `1 / n` -/
  inv : Nat → ℚ
  /-- `sum(xs)` of a list of floats -/
  sum : List ℚ → ℚ

/-- Ideal arithmetic. -/
def Arith.exact : Arith := ⟨fun n => 1 / n, List.sum⟩

/-- CPython up to 3.11: floats are added one after the other. -/
def Arith.py311 : Arith := ⟨fun n => double (1 / n), List.foldl (fun s x => double (s + x)) 0⟩

/-- The step of the compensated summation: running sum and compensation. -/
def neumaier (s : ℚ × ℚ) (x : ℚ) : ℚ × ℚ :=
  let t := double (s.1 + x)
  if |x| ≤ |s.1| then (t, double (s.2 + double (double (s.1 - t) + x)))
  else (t, double (s.2 + double (double (x - t) + s.1)))

/-- CPython from 3.12 on: compensated (Neumaier) summation. -/
def Arith.py312 : Arith :=
  ⟨fun n => double (1 / n), fun xs => let s := xs.foldl neumaier (0, 0); double (s.1 + s.2)⟩


theorem round_dist (q : ℚ) : |(round q : ℚ) - q| ≤ 1 / 2 := by
  have h1 : (q.floor : ℚ) ≤ q := Rat.floor_le q
  have h2 : q < q.floor + 1 := by exact_mod_cast Rat.lt_floor_add_one q
  unfold round
  rw [abs_le]
  split_ifs with a b c
  · constructor <;> linarith
  · push_cast; constructor <;> linarith
  · constructor <;> linarith
  · push_cast; constructor <;> linarith

/-- A tie is rounded to the even neighbour. -/
theorem round_tie (q : ℚ) (h : |(round q : ℚ) - q| = 1 / 2) : round q % 2 = 0 := by
  have h1 : (q.floor : ℚ) ≤ q := Rat.floor_le q
  have h2 : q < q.floor + 1 := by exact_mod_cast Rat.lt_floor_add_one q
  revert h
  unfold round
  split_ifs with a b c <;> intro h
  · rw [abs_sub_comm, abs_of_nonneg (by linarith)] at h; linarith
  · push_cast at h; rw [abs_of_nonneg (by linarith)] at h; linarith
  · exact c
  · omega

end Verif.Py
