import Verif.Py.Basic
import Mathlib.Algebra.Order.Field.Rat
import Mathlib.Algebra.Order.Field.Basic
import Mathlib.Tactic.Linarith
import Mathlib.Tactic.Positivity

/-!
# The random source

Python's `random` (and `numpy.random`) generator is a tape: the infinite sequence of raw draws
that it is going to produce.  Each library call takes the next entries and decodes them into an
outcome of the call.  Every possible outcome of every call is produced by some tape, so a
statement "for all tapes" is a statement about all outcomes of all random draws.

Simplification: the distribution and the Mersenne Twister are not modelled.
-/

namespace Verif

/-- The future output of the random generator. -/
abbrev Tape := Nat → Nat

/-- Computations that draw random numbers. -/
abbrev Rand := PyM Tape

namespace Rand
open PyM

/-- The next raw draw. -/
def next : Rand Nat := fun t => (.ok (t 0), fun n => t (n + 1))

/-- An index below `n`: `random.randrange(n)`. Raises `ValueError` for an empty range. -/
def below (n : Nat) : Rand Nat := do
  if n = 0 then raise .valueError
  else do
    let d ← next
    pure (d % n)

/-- `random.choice(seq)`: `IndexError` on an empty sequence. -/
def choice {α : Type} (xs : List α) : Rand α := do
  if xs.length = 0 then raise .indexError
  else do
    let d ← next
    match xs[d % xs.length]? with
    | some x => pure x
    | none => raise .indexError

/-- `random.random()`: a rational in `[0, 1)`; every such rational is the outcome of some draws. -/
def random : Rand ℚ := do
  let a ← next
  let b ← next
  pure (((a % (b + 1) : Nat) : ℚ) / ((b + 1 : Nat) : ℚ))

/-- `random.uniform(a, b) = a + (b - a) * random()` (CPython). -/
def uniform (a b : ℚ) : Rand ℚ := do
  let u ← random
  pure (a + (b - a) * u)

/-- `random.randint(a, b)`: `ValueError` on non-integral arguments or an empty range. -/
def randint (a b : ℚ) : Rand ℤ := do
  if a.den ≠ 1 ∨ b.den ≠ 1 then raise .valueError
  else if b.num < a.num then raise .valueError
  else do
    let d ← next
    pure (a.num + ((d % (b.num - a.num + 1).toNat : Nat) : ℤ))

/-- `random.gauss(mu, sigma) = mu + z * sigma` (CPython), where `z` is an arbitrary rational (Gaussian noise has no
bound). -/
def gauss (mu sigma : ℚ) : Rand ℚ := do
  let s ← next
  let a ← next
  let b ← next
  let m : ℚ := (a : ℚ) / ((b + 1 : Nat) : ℚ)
  pure (mu + (if s % 2 = 0 then m else -m) * sigma)

/-- `random.sample(xs, k)`: `k` distinct positions, in drawing order; `ValueError` if `k` exceeds
the population. -/
def sample {α : Type} : (k : Nat) → List α → Rand (List α)
  | 0, _ => pure []
  | k + 1, xs => do
    if xs.length < k + 1 then raise .valueError
    else do
      let d ← next
      let i := d % xs.length
      match xs[i]? with
      | none => raise .valueError
      | some x => do
        let rest ← sample k (xs.eraseIdx i)
        pure (x :: rest)

/-- `random.choices(xs, k=k)` (uniform weights): `IndexError` on an empty population (if `k > 0`). -/
def choices {α : Type} (xs : List α) (k : Nat) : Rand (List α) := replicateM k (choice xs)

theorem below_post (n : Nat) : Post (below n) (· < n) := by
  unfold below
  refine Post.ite (fun _ => Post.raise) fun h => ?_
  refine Post.bind Post.trivial fun d _ => Post.pure (Nat.mod_lt _ (Nat.pos_of_ne_zero h))

theorem choice_post {α : Type} (xs : List α) : Post (choice xs) (· ∈ xs) := by
  unfold choice
  refine Post.ite (fun _ => Post.raise) fun h => ?_
  refine Post.bind Post.trivial fun d _ => ?_
  split
  · rename_i x hx; exact Post.pure (List.mem_of_getElem? hx)
  · exact Post.raise

theorem choice_total {α : Type} {xs : List α} (h : xs ≠ []) : Total (choice xs) := by
  have hl : xs.length ≠ 0 := by simpa using h
  unfold choice
  rw [if_neg hl]
  refine Total.bind (fun s => ⟨_, _, rfl⟩) Post.trivial fun d _ => ?_
  have : d % xs.length < xs.length := Nat.mod_lt _ (Nat.pos_of_ne_zero hl)
  rw [List.getElem?_eq_getElem this]
  exact Total.pure

/-- Every element can be chosen. -/
theorem choice_complete {α : Type} {xs : List α} {x : α} (h : x ∈ xs) (t' : Tape) :
    ∃ t, choice xs t = (.ok x, t') := by
  obtain ⟨i, hi, rfl⟩ := List.getElem_of_mem h
  refine ⟨fun n => if n = 0 then i else t' (n - 1), ?_⟩
  have hl : xs.length ≠ 0 := by omega
  unfold choice
  rw [if_neg hl, bind_ok]
  refine ⟨i, t', ?_, ?_⟩
  · simp [next]
  · rw [Nat.mod_eq_of_lt hi, List.getElem?_eq_getElem hi]; rfl

theorem random_post : Post random (fun u => 0 ≤ u ∧ u < 1) := by
  unfold random
  refine Post.bind Post.trivial fun a _ => Post.bind Post.trivial fun b _ => Post.pure ?_
  have hb : (0 : ℚ) < ((b + 1 : Nat) : ℚ) := by exact_mod_cast Nat.succ_pos b
  constructor
  · exact div_nonneg (Nat.cast_nonneg _) hb.le
  · rw [div_lt_one hb]; exact_mod_cast Nat.mod_lt _ (Nat.succ_pos b)

theorem uniform_post {a b : ℚ} (h : a ≤ b) : Post (uniform a b) (fun x => a ≤ x ∧ x ≤ b) := by
  unfold uniform
  refine Post.bind random_post fun u hu => Post.pure ?_
  constructor <;> nlinarith [hu.1, hu.2]

theorem randint_post {a b : ℚ} : Post (randint a b) (fun (x : ℤ) => a ≤ (x : ℚ) ∧ (x : ℚ) ≤ b) := by
  unfold randint
  refine Post.ite (fun _ => Post.raise) fun h => Post.ite (fun _ => Post.raise) fun h2 => ?_
  refine Post.bind Post.trivial fun d _ => Post.pure ?_
  simp only [not_or, ne_eq, not_not, not_lt] at h h2
  have ha : a = (a.num : ℚ) := (Rat.den_eq_one_iff a).1 h.1 |>.symm
  have hb : b = (b.num : ℚ) := (Rat.den_eq_one_iff b).1 h.2 |>.symm
  have hlt : d % (b.num - a.num + 1).toNat < (b.num - a.num + 1).toNat :=
    Nat.mod_lt _ (by omega)
  constructor
  · conv_lhs => rw [ha]
    exact_mod_cast (by omega : a.num ≤ a.num + ((d % (b.num - a.num + 1).toNat : Nat) : ℤ))
  · conv_rhs => rw [hb]
    exact_mod_cast (by omega : a.num + ((d % (b.num - a.num + 1).toNat : Nat) : ℤ) ≤ b.num)

end Rand
end Verif
