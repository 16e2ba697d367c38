import Verif.Model.Failable

/-!
# C44 — failable operators retry at most `attempts` times
-/

namespace Verif.Failable

variable {σ α β : Type}

/-- The attempts numbered `0, …, k-1` on `payload`, made one after the other from state `s`, all report
failure, and lead to state `s'`. -/
inductive Fails (attempt : α → Nat → PyM σ (Bool × β)) (payload : α) (s : σ) : Nat → σ → Prop
  | zero : Fails attempt payload s 0 s
  | succ {k : Nat} {s' s'' : σ} {b : β} : Fails attempt payload s k s' →
      attempt payload k s' = (.ok (false, b), s'') → Fails attempt payload s (k + 1) s''

theorem loop_fails {attempt : α → Nat → PyM σ (Bool × β)} {onFail : α → PyM σ β} {payload : α} {s s' : σ}
    {k : Nat} (h : Fails attempt payload s k s') (n : Nat) :
    loop attempt onFail payload (n + k) 0 s = loop attempt onFail payload n k s' := by
  induction h generalizing n with
  | zero => rfl
  | succ _ ha ih =>
    rw [show ∀ k, n + (k + 1) = (n + 1) + k from fun k => by omega, ih (n + 1)]
    simp only [loop, bind, PyM.bind, ha]
    rfl

/-- C44: if the first `k < attempts` attempts fail and the next one succeeds, its result is returned and the
state is the one it left; `on_fail` is not called. -/
theorem C44_first_success (op : Op σ α β) (payload : α) {s s' s'' : σ} {k : Nat} {b : β}
    (hk : k < op.attempts) (hf : Fails op.attempt payload s k s')
    (ha : op.attempt payload k s' = (.ok (true, b), s'')) :
    op.apply payload s = (.ok b, s'') := by
  unfold Op.apply
  rw [show op.attempts = (op.attempts - k - 1 + 1) + k by omega, loop_fails hf]
  simp only [loop, bind, PyM.bind, ha]
  rfl

/-- C44: if all attempts fail, the outcome is that of one call of `on_fail` after them. -/
theorem C44_all_fail (op : Op σ α β) (payload : α) {s s' : σ}
    (hf : Fails op.attempt payload s op.attempts s') :
    op.apply payload s = op.onFail payload s' := by
  unfold Op.apply
  have := loop_fails (onFail := op.onFail) hf 0
  rw [Nat.zero_add] at this
  rw [this]
  rfl

/-- C44: an exception in an attempt ends `apply` with that exception; no further attempt, no `on_fail`. -/
theorem C44_attempt_raises (op : Op σ α β) (payload : α) {s s' s'' : σ} {k : Nat} {e : Err}
    (hk : k < op.attempts) (hf : Fails op.attempt payload s k s')
    (ha : op.attempt payload k s' = (.error e, s'')) :
    op.apply payload s = (.error e, s'') := by
  unfold Op.apply
  rw [show op.attempts = (op.attempts - k - 1 + 1) + k by omega, loop_fails hf]
  simp only [loop, bind, PyM.bind, ha]

/-- C44: these are all cases. -/
theorem C44_cases (op : Op σ α β) (payload : α) (s : σ) :
    (∃ k s' s'' b, k < op.attempts ∧ Fails op.attempt payload s k s' ∧
      op.attempt payload k s' = (.ok (true, b), s'')) ∨
    (∃ k s' s'' e, k < op.attempts ∧ Fails op.attempt payload s k s' ∧
      op.attempt payload k s' = (.error e, s'')) ∨
    (∃ s', Fails op.attempt payload s op.attempts s') := by
  suffices h : ∀ n, (∃ k s' s'' b, k < n ∧ Fails op.attempt payload s k s' ∧
      op.attempt payload k s' = (.ok (true, b), s'')) ∨
    (∃ k s' s'' e, k < n ∧ Fails op.attempt payload s k s' ∧
      op.attempt payload k s' = (.error e, s'')) ∨
    (∃ s', Fails op.attempt payload s n s') from h _
  intro n
  induction n with
  | zero => exact .inr (.inr ⟨s, .zero⟩)
  | succ n ih =>
    rcases ih with ⟨k, s', s'', b, hk, h⟩ | ⟨k, s', s'', e, hk, h⟩ | ⟨s', h⟩
    · exact .inl ⟨k, s', s'', b, by omega, h⟩
    · exact .inr (.inl ⟨k, s', s'', e, by omega, h⟩)
    · rcases ha : op.attempt payload n s' with ⟨e | ⟨⟨⟩ | ⟨⟩, b⟩, s''⟩
      · exact .inr (.inl ⟨n, s', s'', e, by omega, h, ha⟩)
      · exact .inr (.inr ⟨s'', h.succ ha⟩)
      · exact .inl ⟨n, s', s'', b, by omega, h, ha⟩

/-! ## The calls made -/

/-- A call that `apply` makes. -/
inductive Called (α : Type) where
  | attempt (payload : α) (num : Nat)
  | onFail (payload : α)
  deriving DecidableEq

/-- Run `m` on the first component of the state, after noting `c` in the second. -/
def noting {γ : Type} (c : Called α) (m : PyM σ γ) : PyM (σ × List (Called α)) γ :=
  fun s => ((m s.1).1, (m s.1).2, s.2 ++ [c])

/-- The operator whose methods note that they were called. -/
def Op.observed (op : Op σ α β) : Op (σ × List (Called α)) α β where
  attempts := op.attempts
  attempt p i := noting (.attempt p i) (op.attempt p i)
  onFail p := noting (.onFail p) (op.onFail p)

theorem observed_fails {op : Op σ α β} {payload : α} {s s' : σ} {k : Nat} {log : List (Called α)}
    (h : Fails op.attempt payload s k s') :
    Fails op.observed.attempt payload (s, log) k
      (s', log ++ (List.range k).map (Called.attempt payload)) := by
  induction h with
  | zero => simpa using Fails.zero
  | succ _ ha ih =>
    refine ih.succ (b := ?_) ?_
    rotate_left
    · simp only [Op.observed, noting, ha]
      rw [List.range_succ, List.map_append, List.append_assoc]
      rfl

/-- C44: the calls made by `apply`.  The methods of the operator are called on the given payload only.  The
attempts are numbered `0, 1, …`, there are at most `attempts` of them, all but the last one failed; `on_fail`
is called — once, at the end — exactly if `attempts` attempts were made and the last one failed as well. -/
theorem C44_calls (op : Op σ α β) (payload : α) (s : σ) (log : List (Called α)) :
    (op.observed.apply payload (s, log)).1 = (op.apply payload s).1 ∧
    (op.observed.apply payload (s, log)).2.1 = (op.apply payload s).2 ∧
    ((∃ k s' s'' r, k < op.attempts ∧ Fails op.attempt payload s k s' ∧
        op.attempt payload k s' = (r, s'') ∧ (∀ b, r ≠ .ok (false, b)) ∧
        (op.observed.apply payload (s, log)).2.2 =
          log ++ (List.range (k + 1)).map (Called.attempt payload)) ∨
     ((∃ s', Fails op.attempt payload s op.attempts s') ∧
        (op.observed.apply payload (s, log)).2.2 =
          log ++ (List.range op.attempts).map (Called.attempt payload) ++ [Called.onFail payload])) := by
  rcases C44_cases op payload s with ⟨k, s', s'', b, hk, hf, ha⟩ | ⟨k, s', s'', e, hk, hf, ha⟩ | ⟨s', hf⟩
  · have h1 := C44_first_success op payload hk hf ha
    have h2 := C44_first_success op.observed payload (k := k) (b := b)
      (s'' := (s'', (log ++ (List.range k).map (Called.attempt payload)) ++ [.attempt payload k])) hk
      (observed_fails (log := log) hf) (by simp only [Op.observed, noting, ha])
    rw [h1, h2]
    refine ⟨rfl, rfl, .inl ⟨k, s', s'', _, hk, hf, ha, by simp, ?_⟩⟩
    rw [List.range_succ, List.map_append, List.append_assoc]
    rfl
  · have h1 := C44_attempt_raises op payload hk hf ha
    have h2 := C44_attempt_raises op.observed payload (k := k) (e := e)
      (s'' := (s'', (log ++ (List.range k).map (Called.attempt payload)) ++ [.attempt payload k])) hk
      (observed_fails (log := log) hf) (by simp only [Op.observed, noting, ha])
    rw [h1, h2]
    refine ⟨rfl, rfl, .inl ⟨k, s', s'', _, hk, hf, ha, by simp, ?_⟩⟩
    rw [List.range_succ, List.map_append, List.append_assoc]
    rfl
  · have h1 := C44_all_fail op payload hf
    have h2 := C44_all_fail op.observed payload (observed_fails (log := log) hf)
    rw [h1, h2]
    exact ⟨rfl, rfl, .inr ⟨⟨s', hf⟩, rfl⟩⟩

/-- C44: a number of attempts below one is rejected, any other one is accepted as it is. -/
theorem C44_attempts (n : Int) (attempt : α → Nat → PyM σ (Bool × β)) (onFail : α → PyM σ β) :
    (n < 1 → Op.new n attempt onFail = .error .valueError) ∧
    (1 ≤ n → ∃ op, Op.new n attempt onFail = .ok op ∧ (op.attempts : Int) = n ∧ op.attempt = attempt ∧
      op.onFail = onFail) := by
  unfold Op.new
  constructor
  · intro h; rw [if_pos h]
  · intro h
    rw [if_neg (by omega)]
    exact ⟨_, rfl, by simp; omega, rfl, rfl⟩

/-- **C44, concrete operators.** The value-threading version of `apply` used for the concrete operators is this one, for the operator that
keeps the individuals behind the payload reference in the state. -/
theorem C44_operators (attempts : Nat) (attempt : α → Nat → PyM σ (Bool × α)) (onFail : α → PyM σ α)
    (payload : α) (s : σ) :
    let op : Op (σ × α) Unit α :=
      { attempts := attempts
        attempt := fun _ i s => match attempt s.2 i s.1 with
          | (.ok (b, a), s') => (.ok (b, a), (s', a))
          | (.error e, s') => (.error e, (s', s.2))
        onFail := fun _ s => ((onFail s.2 s.1).1, (onFail s.2 s.1).2, s.2) }
    (op.apply () (s, payload)).1 = (failableApply attempts attempt onFail payload s).1 ∧
    (op.apply () (s, payload)).2.1 = (failableApply attempts attempt onFail payload s).2 := by
  unfold Op.apply failableApply
  dsimp only
  generalize 0 = i
  induction attempts generalizing i payload s with
  | zero => exact ⟨rfl, rfl⟩
  | succ n ih =>
    simp only [loop, failableLoop, bind, PyM.bind]
    rcases attempt payload i s with ⟨e | ⟨⟨⟩ | ⟨⟩, b⟩, s''⟩
    · exact ⟨rfl, rfl⟩
    · exact ih _ _ _
    · exact ⟨rfl, rfl⟩

/-! ## Instances -/

/-- Counts its attempts in the state and succeeds at the third. -/
def exOp : Op Nat String Nat :=
  { attempts := 4
    attempt := fun _ i s => (.ok (decide (s = 2), 10 * i), s + 1)
    onFail := fun _ s => (.ok 99, s) }

example : Fails exOp.attempt "p" 0 2 2 := (Fails.zero.succ (b := 0) rfl).succ (b := 10) rfl

example : exOp.attempt "p" 2 2 = (.ok (true, 20), 3) := rfl

example : exOp.observed.apply "p" (0, []) =
    (.ok 20, 3, [.attempt "p" 0, .attempt "p" 1, .attempt "p" 2]) := rfl

example : exOp.observed.apply "p" (5, []) =
    (.ok 99, 9, [.attempt "p" 0, .attempt "p" 1, .attempt "p" 2, .attempt "p" 3, .onFail "p"]) := rfl

end Verif.Failable
