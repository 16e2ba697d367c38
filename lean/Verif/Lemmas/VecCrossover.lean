import Verif.Spec.Vector
import Verif.Py.Ensures
import Mathlib.Tactic.Tauto
import Mathlib.Tactic.Ring
import Mathlib.Data.List.Induction

/-! # The k-point crossover loop -/

namespace Verif.GA
open PyM

theorem clamp_le (n : Nat) (i : Int) : Py.clamp n i ≤ n := by
  unfold Py.clamp; split <;> omega

theorem slice_length (xs : List ℚ) (a b : Int) :
    (Py.slice xs a b).length = Py.clamp xs.length b - Py.clamp xs.length a := by
  have := clamp_le xs.length b
  simp only [Py.slice, List.length_take, List.length_drop]; omega

theorem slice_getElem? (xs : List ℚ) (a b : Int) (i : Nat) :
    (Py.slice xs a b)[i]? =
      if i < Py.clamp xs.length b - Py.clamp xs.length a then xs[Py.clamp xs.length a + i]?
      else none := by
  simp only [Py.slice, List.getElem?_take, List.getElem?_drop]

theorem setSlice_length (xs ys : List ℚ) (a b : Int)
    (h : ys.length = Py.clamp xs.length b - Py.clamp xs.length a) :
    (Py.setSlice xs a b ys).length = xs.length := by
  have h1 := clamp_le xs.length a
  have h2 := clamp_le xs.length b
  simp only [Py.setSlice, List.length_append, List.length_take, List.length_drop, h]; omega

theorem setSlice_getElem? (xs ys : List ℚ) (a b : Int)
    (h : ys.length = Py.clamp xs.length b - Py.clamp xs.length a) (i : Nat) :
    (Py.setSlice xs a b ys)[i]? =
      if Py.clamp xs.length a ≤ i ∧ i < Py.clamp xs.length b then ys[i - Py.clamp xs.length a]?
      else xs[i]? := by
  have h1 := clamp_le xs.length a
  have h2 := clamp_le xs.length b
  simp only [Py.setSlice]
  rw [List.append_assoc, List.getElem?_append, List.length_take, Nat.min_eq_left h1]
  by_cases hi : i < Py.clamp xs.length a
  · rw [if_pos hi, if_neg (by omega), List.getElem?_take, if_pos hi]
  · rw [if_neg hi, List.getElem?_append, h]
    by_cases hi2 : i < Py.clamp xs.length b
    · rw [if_pos (by omega), if_pos ⟨by omega, hi2⟩]
    · rw [if_neg (by omega), if_neg (by omega), List.getElem?_drop]
      congr 1; omega

theorem swapSlice_exchanged (a b : Int) (v1 v2 : List ℚ) (h : v1.length = v2.length) :
    ExchangedAt (fun i => Py.clamp v1.length a ≤ i ∧ i < Py.clamp v1.length b) v1 v2
      (swapSlice a b v1 v2).1 (swapSlice a b v1 v2).2 := by
  have hl1 : (Py.slice v2 a b).length = Py.clamp v1.length b - Py.clamp v1.length a := by
    rw [slice_length, h]
  have hl2 : (Py.slice v1 a b).length = Py.clamp v2.length b - Py.clamp v2.length a := by
    rw [slice_length, h]
  refine ⟨setSlice_length _ _ _ _ hl1, setSlice_length _ _ _ _ hl2, fun i => ⟨fun hi => ?_, fun hi => ?_⟩⟩
  · simp only [swapSlice]
    rw [setSlice_getElem? _ _ _ _ hl1, setSlice_getElem? _ _ _ _ hl2, if_pos hi, if_pos (h ▸ hi),
      slice_getElem?, slice_getElem?, ← h, if_pos (by omega), if_pos (by omega)]
    rw [show Py.clamp v1.length a + (i - Py.clamp v1.length a) = i by omega]
    exact ⟨rfl, rfl⟩
  · simp only [swapSlice]
    rw [setSlice_getElem? _ _ _ _ hl1, setSlice_getElem? _ _ _ _ hl2, if_neg hi, if_neg (h ▸ hi)]
    exact ⟨rfl, rfl⟩

theorem ExchangedAt.trans {P Q : Nat → Prop} {v1 v2 w1 w2 u1 u2 : List ℚ}
    (h1 : ExchangedAt P v1 v2 w1 w2) (h2 : ExchangedAt Q w1 w2 u1 u2)
    (hd : ∀ i, P i → ¬ Q i) : ExchangedAt (fun i => P i ∨ Q i) v1 v2 u1 u2 := by
  refine ⟨h2.1.trans h1.1, h2.2.1.trans h1.2.1, fun i => ⟨?_, fun hn => ?_⟩⟩
  · rintro (hp | hq)
    · have a := (h1.2.2 i).1 hp
      have b := (h2.2.2 i).2 (hd i hp)
      exact ⟨b.1.trans a.1, b.2.trans a.2⟩
    · have a := (h1.2.2 i).2 fun hp => hd i hp hq
      have b := (h2.2.2 i).1 hq
      exact ⟨b.1.trans a.2, b.2.trans a.1⟩
  · have a := (h1.2.2 i).2 fun hp => hn (.inl hp)
    have b := (h2.2.2 i).2 fun hp => hn (.inr hp)
    exact ⟨b.1.trans a.1, b.2.trans a.2⟩

theorem ExchangedAt.congr {P Q : Nat → Prop} {v1 v2 w1 w2 : List ℚ} (h : ExchangedAt P v1 v2 w1 w2)
    (hl : v1.length = v2.length) (hpq : ∀ i, i < v1.length → (P i ↔ Q i)) :
    ExchangedAt Q v1 v2 w1 w2 := by
  refine ⟨h.1, h.2.1, fun i => ?_⟩
  by_cases hi : i < v1.length
  · rw [← hpq i hi]; exact h.2.2 i
  · have e1 : v1[i]? = none := List.getElem?_eq_none (by omega)
    have e2 : v2[i]? = none := List.getElem?_eq_none (by omega)
    have e3 : w1[i]? = none := List.getElem?_eq_none (by have := h.1; omega)
    have e4 : w2[i]? = none := List.getElem?_eq_none (by have := h.2.1; omega)
    simp [e1, e2, e3, e4]

theorem ExchangedAt.refl (v1 v2 : List ℚ) : ExchangedAt (fun _ => False) v1 v2 v1 v2 :=
  ⟨rfl, rfl, fun _ => ⟨False.elim, fun _ => ⟨rfl, rfl⟩⟩⟩

/-- The segment exchanged by one round: `start = none` is Python's `-1`. -/
def seg (n : Nat) (start : Option Nat) (e i : Nat) : Prop :=
  match start with
  | some s => s ≤ i ∧ i < e
  | none => e = n ∧ i + 1 = n

/-- The loci exchanged by the loop. -/
def segs (n m : Nat) : Option Nat → List Nat → Nat → Prop
  | _, [], _ => False
  | start, [e], i => seg n start e i
  | start, e :: nxt :: rest, i => seg n start e i ∨ segs n m (if e < m then some nxt else none) rest i

/-- Python value of a start index. -/
def startIdx : Option Nat → Int
  | some s => s
  | none => -1

theorem swapSlice_seg {v1 v2 : List ℚ} (h : v1.length = v2.length) (start : Option Nat) {e : Nat}
    (hs : ∀ s, start = some s → s ≤ v1.length) (he : e ≤ v1.length) (hn : 0 < v1.length) :
    ExchangedAt (seg v1.length start e) v1 v2
      (swapSlice (startIdx start) e v1 v2).1 (swapSlice (startIdx start) e v1 v2).2 := by
  refine (swapSlice_exchanged (startIdx start) e v1 v2 h).congr h fun i hi => ?_
  have hce : Py.clamp v1.length (e : Int) = e := by
    unfold Py.clamp; rw [if_neg (by omega)]; simp [he]
  cases start with
  | some s =>
    have := hs s rfl
    have hcs : Py.clamp v1.length (startIdx (some s)) = s := by
      unfold Py.clamp startIdx; rw [if_neg (by simp)]; simp [this]
    simp [hce, hcs, seg]
  | none =>
    have hcs : Py.clamp v1.length (startIdx none) = v1.length - 1 := by
      show Py.clamp v1.length (-1) = _
      unfold Py.clamp; rw [if_pos (by decide)]; omega
    simp only [hce, hcs, seg]; omega

/-- Every segment lies at or after every lower bound of the remaining points. -/
theorem segs_lower (n m : Nat) (b : Nat) : ∀ (xs : List Nat) (start : Option Nat),
    (∀ s, start = some s → b ≤ s) → (∀ x ∈ xs, b < x) → ∀ i, segs n m start xs i → b ≤ i := by
  intro xs
  induction xs using List.twoStepInduction with
  | nil => intro _ _ _ i h; exact absurd h (by simp [segs])
  | singleton e =>
    intro start h1 h3 i h
    have := h3 e (by simp)
    cases start with
    | some s => simp only [segs, seg] at h; have := h1 s rfl; omega
    | none => simp only [segs, seg] at h; omega
  | cons_cons e nxt rest ih _ =>
    intro start h1 h3 i h
    simp only [segs] at h
    have := h3 e (by simp)
    rcases h with h | h
    · cases start with
      | some s => simp only [seg] at h; have := h1 s rfl; omega
      | none => simp only [seg] at h; omega
    · have hnb : b < nxt := h3 nxt (by simp)
      refine ih (if e < m then some nxt else none) ?_ ?_ i h
      · intro s hs; split at hs
        · simp at hs; omega
        · simp at hs
      · intro x hx; exact h3 x (by simp [hx])

theorem seg_upper {n : Nat} {start : Option Nat} {e i : Nat} (h : seg n start e i) : i < e := by
  cases start <;> simp only [seg] at h <;> omega

/-- The loop returns, and exchanges exactly the loci of `segs`. -/
theorem swapLoop_exchanged (m : Nat) : ∀ (xs : List Nat) (start : Option Nat) (v1 v2 : List ℚ),
    v1.length = v2.length → 0 < v1.length → xs.Pairwise (· < ·) → (∀ x ∈ xs, x ≤ v1.length) →
    (∀ x, xs.getLast? = some x → m ≤ x) → (∀ s, start = some s → s ≤ v1.length) →
    ∃ w1 w2, swapLoop m (startIdx start) xs v1 v2 = .ok (w1, w2) ∧
      ExchangedAt (segs v1.length m start xs) v1 v2 w1 w2 := by
  intro xs
  induction xs using List.twoStepInduction with
  | nil =>
    intro start v1 v2 _ _ _ _ _ _
    exact ⟨v1, v2, rfl, ExchangedAt.refl v1 v2⟩
  | singleton e =>
    intro start v1 v2 h hn _ hle hlast hs
    refine ⟨_, _, ?_, swapSlice_seg h start hs (hle e (by simp)) hn⟩
    simp only [swapLoop]
    rw [if_neg (by have := hlast e rfl; omega)]
  | cons_cons e nxt rest ih _ =>
    intro start v1 v2 h hn hp hle hlast hs
    have hx := swapSlice_seg h start hs (hle e (by simp)) hn
    have hp' := (List.pairwise_cons.1 hp).2
    have hen : e < nxt := (List.pairwise_cons.1 hp).1 nxt (by simp)
    have hl1 := hx.1
    have hl2 := hx.2.1
    obtain ⟨w1, w2, hr, hw⟩ := ih (if e < m then some nxt else none)
      (swapSlice (startIdx start) e v1 v2).1 (swapSlice (startIdx start) e v1 v2).2
      (by omega) (by omega) (List.pairwise_cons.1 hp').2
      (fun x hx => by rw [hl1]; exact hle x (by simp [hx]))
      (fun x hx => hlast x (by
        cases rest with
        | nil => simp at hx
        | cons r rest => simpa using hx))
      (fun s hs => by
        split at hs
        · simp at hs; subst hs; rw [hl1]; exact hle nxt (by simp)
        · simp at hs)
    refine ⟨w1, w2, ?_, ?_⟩
    · simp only [swapLoop]
      rw [← hr]
      congr 1
      split <;> rfl
    · rw [hl1] at hw
      refine ExchangedAt.trans hx hw fun i hi hi' => ?_
      have := seg_upper hi
      have := segs_lower v1.length m e rest _ (fun s hs => by
        split at hs
        · simp at hs; omega
        · simp at hs) (fun x hx => by
          have := (List.pairwise_cons.1 hp').1 x hx; omega) i hi'
      omega

/-- If no start index is lost, the loop exchanges the alternate segments. -/
theorem segs_iff_even {n m : Nat} : ∀ (xs : List Nat) (s : Nat),
    xs.Pairwise (· < ·) → (∀ x ∈ xs, s < x) → (xs = [] → n ≤ s) →
    (∀ x, xs.getLast? = some x → x = n) →
    (∀ j e, 2 * j + 2 < xs.length → xs[2 * j]? = some e → e < m) →
    ∀ i, i < n → (segs n m (some s) xs i ↔ s ≤ i ∧ (xs.filter (· ≤ i)).length % 2 = 0) := by
  intro xs
  induction xs using List.twoStepInduction with
  | nil =>
    intro s _ _ hnil _ _ i hi
    have := hnil rfl
    simp only [segs, List.filter_nil, List.length_nil, false_iff]
    omega
  | singleton e =>
    intro s _ _ _ hlast _ i hi
    have := hlast e rfl
    simp only [segs, seg, List.filter_cons, List.filter_nil]
    rw [if_neg (by simp; omega)]
    simp; omega
  | cons_cons e nxt rest ih _ =>
    intro s hp hlt _ hlast hgood i hi
    have hp' := (List.pairwise_cons.1 hp).2
    have hen : e < nxt := (List.pairwise_cons.1 hp).1 nxt (by simp)
    have hse : s < e := hlt e (by simp)
    have hrest : ∀ x ∈ rest, nxt < x := (List.pairwise_cons.1 hp').1
    have hstep : segs n m (if e < m then some nxt else none) rest i ↔
        nxt ≤ i ∧ (rest.filter (· ≤ i)).length % 2 = 0 := by
      cases hr : rest with
      | nil =>
        have : nxt = n := hlast nxt (by simp [hr])
        simp only [segs, false_iff]; omega
      | cons r rest' =>
        rw [if_pos (hgood 0 e (by simp [hr]) rfl), ← hr]
        refine ih nxt (List.pairwise_cons.1 hp').2 hrest (by simp [hr]) ?_ ?_ i hi
        · intro x hx; exact hlast x (by simp only [hr] at hx ⊢; simpa using hx)
        · intro j e' hj he'
          exact hgood (j + 1) e' (by simp; omega) (by
            rw [show 2 * (j + 1) = 2 * j + 1 + 1 by ring]; simpa using he')
    simp only [segs, seg, hstep, List.filter_cons, decide_eq_true_eq]
    by_cases h1 : e ≤ i
    · rw [if_pos h1]
      by_cases h2 : nxt ≤ i
      · rw [if_pos h2]
        simp only [List.length_cons, Nat.add_assoc, Nat.add_mod_right]
        constructor
        · rintro (h | h)
          · omega
          · exact ⟨by omega, h.2⟩
        · intro h; exact .inr ⟨h2, h.2⟩
      · have : rest.filter (· ≤ i) = [] := by
          rw [List.filter_eq_nil_iff]; intro x hx; have := hrest x hx; simp; omega
        rw [if_neg h2, this]
        simp; omega
    · have : rest.filter (· ≤ i) = [] := by
        rw [List.filter_eq_nil_iff]; intro x hx; have := hrest x hx; simp; omega
      rw [if_neg h1, if_neg (by omega), this]
      simp; omega

end Verif.GA
