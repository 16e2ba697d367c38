import Verif.Model.NSGA2
import Verif.Py.Ensures
import Mathlib.Tactic.Tauto

/-!
# C48, C52 and the crowding half of C42 — Pareto domination, crowded comparison, crowding checker
-/

namespace Verif.Moo
open PyM

/-- `a` is at least as good as `b` in the direction `hib`. -/
def AtLeast (hib : Bool) (a b : ℚ) : Prop := if hib = true then b ≤ a else a ≤ b

/-- `a` is better than `b` in the direction `hib`. -/
def Better (hib : Bool) (a b : ℚ) : Prop := if hib = true then b < a else a < b

/-- Pareto domination of objective vectors of the same length as the list of directions. -/
def Pareto (dirs : List Bool) (a b : List ℚ) : Prop :=
  (∀ (i : Nat) (d : Bool) (x y : ℚ), dirs[i]? = some d → a[i]? = some x → b[i]? = some y → AtLeast d x y) ∧
  ∃ (i : Nat) (d : Bool) (x y : ℚ), dirs[i]? = some d ∧ a[i]? = some x ∧ b[i]? = some y ∧ Better d x y

/-- An evaluated fitness object with the objectives `v` and one direction for each of them. -/
structure Fit.Is (f : Fit) (dirs : List Bool) (v : List ℚ) : Prop where
  objs : f.objs = some v
  isEach : f.dirs = .each dirs
  length : v.length = dirs.length

theorem atLeast_iff {d : Bool} {a b : ℚ} : atLeast d a b = true ↔ AtLeast d a b := by
  cases d <;> simp [atLeast, AtLeast]

theorem betterObj_iff {d : Bool} {a b : ℚ} : betterObj d a b = true ↔ Better d a b := by
  cases d <;> simp [betterObj, Better]

theorem zip3_getElem? {dirs : List Bool} {a b : List ℚ} {i : Nat} {z : Bool × ℚ × ℚ} :
    (dirs.zip (a.zip b))[i]? = some z ↔ dirs[i]? = some z.1 ∧ a[i]? = some z.2.1 ∧ b[i]? = some z.2.2 := by
  obtain ⟨d, x, y⟩ := z
  rw [List.getElem?_zip_eq_some, List.getElem?_zip_eq_some]

theorem Fit.Is.comparable {f g : Fit} {dirs dirs' : List Bool} {a b : List ℚ} (hf : f.Is dirs a)
    (hg : g.Is dirs' b) (hl : a.length = b.length) : f.comparable g = .ok (a, b) := by
  unfold Fit.comparable Fit.isEvaluated Fit.pure
  simp [hf.objs, hg.objs, hl]

/-- The computed value of `dominate`. -/
theorem dominate_eq {f g : Fit} {dirs dirs' : List Bool} {a b : List ℚ} (hf : f.Is dirs a) (hg : g.Is dirs' b)
    (hl : a.length = b.length) :
    ∃ r, f.dominate g = .ok r ∧ (r = true ↔ Pareto dirs a b) := by
  unfold Fit.dominate
  rw [hf.comparable hg hl, hf.isEach]
  refine ⟨_, rfl, ?_⟩
  rw [Bool.and_eq_true, List.all_eq_true, List.any_eq_true]
  refine and_congr ?_ ?_
  · constructor
    · intro h i d x y hd hx hy
      exact atLeast_iff.1 (h (d, x, y) (List.mem_of_getElem? (zip3_getElem?.2 ⟨hd, hx, hy⟩)))
    · rintro h ⟨d, x, y⟩ hz
      obtain ⟨i, hi⟩ := List.getElem?_of_mem hz
      obtain ⟨h1, h2, h3⟩ := zip3_getElem?.1 hi
      exact atLeast_iff.2 (h i d x y h1 h2 h3)
  · constructor
    · rintro ⟨⟨d, x, y⟩, hz, hb⟩
      obtain ⟨i, hi⟩ := List.getElem?_of_mem hz
      obtain ⟨h1, h2, h3⟩ := zip3_getElem?.1 hi
      exact ⟨i, d, x, y, h1, h2, h3, betterObj_iff.1 hb⟩
    · rintro ⟨i, d, x, y, h1, h2, h3, hb⟩
      exact ⟨(d, x, y), List.mem_of_getElem? (zip3_getElem?.2 ⟨h1, h2, h3⟩), betterObj_iff.2 hb⟩

/-- C48: `dominate` never raises for evaluated objects with as many objectives, and it is true exactly if the
first one is at least as good in every objective and better in one, every objective in its own direction. -/
theorem C48_dominate {f g : Fit} {dirs : List Bool} {a b : List ℚ} (hf : f.Is dirs a) (hg : g.Is dirs b) :
    (Pareto dirs a b → f.dominate g = .ok true) ∧ (¬ Pareto dirs a b → f.dominate g = .ok false) := by
  obtain ⟨r, h1, h2⟩ := dominate_eq hf hg (hf.length.trans hg.length.symm)
  rw [h1]
  constructor
  · intro h; rw [h2.2 h]
  · intro h
    cases r with
    | false => rfl
    | true => exact absurd (h2.1 rfl) h

/-- C48: unevaluated objects cannot be compared. -/
theorem C48_unevaluated {f g : Fit} (h : f.objs = none ∨ g.objs = none) :
    f.dominate g = .error .valueError := by
  unfold Fit.dominate
  suffices f.comparable g = .error .valueError by rw [this]
  unfold Fit.comparable
  split_ifs with h1
  · rfl
  · unfold Fit.pure
    rcases hg : g.objs with _ | b <;> rcases hf : f.objs with _ | a <;> first | rfl | skip
    rw [hf, hg] at h
    simp at h

theorem Better.atLeast {d : Bool} {a b : ℚ} (h : Better d a b) : AtLeast d a b := by
  cases d <;> simp_all [Better, AtLeast, le_of_lt]

theorem AtLeast.not_better {d : Bool} {a b : ℚ} (h : AtLeast d a b) : ¬ Better d b a := by
  cases d <;> simp_all [Better, AtLeast]

theorem AtLeast.trans {d : Bool} {a b c : ℚ} (h : AtLeast d a b) (h' : AtLeast d b c) : AtLeast d a c := by
  cases d
  · simp only [AtLeast, Bool.false_eq_true, if_false] at *; exact h.trans h'
  · simp only [AtLeast, if_true] at *; exact h'.trans h

theorem AtLeast.trans_better {d : Bool} {a b c : ℚ} (h : AtLeast d a b) (h' : Better d b c) : Better d a c := by
  cases d
  · simp only [AtLeast, Better, Bool.false_eq_true, if_false] at *; exact lt_of_le_of_lt h h'
  · simp only [AtLeast, Better, if_true] at *; exact lt_of_lt_of_le h' h

theorem Pareto.asymm {dirs : List Bool} {a b : List ℚ} (h : Pareto dirs a b) : ¬ Pareto dirs b a := by
  rintro ⟨-, i, d, x, y, h1, h2, h3, h4⟩
  exact (h.1 i d y x h1 h3 h2).not_better h4

theorem Pareto.irrefl {dirs : List Bool} {a : List ℚ} : ¬ Pareto dirs a a := fun h => h.asymm h

theorem Pareto.trans {dirs : List Bool} {a b c : List ℚ} (ha : a.length = dirs.length)
    (hl : b.length = dirs.length) (h : Pareto dirs a b)
    (h' : Pareto dirs b c) : Pareto dirs a c := by
  have hb : ∀ {i : Nat} {d : Bool}, dirs[i]? = some d → ∃ y, b[i]? = some y := by
    intro i d hd
    obtain ⟨hi, -⟩ := List.getElem?_eq_some_iff.1 hd
    exact ⟨b[i]'(by omega), List.getElem?_eq_getElem _⟩
  constructor
  · intro i d x z hd hx hz
    obtain ⟨y, hy⟩ := hb hd
    exact (h.1 i d x y hd hx hy).trans (h'.1 i d y z hd hy hz)
  · obtain ⟨-, i, d, y, z, hd, hy, hz, hbt⟩ := h'
    obtain ⟨hi, -⟩ := List.getElem?_eq_some_iff.1 hd
    obtain ⟨x, hx⟩ : ∃ x, a[i]? = some x := ⟨a[i]'(by omega), List.getElem?_eq_getElem _⟩
    exact ⟨i, d, x, z, hd, hx, hz, (h.1 i d x y hd hx hy).trans_better hbt⟩

/-- C48: `dominate` is a strict partial order on evaluated objects with the same directions. -/
theorem C48_strict_order {f g k : Fit} {dirs : List Bool} {a b c : List ℚ} (hf : f.Is dirs a) (hg : g.Is dirs b)
    (hk : k.Is dirs c) :
    f.dominate f = .ok false ∧
    (f.dominate g = .ok true → g.dominate f = .ok false) ∧
    (f.dominate g = .ok true → g.dominate k = .ok true → f.dominate k = .ok true) := by
  have key : ∀ {f g : Fit} {a b : List ℚ}, f.Is dirs a → g.Is dirs b → f.dominate g = .ok true → Pareto dirs a b := by
    intro f g a b hf hg h
    by_contra hc
    rw [(C48_dominate hf hg).2 hc] at h
    simp at h
  refine ⟨(C48_dominate hf hf).2 Pareto.irrefl, fun h => (C48_dominate hg hf).2 (key hf hg h).asymm, fun h h' => ?_⟩
  exact (C48_dominate hf hk).1 ((key hf hg h).trans hf.length hg.length (key hg hk h'))

/-! ## C52 — the crowded comparison -/

/-- The claim C52: of two evaluated, ranked individuals the one of lower front rank is better, and of two of
the same rank the one with the larger crowding distance. -/
def C52_statement : Prop :=
  ∀ (f g : Fit) (dirs : List Bool) (a b : List ℚ) (r r' : Nat) (t : Tape), f.Is dirs a → g.Is dirs b →
    f.rank = some r → g.rank = some r' →
    (f.betterThan g t).1 = .ok (decide (r < r') || (decide (r = r') && g.crowding.lt f.crowding))

/-- What the code computes for ranked individuals. -/
theorem betterThan_ranked {f g : Fit} {dirs dirs' : List Bool} {a b : List ℚ} {r r' : Nat} (hf : f.Is dirs a)
    (hg : g.Is dirs' b) (hl : a.length = b.length) (hr : f.rank = some r) (hr' : g.rank = some r') (t : Tape) :
    f.betterThan g t = (.ok (if r = r' then g.crowding.lt f.crowding else decide (r' < r)), t) := by
  unfold Fit.betterThan
  rw [hr, hr', hf.comparable hg hl]
  simp only [bind, PyM.bind, PyM.ofExcept, PyM.pure, Option.some.injEq]

/-- An evaluated individual with two objectives, of the given rank and crowding. -/
def exFit (v : List ℚ) (c : Crowd) (r : Option Nat) : Fit :=
  ⟨some v, .each [false, false], false, false, c, r⟩

theorem exFit_is (x y : ℚ) (c : Crowd) (r : Option Nat) : (exFit [x, y] c r).Is [false, false] [x, y] :=
  ⟨rfl, rfl, rfl⟩

/-- C52 is false of the code: the individual of *higher* front rank — a dominated one — is the better one. -/
theorem C52_refuted : ¬ C52_statement := by
  intro h
  have := h (exFit [0, 0] .inf (some 1)) (exFit [1, 1] .inf (some 2)) _ _ _ 1 2 (fun _ => 0)
    (exFit_is 0 0 _ _) (exFit_is 1 1 _ _) rfl rfl
  revert this
  decide +kernel

/-- C52, the part that holds: on equal rank the larger crowding distance is better. -/
theorem C52_same_rank_partial {f g : Fit} {dirs : List Bool} {a b : List ℚ} {r : Nat} (hf : f.Is dirs a)
    (hg : g.Is dirs b) (hr : f.rank = some r) (hr' : g.rank = some r) (t : Tape) :
    f.betterThan g t = (.ok (g.crowding.lt f.crowding), t) := by
  rw [betterThan_ranked hf hg (hf.length.trans hg.length.symm) hr hr', if_pos rfl]

/-- C52, what happens instead on different ranks: the higher one is better. -/
theorem C52_reversed_partial {f g : Fit} {dirs : List Bool} {a b : List ℚ} {r r' : Nat} (hf : f.Is dirs a)
    (hg : g.Is dirs b) (hr : f.rank = some r) (hr' : g.rank = some r') (hne : r ≠ r') (t : Tape) :
    f.betterThan g t = (.ok (decide (r' < r)), t) := by
  rw [betterThan_ranked hf hg (hf.length.trans hg.length.symm) hr hr', if_neg hne]

/-- C52, the part that holds: of two ranked individuals, exactly one of "the first is better", "the second is better" and
"they are equal" is the answer, and they are equal if rank and crowding distance are the same. -/
theorem C52_trichotomy_partial {f g : Fit} {dirs : List Bool} {a b : List ℚ} {r r' : Nat} (hf : f.Is dirs a)
    (hg : g.Is dirs b) (hr : f.rank = some r) (hr' : g.rank = some r') (t : Tape) :
    ((f.betterThan g t).1, (g.betterThan f t).1, f.equalTo g) ∈
      [((.ok true : Except Err Bool), (.ok false : Except Err Bool), false), (.ok false, .ok true, false),
       (.ok false, .ok false, true)] ∧ (f.equalTo g = true ↔ r = r' ∧ f.crowding = g.crowding) := by
  rw [betterThan_ranked hf hg (hf.length.trans hg.length.symm) hr hr',
    betterThan_ranked hg hf (hg.length.trans hf.length.symm) hr' hr]
  unfold Fit.equalTo
  rw [hr, hr']
  rcases lt_trichotomy r r' with h | rfl | h
  · simp [h.ne, h.ne', h, not_lt.2 h.le]
  · cases hf : f.crowding <;> cases hg : g.crowding <;> simp [Crowd.lt]
    rename_i x y
    rcases lt_trichotomy x y with h | rfl | h
    · simp [h, h.le, h.ne]
    · simp
    · simp [h, h.le, h.ne']
  · simp [h.ne, h.ne', h, not_lt.2 h.le]

example (t : Tape) := (C52_trichotomy_partial (exFit_is 0 1 (.fin 2) (some 1)) (exFit_is 1 0 .inf (some 1)) rfl rfl t).1

/-! ## C42 — the crowding termination checker -/

theorem mem_finiteCrowding {h : Heap} {inds : List Nat} {q : ℚ} :
    q ∈ finiteCrowding h inds ↔ ∃ r ∈ inds, (h r).crowding = .fin q := by
  induction inds with
  | nil => simp [finiteCrowding]
  | cons r rs ih =>
    unfold finiteCrowding
    split
    · rename_i q' hq
      simp only [List.mem_cons, ih, exists_eq_or_imp, hq, Crowd.fin.injEq]
      rw [@eq_comm _ q' q]
    · rename_i hq
      simp only [List.mem_cons, ih, exists_eq_or_imp, hq, reduceCtorEq, false_or]

theorem maxOf_some {l : List ℚ} {m : ℚ} : maxOf l = some m ↔ m ∈ l ∧ ∀ q ∈ l, q ≤ m := by
  induction l generalizing m with
  | nil => simp [maxOf]
  | cons q qs ih =>
    unfold maxOf
    split
    · rename_i hn
      have hqs : qs = [] := by
        cases qs with
        | nil => rfl
        | cons x xs => unfold maxOf at hn; split at hn <;> simp at hn
      subst hqs
      simp only [Option.some.injEq, List.mem_singleton, forall_eq]
      constructor
      · rintro rfl; exact ⟨rfl, le_refl _⟩
      · rintro ⟨rfl, -⟩; rfl
    · rename_i m' hm
      obtain ⟨h1, h2⟩ := ih.1 hm
      simp only [Option.some.injEq, List.mem_cons, forall_eq_or_imp]
      split_ifs with hlt
      · constructor
        · rintro rfl
          exact ⟨.inl rfl, le_refl _, fun x hx => (h2 x hx).trans (le_of_lt hlt)⟩
        · rintro ⟨h3 | h3, h4, h5⟩
          · exact h3.symm
          · exact absurd (lt_of_lt_of_le hlt h4) (not_lt.2 (h2 m h3))
      · constructor
        · rintro rfl
          exact ⟨.inr h1, not_lt.1 hlt, h2⟩
        · rintro ⟨h3 | h3, h4, h5⟩
          · subst h3; exact le_antisymm (h5 m' h1) (not_lt.1 hlt)
          · exact le_antisymm (h5 m' h1) (h2 m h3)

theorem maxOf_none {l : List ℚ} : maxOf l = none ↔ l = [] := by
  cases l with
  | nil => simp [maxOf]
  | cons x xs => unfold maxOf; split <;> simp

theorem Crowd.le_refl' (a : Crowd) : a.le a = true := by cases a <;> simp [Crowd.le]

theorem Crowd.le_trans' {a b c : Crowd} (h : a.le b = true) (h' : b.le c = true) : a.le c = true := by
  cases a <;> cases b <;> cases c <;> simp_all [Crowd.le]
  exact h.trans h'

theorem Crowd.le_total' (a b : Crowd) : a.le b = true ∨ b.le a = true := by
  cases a <;> cases b <;> simp [Crowd.le, _root_.le_total]

theorem Crowd.lt_iff {a b : Crowd} : a.lt b = true ↔ ¬ b.le a = true := by
  cases a <;> cases b <;> simp [Crowd.le, Crowd.lt]

theorem maxCrowd_spec (m : Crowd) (cs : List Crowd) :
    maxCrowd m cs ∈ m :: cs ∧ ∀ c ∈ m :: cs, c.le (maxCrowd m cs) = true := by
  induction cs generalizing m with
  | nil => simp [maxCrowd, Crowd.le_refl']
  | cons c cs ih =>
    unfold maxCrowd
    obtain ⟨h1, h2⟩ := ih (if m.lt c then c else m)
    constructor
    · rcases List.mem_cons.1 h1 with h | h
      · rw [h]; split_ifs <;> simp
      · simp [h]
    · have h3 := h2 _ (List.mem_cons_self ..)
      intro x hx
      rcases List.mem_cons.1 hx with rfl | hx
      · refine Crowd.le_trans' ?_ h3
        split_ifs with hlt
        · exact (Crowd.le_total' x c).resolve_right (Crowd.lt_iff.1 hlt)
        · exact Crowd.le_refl' _
      · rcases List.mem_cons.1 hx with rfl | hx
        · refine Crowd.le_trans' ?_ h3
          split_ifs with hlt
          · exact Crowd.le_refl' _
          · rw [Crowd.lt_iff, not_not] at hlt; exact hlt
        · exact h2 x (by simp [hx])

/-- C42: the crowding checker terminates the run exactly if every sub-population has a finite crowding
distance, and the largest finite one of the whole population is not zero and below the threshold. -/
theorem C42_crowding (threshold : ℚ) (h : Heap) (subs : List (List Nat)) (hne : subs ≠ []) :
    ∃ b, crowdingTerminate threshold h subs = .ok b ∧
      (b = true ↔ (∀ inds ∈ subs, ∃ r ∈ inds, ∃ q, (h r).crowding = .fin q) ∧
        ∃ m : ℚ, m ≠ 0 ∧ m < threshold ∧ (∃ inds ∈ subs, ∃ r ∈ inds, (h r).crowding = .fin m) ∧
          ∀ inds ∈ subs, ∀ r ∈ inds, ∀ q, (h r).crowding = .fin q → q ≤ m) := by
  obtain ⟨s, ss, rfl⟩ := List.exists_cons_of_ne_nil hne
  unfold crowdingTerminate findMaxCrowding
  rw [List.map_cons]
  refine ⟨_, rfl, ?_⟩
  obtain ⟨h1, h2⟩ := maxCrowd_spec (subCrowding h s) (ss.map (subCrowding h))
  rw [← List.map_cons] at h1 h2
  generalize maxCrowd (subCrowding h s) (ss.map (subCrowding h)) = c at *
  have hsub : ∀ inds ∈ s :: ss, (subCrowding h inds).le c = true := fun inds hi =>
    h2 _ (List.mem_map_of_mem hi)
  obtain ⟨inds₀, hi₀, hc₀⟩ := List.mem_map.1 h1
  rw [Bool.and_eq_true]
  constructor
  · rintro ⟨hlt, hnz⟩
    obtain ⟨m, rfl⟩ : ∃ m, c = .fin m := by
      cases c with
      | fin m => exact ⟨m, rfl⟩
      | inf => simp [Crowd.lt] at hlt
    have hfin : ∀ inds ∈ s :: ss, ∃ q, maxOf (finiteCrowding h inds) = some q ∧ q ≤ m := by
      intro inds hi
      have := hsub inds hi
      unfold subCrowding at this
      split at this
      · rename_i q hq; exact ⟨q, hq, by simpa [Crowd.le] using this⟩
      · simp [Crowd.le] at this
    refine ⟨fun inds hi => ?_, m, by simpa using hnz, by simpa [Crowd.lt] using hlt, ⟨inds₀, hi₀, ?_⟩, ?_⟩
    · obtain ⟨q, hq, -⟩ := hfin inds hi
      obtain ⟨r, hr, hrc⟩ := mem_finiteCrowding.1 (maxOf_some.1 hq).1
      exact ⟨r, hr, q, hrc⟩
    · obtain ⟨q, hq, -⟩ := hfin inds₀ hi₀
      unfold subCrowding at hc₀
      rw [hq] at hc₀
      simp only [Crowd.fin.injEq] at hc₀
      subst hc₀
      exact mem_finiteCrowding.1 (maxOf_some.1 hq).1
    · intro inds hi r hr q hq
      obtain ⟨q', hq', hle⟩ := hfin inds hi
      exact ((maxOf_some.1 hq').2 q (mem_finiteCrowding.2 ⟨r, hr, hq⟩)).trans hle
  · rintro ⟨hall, m, hm0, hmt, ⟨inds₁, hi₁, r₁, hr₁, hq₁⟩, hmax⟩
    have hc : c = .fin m := by
      obtain ⟨r, hr, q, hq⟩ := hall inds₀ hi₀
      unfold subCrowding at hc₀
      rcases hmx : maxOf (finiteCrowding h inds₀) with _ | m₀
      · rw [maxOf_none] at hmx
        have := mem_finiteCrowding.2 ⟨r, hr, hq⟩
        rw [hmx] at this
        simp at this
      · rw [hmx] at hc₀
        subst hc₀
        obtain ⟨r', hr', hq'⟩ := mem_finiteCrowding.1 (maxOf_some.1 hmx).1
        have hle := hmax inds₀ hi₀ r' hr' m₀ hq'
        have := hsub inds₁ hi₁
        unfold subCrowding at this
        split at this
        · rename_i q₁ hm₁
          have h3 := (maxOf_some.1 hm₁).2 m (mem_finiteCrowding.2 ⟨r₁, hr₁, hq₁⟩)
          have h4 : q₁ ≤ m₀ := by simpa [Crowd.le] using this
          rw [le_antisymm hle (h3.trans h4)]
        · simp [Crowd.le] at this
    subst hc
    exact ⟨by simpa [Crowd.lt] using hmt, by simpa using hm0⟩

/-! ## Instances -/

example : Pareto [false, true] [1, 5] [2, 5] :=
  ⟨fun i d x y h1 h2 h3 => by
    rcases i with _ | _ | i <;> simp_all [AtLeast]
    subst h1 h2 h3; norm_num, 0, false, 1, 2, rfl, rfl, rfl, by simp [Better]⟩

example : (exFit [0, 1] .inf (some 1)).dominate (exFit [0, 2] .inf (some 1)) = .ok true := by decide +kernel

example : crowdingTerminate (1 / 2) (fun r => exFit [0, 0] (if r = 0 then .inf else .fin (1 / (3 * r))) (some 1))
    [[0, 1, 2], [3, 4]] = .ok true := by decide +kernel

example : crowdingTerminate (1 / 2) (fun r => exFit [0, 0] (if r = 0 then .inf else .fin (1 / (3 * r))) (some 1))
    [[0], [3, 4]] = .ok false := by decide +kernel

end Verif.Moo
