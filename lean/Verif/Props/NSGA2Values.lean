import Verif.Props.NSGA2Fitness

/-! # C79 — multi-objective fitness values are written once, and reset and copied as a whole -/

namespace Verif.Moo
open PyM

/-- C79: an unevaluated object takes the objectives it is given, and returns exactly these; rank and crowding are
left alone, a single direction is repeated for every objective; an evaluated object refuses new objectives and keeps
its own. -/
theorem C79_write_once (f : Fit) (v : List ℚ) :
    (f.objs = none → ∃ f', f.set v = .ok f' ∧ f'.pure = .ok v ∧ f'.isEvaluated = true ∧ f'.rank = f.rank ∧
      f'.crowding = f.crowding ∧ (∀ b, f.dirs = .same b → f'.dirs = .each (List.replicate v.length b)) ∧
      (∀ bs, f.dirs = .each bs → f'.dirs = .each bs)) ∧
    (∀ w, f.objs = some w → f.set v = .error .attributeError ∧ f.pure = .ok w) := by
  constructor
  · intro h
    unfold Fit.set
    rw [h]
    refine ⟨_, rfl, rfl, by simp [Fit.isEvaluated], rfl, rfl, ?_, ?_⟩
    · intro b hb; simp [hb, Dirs.fit]
    · intro bs hb; simp [hb, Dirs.fit]
  · intro w h
    exact ⟨by unfold Fit.set; rw [h], by unfold Fit.pure; rw [h]⟩

/-- C79: with one direction for all objectives, the object then is one whose objectives are compared in that
direction. -/
theorem C79_ready {f : Fit} {v : List ℚ} {b : Bool} (h : f.objs = none) (hd : f.dirs = .same b) :
    ∃ f', f.set v = .ok f' ∧ f'.Is (List.replicate v.length b) v := by
  unfold Fit.set
  rw [h]
  exact ⟨_, rfl, rfl, by simp [hd, Dirs.fit], by simp⟩

/-- C79: `set_not_evaluated` forgets the objectives, the rank and the crowding, and nothing else; afterwards the
object can be evaluated again. -/
theorem C79_reset (f : Fit) : f.reset.pure = .error .valueError ∧ f.reset.rank = none ∧ f.reset.crowding = .fin 0 ∧
    f.reset.dirs = f.dirs ∧ f.reset.cache = f.cache ∧ f.reset.relative = f.relative ∧
    ∀ v, ∃ f', f.reset.set v = .ok f' ∧ f'.pure = .ok v :=
  ⟨rfl, rfl, rfl, rfl, rfl, rfl, fun _ => ⟨_, rfl, rfl⟩⟩

/-- C79: a copy is the same if values are cached; otherwise it lacks the objectives, but keeps rank and crowding. -/
theorem C79_copy (f : Fit) : (f.cache = true → f.copy = f) ∧
    (f.cache = false → f.copy.pure = .error .valueError ∧ f.copy.rank = f.rank ∧ f.copy.crowding = f.crowding ∧
      f.copy.dirs = f.dirs) := by
  constructor
  · intro h; simp [Fit.copy, h]
  · intro h; simp [Fit.copy, h, Fit.pure]

/-- C79: objectives of different numbers cannot be compared: `dominate` raises, and so does `better_than` once the
object is ranked. -/
theorem C79_lengths {f g : Fit} {a b : List ℚ} (hf : f.objs = some a) (hg : g.objs = some b) (hl : a.length ≠ b.length) :
    f.dominate g = .error .valueError ∧ ∀ r t, f.rank = some r → (f.betterThan g t).1 = .error .valueError := by
  have hc : f.comparable g = .error .valueError := by
    simp [Fit.comparable, Fit.isEvaluated, Fit.pure, hf, hg, Ne.symm hl]
  constructor
  · unfold Fit.dominate; rw [hc]
  · intro r t hr
    unfold Fit.betterThan
    rw [hr]
    simp only [hc]
    rfl

/-- C79: an object that has a rank but no objectives — an uncached copy of a ranked one — cannot be compared. -/
theorem C79_stale_rank {f g : Fit} (hc : f.cache = false) {r : Nat} (hr : f.rank = some r) (t : Tape) :
    (f.copy.betterThan g t).1 = .error .valueError := by
  have hcomp : f.copy.comparable g = .error .valueError := by
    unfold Fit.comparable
    split_ifs with h1
    · rfl
    · cases hg : g.pure with
      | error e =>
        unfold Fit.pure at hg
        split at hg
        · cases hg
        · cases hg; rfl
      | ok b => simp [Fit.copy, hc, Fit.pure]
  have hrank : f.copy.rank = some r := by simp [Fit.copy, hc, hr]
  unfold Fit.betterThan
  rw [hrank]
  simp only [hcomp]
  rfl

/-- C79: a new object holds the objectives it is given, or none; it has no rank and no crowding; a single direction is repeated
for every objective; whether copies keep the objectives is as asked for, except that copies of relative fitnesses never
do. -/
theorem C79_new (v : Option (List ℚ)) (d : Dirs) (cache relative : Bool) :
    (Fit.new v d cache relative).rank = none ∧ (Fit.new v d cache relative).crowding = .fin 0 ∧
    (v = none → (Fit.new v d cache relative).pure = .error .valueError ∧ (Fit.new v d cache relative).dirs = d ∧
      (Fit.new v d cache relative).isEvaluated = relative) ∧
    (∀ w, v = some w → (Fit.new v d cache relative).pure = .ok w ∧ (Fit.new v d cache relative).isEvaluated = true ∧
      (∀ b, d = .same b → (Fit.new v d cache relative).dirs = .each (List.replicate w.length b)) ∧
      (∀ bs, d = .each bs → (Fit.new v d cache relative).dirs = .each bs) ∧
      (Fit.new v d cache relative).copy.pure = if cache = true ∧ relative = false then .ok w else .error .valueError) := by
  refine ⟨rfl, rfl, ?_, ?_⟩
  · rintro rfl
    exact ⟨rfl, rfl, by simp [Fit.isEvaluated, Fit.new]⟩
  · rintro w rfl
    refine ⟨rfl, by simp [Fit.isEvaluated, Fit.new], ?_, ?_, ?_⟩
    · rintro b rfl; rfl
    · rintro bs rfl; rfl
    · cases cache <;> cases relative <;> simp [Fit.copy, Fit.new, Fit.pure]

example := (C79_new (some [1, 2]) (.same true) true true).2.2.2 [1, 2] rfl

example : ∃ f', (Fit.new none (.same true) true false).set [1, 2] = .ok f' ∧ f'.Is [true, true] [1, 2] :=
  C79_ready rfl rfl

example := C79_lengths (f := Fit.new (some [1, 2]) (.same true) true false)
  (g := Fit.new (some [1]) (.same true) true false) rfl rfl (by simp)

example := C79_stale_rank (f := { Fit.new (some [1, 2]) (.same true) false false with rank := some 1 })
  (g := Fit.new (some [1, 3]) (.same true) true false) rfl rfl

end Verif.Moo
