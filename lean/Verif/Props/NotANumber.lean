import Verif.Model.Score
import Verif.Lemmas.History
import Mathlib.Order.WithBot
import Mathlib.Algebra.Order.Ring.Rat

/-!
# C162: scores that are not numbers

`best_of_run_` is meant to be at least as good as every individual evaluated in the run.  With NaN among the scores this
fails: NaN is neither better nor worse than anything, so an individual scored NaN that happens to come first is never
displaced.
-/

namespace Verif.Score
open PyM Verif.Evo

/-! ## What the words mean -/

/-- Floats that are not NaN, in order. -/
def F.place : F → WithBot (WithTop ℚ)
  | .num q => ((q : WithTop ℚ) : WithBot (WithTop ℚ))
  | .posInf => ((⊤ : WithTop ℚ) : WithBot (WithTop ℚ))
  | .negInf => ⊥
  | .nan => ⊥

/-- The score is not NaN. -/
def Scored.Valued (i : Scored) : Prop := i.score ≠ .nan

/-- The fitness that individuals are compared by, spelt out: the score, less (more, if smaller is better) the bloat
weight times the size; infinities stay what they are. -/
def Rule.place (R : Rule) (i : Scored) : WithBot (WithTop ℚ) :=
  match i.score with
  | .num q => F.place (.num (if R.hib then q - R.bloat * i.size else q + R.bloat * i.size))
  | x => F.place x

/-- `i` is at least as good as `j` (for individuals whose scores are not NaN). -/
def Rule.AsGood (R : Rule) (i j : Scored) : Prop :=
  if R.hib then R.place j ≤ R.place i else R.place i ≤ R.place j

/-- The first individual of the list has a score other than NaN. -/
def Leads (l : List Scored) : Prop := ∀ i, l.head? = some i → i.Valued

/-! ## Comparisons -/

theorem F.lt_iff {x y : F} (hx : x ≠ .nan) (hy : y ≠ .nan) : x.lt y = true ↔ x.place < y.place := by
  cases x <;> cases y <;> simp_all [F.lt, F.place, WithBot.coe_lt_coe, WithTop.coe_lt_coe, WithBot.bot_lt_coe]
  exact WithBot.coe_lt_coe.2 (WithTop.coe_lt_top _)

theorem F.lt_nan (x : F) : x.lt .nan = false := by cases x <;> rfl

theorem F.nan_lt (x : F) : F.nan.lt x = false := rfl

theorem Rule.augmented_nan (R : Rule) (i : Scored) : R.augmented i = .nan ↔ i.score = .nan := by
  unfold Rule.augmented
  cases h : i.score <;> (split <;> [skip; split]) <;> simp_all [F.plus]

theorem Rule.augmented_place (R : Rule) (i : Scored) : (R.augmented i).place = R.place i := by
  unfold Rule.augmented Rule.place
  cases h : i.score <;> (split <;> [skip; split]) <;> simp_all [F.plus, F.place, sub_eq_add_neg]

theorem Rule.better_nan_left {R : Rule} {i j : Scored} (h : i.score = .nan) : R.better i j = false := by
  have := (R.augmented_nan i).2 h
  unfold Rule.better
  rw [this]
  split
  · exact F.lt_nan _
  · exact F.nan_lt _

theorem Rule.better_nan_right {R : Rule} {i j : Scored} (h : j.score = .nan) : R.better i j = false := by
  have := (R.augmented_nan j).2 h
  unfold Rule.better
  rw [this]
  split
  · exact F.nan_lt _
  · exact F.lt_nan _

theorem Rule.better_iff {R : Rule} {i j : Scored} (hi : i.Valued) (hj : j.Valued) :
    R.better i j = true ↔ ¬ R.AsGood j i := by
  have h1 : R.augmented i ≠ .nan := fun h => hi ((R.augmented_nan i).1 h)
  have h2 : R.augmented j ≠ .nan := fun h => hj ((R.augmented_nan j).1 h)
  unfold Rule.better Rule.AsGood
  split
  · rw [F.lt_iff h2 h1, R.augmented_place, R.augmented_place, not_le]
  · rw [F.lt_iff h1 h2, R.augmented_place, R.augmented_place, not_le]

theorem Rule.AsGood.refl (R : Rule) (i : Scored) : R.AsGood i i := by unfold Rule.AsGood; split <;> exact le_refl _

theorem Rule.AsGood.trans {R : Rule} {i j k : Scored} (h : R.AsGood i j) (h' : R.AsGood j k) : R.AsGood i k := by
  unfold Rule.AsGood at *
  split at h
  · simp_all only [if_true]; exact h'.trans h
  · simp_all only; exact h.trans h'

theorem Rule.AsGood.of_better {R : Rule} {i j : Scored} (hi : i.Valued) (hj : j.Valued) (h : R.better i j = true) :
    R.AsGood i j := by
  have := (R.better_iff hi hj).1 h
  unfold Rule.AsGood at *
  split at this
  · simp_all only [if_true]; exact (not_le.1 this).le
  · simp_all only; exact (not_le.1 this).le

/-! ## The loops -/

/-- An individual scored NaN is never displaced. -/
theorem Rule.bestLoop_nan {R : Rule} {b : Scored} (h : b.score = .nan) : ∀ l, R.bestLoop b l = b
  | [] => rfl
  | i :: is => by
    unfold Rule.bestLoop
    rw [R.better_nan_right h]
    exact R.bestLoop_nan h is

theorem Rule.bestLoop_valued {R : Rule} : ∀ {l : List Scored} {b : Scored}, b.Valued →
    (R.bestLoop b l).Valued ∧ (R.bestLoop b l = b ∨ R.bestLoop b l ∈ l) ∧
      ∀ i ∈ b :: l, i.Valued → R.AsGood (R.bestLoop b l) i
  | [], b, h => ⟨h, .inl rfl, fun i hi _ => by rw [List.mem_singleton.1 hi]; exact .refl R b⟩
  | j :: l, b, h => by
    unfold Rule.bestLoop
    by_cases hb : R.better j b = true
    · rw [if_pos hb]
      have hj : j.Valued := fun hn => by rw [R.better_nan_left hn] at hb; exact absurd hb (by simp)
      obtain ⟨h1, h2, h3⟩ := R.bestLoop_valued (l := l) hj
      refine ⟨h1, .inr (h2.elim (fun e => by rw [e]; exact .head _) (.tail _)), fun i hi hv => ?_⟩
      rcases List.mem_cons.1 hi with rfl | hi
      · exact (h3 j (.head _) hj).trans (.of_better hj h hb)
      · exact h3 i hi hv
    · rw [if_neg hb]
      obtain ⟨h1, h2, h3⟩ := R.bestLoop_valued (l := l) h
      refine ⟨h1, h2.imp_right (.tail _), fun i hi hv => ?_⟩
      rcases List.mem_cons.1 hi with rfl | hi
      · exact h3 i (.head _) hv
      rcases List.mem_cons.1 hi with rfl | hi
      · refine (h3 b (.head _) h).trans ?_
        by_contra hn
        exact hb ((R.better_iff hv h).2 hn)
      · exact h3 i (.tail _ hi) hv

theorem Rule.best_spec {R : Rule} {l : List Scored} {b : Scored} (h : R.best l = .ok b) :
    b ∈ l ∧ (b.Valued ↔ Leads l) ∧ (b.Valued → ∀ i ∈ l, i.Valued → R.AsGood b i) ∧
      (¬ b.Valued → l.head? = some b) := by
  cases l with
  | nil => cases h
  | cons i is =>
    obtain rfl := Except.ok.inj h
    by_cases hi : i.score = .nan
    · rw [R.bestLoop_nan hi]
      have : ¬ i.Valued := fun h => h hi
      exact ⟨.head _, ⟨fun h => (this h).elim, fun h => h i rfl⟩, fun h => (this h).elim, fun _ => rfl⟩
    · obtain ⟨h1, h2, h3⟩ := R.bestLoop_valued (l := is) (b := i) hi
      refine ⟨h2.elim (fun e => by rw [e]; exact .head _) (.tail _), ⟨fun _ j hj => ?_, fun _ => h1⟩, fun _ => h3,
        fun hn => (hn h1).elim⟩
      obtain rfl := Option.some.inj hj
      exact hi

/-- What is known of `best_of_run_` after generation `g`. -/
structure Rule.Knows (R : Rule) (pop : Nat → List Scored) (g : Nat) (run : Scored) : Prop where
  seen : ∃ k ≤ g, run ∈ pop k
  valued : run.Valued ↔ Leads (pop 0)
  best : run.Valued → ∀ k ≤ g, Leads (pop k) → ∀ i ∈ pop k, i.Valued → R.AsGood run i
  stuck : ¬ run.Valued → (pop 0).head? = some run

theorem Rule.Knows.step {R : Rule} {pop : Nat → List Scored} {g : Nat} {run b : Scored} (K : R.Knows pop g run)
    (h : R.best (pop (g + 1)) = .ok b) : R.Knows pop (g + 1) (if R.better b run then b else run) := by
  obtain ⟨s1, s2, s3, _⟩ := R.best_spec h
  by_cases hb : R.better b run = true
  · rw [if_pos hb]
    have hbv : b.Valued := fun hn => by rw [R.better_nan_left hn] at hb; exact absurd hb (by simp)
    have hrv : run.Valued := fun hn => by rw [R.better_nan_right hn] at hb; exact absurd hb (by simp)
    refine ⟨⟨g + 1, le_rfl, s1⟩, ⟨fun _ => K.valued.1 hrv, fun _ => hbv⟩, fun _ k hk hl i hi hv => ?_, fun hn => (hn hbv).elim⟩
    rcases Nat.lt_or_eq_of_le hk with hk | rfl
    · exact (Rule.AsGood.of_better hbv hrv hb).trans (K.best hrv k (Nat.lt_succ_iff.1 hk) hl i hi hv)
    · exact s3 hbv i hi hv
  · rw [if_neg hb]
    obtain ⟨k, hk, hm⟩ := K.seen
    refine ⟨⟨k, hk.trans (Nat.le_succ g), hm⟩, K.valued, fun hrv k hk hl i hi hv => ?_, K.stuck⟩
    rcases Nat.lt_or_eq_of_le hk with hk | rfl
    · exact K.best hrv k (Nat.lt_succ_iff.1 hk) hl i hi hv
    · have hbv := s2.2 hl
      refine Rule.AsGood.trans ?_ (s3 hbv i hi hv)
      by_contra hn
      exact hb ((R.better_iff hbv hrv).2 hn)

theorem Rule.loop_knows {R : Rule} {pop : Nat → List Scored} {checker : Scored → Bool} {o : Outcome} :
    ∀ {k g : Nat} {run : Scored}, R.Knows pop g run → R.loop pop checker k (g + 1) run = .ok o → R.Knows pop o.gen o.best
  | 0, g, run, K, h => by obtain rfl := Except.ok.inj h; exact K
  | k + 1, g, run, K, h => by
    unfold Rule.loop at h
    split at h
    · cases h
    · rename_i b hb
      have K' := K.step hb
      simp only at h
      generalize (if R.better b run = true then b else run) = r at h K'
      split at h
      · obtain rfl := Except.ok.inj h; exact K'
      · exact R.loop_knows K' h

theorem Rule.evolve_knows {R : Rule} {maxGen : Nat} {pop : Nat → List Scored} {checker : Scored → Bool} {o : Outcome}
    (h : R.evolve maxGen pop checker = .ok o) : R.Knows pop o.gen o.best := by
  unfold Rule.evolve at h
  split at h
  · cases h
  · rename_i b hb
    obtain ⟨s1, s2, s3, s4⟩ := R.best_spec hb
    have K : R.Knows pop 0 b :=
      ⟨⟨0, le_rfl, s1⟩, s2, fun hv k hk _ => by rw [Nat.le_zero.1 hk]; exact s3 hv, s4⟩
    split at h
    · obtain rfl := Except.ok.inj h; exact K
    · exact R.loop_knows K h

theorem Rule.loop_gen {R : Rule} {pop : Nat → List Scored} {checker : Scored → Bool} {o : Outcome} :
    ∀ {k g : Nat} {run : Scored}, R.loop pop checker k (g + 1) run = .ok o → o.gen ≤ g + k
  | 0, g, run, h => by obtain rfl := Except.ok.inj h; exact le_refl g
  | k + 1, g, run, h => by
    unfold Rule.loop at h
    split at h
    · cases h
    · simp only at h
      generalize (if R.better _ run = true then _ else run) = r at h
      split at h
      · obtain rfl := Except.ok.inj h; exact Nat.add_le_add_left (Nat.le_add_left 1 k) g
      · exact (R.loop_gen h).trans (by omega)

theorem Rule.evolve_gen {R : Rule} {maxGen : Nat} {pop : Nat → List Scored} {checker : Scored → Bool} {o : Outcome}
    (h : R.evolve maxGen pop checker = .ok o) : o.gen ≤ maxGen := by
  unfold Rule.evolve at h
  split at h
  · cases h
  · split at h
    · obtain rfl := Except.ok.inj h; exact Nat.zero_le _
    · exact (R.loop_gen h).trans (by omega)

/-- A checker that never accepts `run` lets a run that cannot leave `run` go on to the end. -/
theorem Rule.loop_stuck {R : Rule} {pop : Nat → List Scored} {checker : Scored → Bool} {run : Scored}
    (hn : run.score = .nan) (hc : checker run = false) :
    ∀ {k g : Nat}, (∀ j, g < j → j ≤ g + k → pop j ≠ []) → R.loop pop checker k (g + 1) run = .ok ⟨run, g + k, none⟩
  | 0, g, _ => rfl
  | k + 1, g, hp => by
    obtain ⟨i, is, hi⟩ := List.exists_cons_of_ne_nil (hp (g + 1) (by omega) (by omega))
    unfold Rule.loop
    rw [hi]
    simp only [Rule.best, R.better_nan_right hn, hc, Bool.false_eq_true, if_false]
    rw [R.loop_stuck hn hc fun j h1 h2 => hp j (by omega) (by omega)]
    congr 2
    omega

/-! ## The property -/

/-- What users rely on: `best_of_run_` is at least as good as every individual that was given a number (or an infinity)
in the run, and is itself such an individual if there was one. -/
def BestOfRun (R : Rule) (pop : Nat → List Scored) (o : Outcome) : Prop :=
  ∀ g ≤ o.gen, ∀ i ∈ pop g, i.Valued → o.best.Valued ∧ R.AsGood o.best i

/-- **C162**, the part that holds.  Whatever the scores, however the populations come about, and whatever the termination
checker does: `best_of_run_` is one of the evaluated individuals; its score is NaN if and only if the score of the *first*
individual of the initial population is, and then it is that individual; otherwise it is at least as good as everything
in those generations whose first individual is not scored NaN. -/
theorem C162_partial {R : Rule} {maxGen : Nat} {pop : Nat → List Scored} {checker : Scored → Bool} {o : Outcome}
    (h : R.evolve maxGen pop checker = .ok o) :
    (∃ g ≤ o.gen, o.best ∈ pop g) ∧ (o.best.score = .nan ↔ ∃ i, (pop 0).head? = some i ∧ i.score = .nan) ∧
      (o.best.score = .nan → (pop 0).head? = some o.best) ∧
      (o.best.score ≠ .nan → ∀ g ≤ o.gen, (∀ i, (pop g).head? = some i → i.score ≠ .nan) →
        ∀ i ∈ pop g, i.score ≠ .nan → R.AsGood o.best i) := by
  have K := R.evolve_knows h
  refine ⟨K.seen, ⟨fun hn => ⟨o.best, K.stuck (fun hv => hv hn), hn⟩, fun ⟨i, hi, hn⟩ => ?_⟩,
    fun hn => K.stuck fun hv => hv hn, K.best⟩
  by_contra hv
  exact K.valued.1 hv i hi hn

/-- So if no score is NaN (infinities may occur), `best_of_run_` is at least as good as everything evaluated. -/
theorem C162_numbers {R : Rule} {maxGen : Nat} {pop : Nat → List Scored} {checker : Scored → Bool} {o : Outcome}
    (h : R.evolve maxGen pop checker = .ok o) (hn : ∀ g ≤ maxGen, ∀ i ∈ pop g, i.score ≠ .nan) :
    BestOfRun R pop o := by
  have K := R.evolve_knows h
  have hg := R.evolve_gen h
  intro g hg' i hi hv
  have hl : ∀ k ≤ maxGen, Leads (pop k) := fun k hk j hj => hn k hk j (List.mem_of_mem_head? hj)
  have hr := K.valued.2 (hl 0 (Nat.zero_le _))
  exact ⟨hr, K.best hr g hg' (hl g (hg'.trans hg)) i hi hv⟩

/-- A run whose first individual is scored NaN is not ended by a target, whatever is found: it makes every generation and
leaves `final_generation_` unset and `best_of_run_` as it was at first. -/
theorem C162_target {R : Rule} {maxGen : Nat} {pop : Nat → List Scored} {optimal thr : ℚ} {i : Scored}
    (hp : ∀ g ≤ maxGen, pop g ≠ []) (h : (pop 0).head? = some i) (hn : i.score = .nan) :
    R.evolve maxGen pop (met optimal thr) = .ok ⟨i, maxGen, none⟩ := by
  obtain ⟨j, js, hj⟩ := List.exists_cons_of_ne_nil (hp 0 (Nat.zero_le _))
  rw [hj] at h
  obtain rfl := Option.some.inj h
  have hm : met optimal thr j = false := by unfold met; rw [hn]
  unfold Rule.evolve
  rw [hj]
  simp only [Rule.best, R.bestLoop_nan hn, hm, Bool.false_eq_true, if_false]
  have := R.loop_stuck (pop := pop) (checker := met optimal thr) hn hm (k := maxGen) (g := 0)
    fun k _ hk => hp k (by omega)
  rw [Nat.zero_add, Nat.zero_add] at this
  exact this

/-- And a run that a target did end has a number within the threshold for its best score. -/
theorem C162_found {R : Rule} {maxGen : Nat} {pop : Nat → List Scored} {optimal thr : ℚ} {o : Outcome}
    (h : R.evolve maxGen pop (met optimal thr) = .ok o) (hf : o.final ≠ none) :
    o.final = some o.gen ∧ ∃ x, o.best.score = .num x ∧ |x - optimal| ≤ thr := by
  have key : ∀ b : Scored, met optimal thr b = true → ∃ x, b.score = .num x ∧ |x - optimal| ≤ thr := by
    intro b hb
    unfold met at hb
    split at hb
    · exact ⟨_, ‹_›, of_decide_eq_true hb⟩
    · cases hb
  have loop : ∀ {k g : Nat} {run : Scored}, R.loop pop (met optimal thr) k (g + 1) run = .ok o →
      o.final = some o.gen ∧ ∃ x, o.best.score = .num x ∧ |x - optimal| ≤ thr := by
    intro k
    induction k with
    | zero => intro g run h; obtain rfl := Except.ok.inj h; exact (hf rfl).elim
    | succ k ih =>
      intro g run h
      unfold Rule.loop at h
      split at h
      · cases h
      · simp only at h
        generalize (if R.better _ run = true then _ else run) = r at h
        split at h
        · obtain rfl := Except.ok.inj h; exact ⟨rfl, key _ ‹_›⟩
        · exact ih h
  unfold Rule.evolve at h
  split at h
  · cases h
  · split at h
    · obtain rfl := Except.ok.inj h; exact ⟨rfl, key _ ‹_›⟩
    · exact loop h

/-- Tournaments: the winner is scored NaN if and only if the participant drawn first is, who then wins; otherwise the winner
is at least as good as every participant not scored NaN. -/
theorem C162_tournament_partial {R : Rule} {tour : List Scored} {w : Scored} (h : R.winner tour = .ok w) :
    w ∈ tour ∧ (w.score = .nan ↔ ∃ i, tour.head? = some i ∧ i.score = .nan) ∧
      (w.score = .nan → tour.head? = some w) ∧
      (w.score ≠ .nan → ∀ i ∈ tour, i.score ≠ .nan → R.AsGood w i) := by
  obtain ⟨s1, s2, s3, s4⟩ := R.best_spec (l := tour) (b := w) (by cases tour <;> exact h)
  refine ⟨s1, ⟨fun hn => ⟨w, s4 fun hv => hv hn, hn⟩, fun ⟨i, hi, hn⟩ => ?_⟩, fun hn => s4 fun hv => hv hn, s3⟩
  by_contra hv
  exact s2.1 hv i hi hn

/-- **C162** is false: three generations, each with a perfect individual in it, the first individual of the initial
population scored NaN. -/
def lame : Nat → List Scored := fun g => [⟨2 * g, if g = 0 then .nan else .num 1, 3⟩, ⟨2 * g + 1, .num 0, 3⟩]

theorem C162_refuted :
    ¬ ∀ (R : Rule) (maxGen : Nat) (pop : Nat → List Scored) (optimal thr : ℚ) (o : Outcome),
      R.evolve maxGen pop (met optimal thr) = .ok o → BestOfRun R pop o := by
  intro h
  have e : (⟨false, 0⟩ : Rule).evolve 2 lame (met 0 0) = .ok ⟨⟨0, .nan, 3⟩, 2, none⟩ := by decide +kernel
  exact (h ⟨false, 0⟩ 2 lame 0 0 _ e 0 (Nat.zero_le _) ⟨1, .num 0, 3⟩ (by decide +kernel) (by intro h; cases h)).1 rfl

/-- Nor does it hold with numbers in the initial population: NaN in front of a later generation hides all of it. -/
def masked : Nat → List Scored := fun g =>
  if g = 1 then [⟨2, .nan, 3⟩, ⟨3, .num 0, 3⟩] else [⟨2 * g, .num 5, 3⟩, ⟨2 * g + 1, .num 7, 3⟩]

theorem C162_masked_refuted :
    ¬ ∀ (R : Rule) (maxGen : Nat) (pop : Nat → List Scored) (checker : Scored → Bool) (o : Outcome),
      (∀ i ∈ pop 0, i.Valued) → R.evolve maxGen pop checker = .ok o → BestOfRun R pop o := by
  intro h
  have e : (⟨false, 0⟩ : Rule).evolve 2 masked (met 0 0) = .ok ⟨⟨0, .num 5, 3⟩, 2, none⟩ := by decide +kernel
  have := (h ⟨false, 0⟩ 2 masked _ _ (by
    intro i hi
    have : i = ⟨0, .num 5, 3⟩ ∨ i = ⟨1, .num 7, 3⟩ := by simpa [masked] using hi
    rcases this with rfl | rfl <;> (intro h; cases h)) e 1 (by decide) ⟨3, .num 0, 3⟩ (by decide +kernel) (by intro h; cases h)).2
  simp only [Rule.AsGood, Rule.place, F.place] at this
  have h5 := WithTop.coe_le_coe.1 (WithBot.coe_le_coe.1 this)
  norm_num at h5

/-! ## The same as elsewhere in the model -/

/-- The individual of the main model that a scored individual stands for. -/
structure Shows {G : Type} (size : G → Nat) (R : Rule) (h : List (Ind G)) (r : Nat) (i : Scored) : Prop where
  name : i.name = r
  there : ∃ j, h[r]? = some j ∧ j.fit.evaluated = true ∧ j.fit.hib = R.hib ∧ j.fit.bloat.getD 0 = R.bloat ∧
    size j.genome = i.size ∧ ∃ q, j.fit.value = .num q ∧ i.score = .num q

theorem Shows.better {G : Type} {size : G → Nat} {R : Rule} {h : List (Ind G)} {r r' : Nat} {i i' : Scored}
    (s : Shows size R h r i) (s' : Shows size R h r' i') :
    betterOf size h r (some r') = .ok (R.better i i') := by
  obtain ⟨j, hj, he, hh, hb, hs, q, hq, hi⟩ := s.there
  obtain ⟨j', hj', he', hh', hb', hs', q', hq', hi'⟩ := s'.there
  have aug : ∀ (j : Ind G) (i : Scored) (q : ℚ), j.fit.evaluated = true → j.fit.hib = R.hib →
      j.fit.bloat.getD 0 = R.bloat → size j.genome = i.size → j.fit.value = .num q → i.score = .num q →
      ∃ a, j.fit.augmented (size j.genome) = .ok (.num a) ∧ R.augmented i = .num a := by
    intro j i q he hh hb hs hq hi
    unfold Fit.augmented Fit.getPure Rule.augmented
    rw [if_pos he, hq, hi, ← hb, ← hh, hs]
    cases hbl : j.fit.bloat with
    | none => exact ⟨q, rfl, by simp⟩
    | some w =>
      by_cases hw : w = 0
      · exact ⟨q, by simp [hw], by simp [hw]⟩
      · cases hd : j.fit.hib <;> simp [hw, F.plus, sub_eq_add_neg]
  obtain ⟨a, ha, ra⟩ := aug j i q he hh hb hs hq hi
  obtain ⟨a', ha', ra'⟩ := aug j' i' q' he' hh' hb' hs' hq' hi'
  unfold betterOf
  simp only [hj, hj']
  unfold Fit.betterThan Fit.checkComparable Fit.isEvaluated Rule.better
  rw [he, he', ha, ha', ra, ra', hh]
  cases R.hib <;> simp [Evo.Fit.lt, F.lt]

/-- As long as the scores are finite, the loop of this file finds the individual that the loop of the main model finds. -/
theorem C162_same {G : Type} {size : G → Nat} {R : Rule} {w : World G} {refs : List Nat} {is : List Scored}
    (hs : List.Forall₂ (Shows size R w.heap) refs is) :
    ∀ {r : Nat} {i : Scored}, Shows size R w.heap r i → Evo.bestLoop size r refs w = (.ok (R.bestLoop i is).name, w) := by
  induction hs with
  | nil => intro r i s; rw [Rule.bestLoop, s.name]; rfl
  | @cons r' i' refs is s' _ ih =>
    intro r i s
    have e : reading (fun h => betterOf size h r' (some r)) w = (.ok (R.better i' i), w) := by
      show PyM.ofExcept (betterOf size w.heap r' (some r)) w = _
      rw [s'.better s]
      rfl
    unfold Evo.bestLoop Rule.bestLoop
    refine (bind_of_ok e).trans ?_
    cases R.better i' i
    · exact ih s
    · exact ih s'

/-! ## Examples -/

/-- A run over `masked`: NaN in generation 1 only, and an infinity could stand anywhere. -/
example : (⟨false, 1 / 10⟩ : Rule).evolve 2 masked (met 0 0) = .ok ⟨⟨0, .num 5, 3⟩, 2, none⟩ := by decide +kernel

/-- The first conjuncts of `C162_partial` for it. -/
example : (∃ g ≤ 2, (⟨0, .num 5, 3⟩ : Scored) ∈ masked g) ∧
    (⟨false, 1 / 10⟩ : Rule).AsGood ⟨0, .num 5, 3⟩ ⟨5, .num 7, 3⟩ := by
  have h : (⟨false, 1 / 10⟩ : Rule).evolve 2 masked (met 0 0) = .ok ⟨⟨0, .num 5, 3⟩, 2, none⟩ := by decide +kernel
  obtain ⟨h1, _, _, h4⟩ := C162_partial h
  refine ⟨h1, h4 (by intro h; cases h) 2 le_rfl ?_ _ (by decide +kernel) (by intro h; cases h)⟩
  intro i hi
  have : i = ⟨4, .num 5, 3⟩ := by
    have e : (masked 2).head? = some ⟨4, .num 5, 3⟩ := by decide +kernel
    rw [e] at hi
    exact (Option.some.inj hi).symm
  rw [this]
  intro h
  cases h

/-- Scores without NaN, an infinity among them; the target is met in generation 2. -/
def plain : Nat → List Scored := fun g =>
  [⟨2 * g, .posInf, 3⟩, ⟨2 * g + 1, .num (2 - g), 3⟩]

theorem plain_valued (g : Nat) : ∀ i ∈ plain g, i.score ≠ .nan := by
  intro i hi
  have : i = ⟨2 * g, .posInf, 3⟩ ∨ i = ⟨2 * g + 1, .num (2 - g), 3⟩ := by simpa [plain] using hi
  rcases this with rfl | rfl <;> (intro h; cases h)

theorem plain_run : (⟨false, 0⟩ : Rule).evolve 5 plain (met 0 0) = .ok ⟨⟨5, .num 0, 3⟩, 2, some 2⟩ := by decide +kernel

example : BestOfRun ⟨false, 0⟩ plain ⟨⟨5, .num 0, 3⟩, 2, some 2⟩ := C162_numbers plain_run fun g _ => plain_valued g

example : ∃ x, (F.num 0) = .num x ∧ |x - 0| ≤ (0 : ℚ) := (C162_found plain_run (by simp)).2

example : (⟨false, 0⟩ : Rule).evolve 100 lame (met 0 0) = .ok ⟨⟨0, .nan, 3⟩, 100, none⟩ :=
  C162_target (fun g _ => by simp [lame]) (i := ⟨0, .nan, 3⟩) (by decide +kernel) rfl

/-- A tournament in which NaN comes second. -/
example : (⟨true, 1⟩ : Rule).winner [⟨0, .num 4, 2⟩, ⟨1, .nan, 1⟩, ⟨2, .num 9, 8⟩] = .ok ⟨0, .num 4, 2⟩ := by decide +kernel

/-- Two individuals of the main model. -/
example (w : World Nat) (f : Fit) (i : Ind Nat)
    (hw : w.heap = [{ i with genome := 3, fit := { f with value := .num 2, evaluated := true, hib := true, bloat := none } },
      { i with genome := 4, fit := { f with value := .num 5, evaluated := true, hib := true, bloat := some 0 } }]) :
    Evo.bestLoop id 0 [1] w = (.ok 1, w) := by
  have := C162_same (size := id) (R := ⟨true, 0⟩) (w := w) (refs := [1]) (is := [⟨1, .num 5, 4⟩])
    (.cons ⟨rfl, _, by rw [hw]; rfl, rfl, rfl, rfl, rfl, 5, rfl, rfl⟩ .nil)
    (r := 0) (i := ⟨0, .num 2, 3⟩) ⟨rfl, _, by rw [hw]; rfl, rfl, rfl, rfl, rfl, 2, rfl, rfl⟩
  rw [this]
  have e : ((⟨true, 0⟩ : Rule).bestLoop ⟨0, .num 2, 3⟩ [⟨1, .num 5, 4⟩]).name = 1 := by decide +kernel
  rw [e]

end Verif.Score
