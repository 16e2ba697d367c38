import Verif.Model.Termination
import Verif.Props.Run
import Mathlib.Algebra.Order.Group.Abs

/-! # C41, C42: termination checkers -/

namespace Verif.Evo
open PyM
variable {G : Type} {size : G → Nat}

/-! ## C42: threshold -/

/-- C42: the threshold checker says yes exactly if the fitness of the best individual is within the
threshold of the optimum. -/
theorem C42_threshold {optimal thr x : ℚ} {heap : List (Ind G)} {inds : List (Option (List Nat))} {b gen : Nat}
    (h : pureOf heap b = .ok (.num x)) {v : Bool} :
    threshold optimal thr () heap inds (some b) gen = (.ok v, ()) ↔ (v = true ↔ |x - optimal| ≤ thr) := by
  unfold threshold
  simp only [h, Prod.mk.injEq, Except.ok.injEq, and_true]
  constructor
  · rintro rfl; simp
  · intro h'
    cases v <;> simpa using h'

/-- C42: if the best individual has no fitness, the checker raises. -/
theorem C42_threshold_unevaluated {optimal thr : ℚ} {heap : List (Ind G)} {inds : List (Option (List Nat))}
    {b gen : Nat} (h : ∀ x, pureOf heap b ≠ .ok (.num x)) :
    ∃ e, threshold optimal thr () heap inds (some b) gen = (.error e, ()) := by
  unfold threshold
  dsimp only
  split
  · exact ⟨_, rfl⟩
  · rename_i x hx; exact absurd hx (h x)
  · exact ⟨_, rfl⟩

/-! ## C41: stagnation -/

/-- Two lists of fitness values agree up to the tolerance of `math.isclose`. -/
def Close (xs ys : List ℚ) : Prop := ∀ p ∈ xs.zip ys, |p.1 - p.2| ≤ max |p.1| |p.2| / 10 ^ 9

instance (xs ys : List ℚ) : Decidable (Close xs ys) := by unfold Close; infer_instance

/-- In the snapshot, `xs` are the fitness values of the best individuals of the sub-populations. -/
def ShowsBest (size : G → Nat) (hibs : List Bool) (e : Snapshot G) (xs : List ℚ) : Prop :=
  e.inds.length = hibs.length ∧
  List.Forall₂ (fun (p : Bool × Option (List Nat)) x => ∃ is b, p.2 = some is ∧
    Evaluated size p.1 (ofHeap e.heap) is ∧ FirstBest (Beats size p.1 (ofHeap e.heap)) is b ∧
    pureOf e.heap b = .ok (.num x)) (hibs.zip e.inds) xs

/-- In the history `vs` of values, `i` is the generation at which the value of generation `j` was set: it
changed there, and has stayed (up to the tolerance) since. -/
inductive SetAt (vs : List (List ℚ)) : (j i : Nat) → Prop
  | first : SetAt vs 0 0
  | stay {j i : Nat} {v w : List ℚ} : SetAt vs j i → vs[i]? = some v → vs[j + 1]? = some w → Close w v →
      SetAt vs (j + 1) i
  | change {j i : Nat} {v w : List ℚ} : SetAt vs j i → vs[i]? = some v → vs[j + 1]? = some w → ¬ Close w v →
      SetAt vs (j + 1) (j + 1)

theorem SetAt.unique {vs : List (List ℚ)} {j i i' : Nat} (h : SetAt vs j i) (h' : SetAt vs j i') : i = i' := by
  induction h generalizing i' with
  | first => cases h'; rfl
  | stay h1 hv hw hc ih =>
    cases h' with
    | stay h1' _ _ _ => exact ih h1'
    | change h1' hv' hw' hc' =>
      have := ih h1'
      subst this
      rw [hv] at hv'; rw [hw] at hw'
      cases hv'; cases hw'
      exact absurd hc hc'
  | change h1 hv hw hc ih =>
    cases h' with
    | change _ _ _ _ => rfl
    | stay h1' hv' hw' hc' =>
      have := ih h1'
      subst this
      rw [hv] at hv'; rw [hw] at hw'
      cases hv'; cases hw'
      exact absurd hc' hc

theorem SetAt.le {vs : List (List ℚ)} {j i : Nat} (h : SetAt vs j i) : i ≤ j := by
  induction h with
  | first => exact le_refl _
  | stay _ _ _ _ ih => omega
  | change => exact le_refl _

/-- Every generation of the history has one. -/
theorem SetAt.total {vs : List (List ℚ)} {j : Nat} (hj : j < vs.length) : ∃ i, SetAt vs j i := by
  induction j with
  | zero => exact ⟨0, .first⟩
  | succ j ih =>
    obtain ⟨i, hi⟩ := ih (by omega)
    have hi' := hi.le
    by_cases hc : Close (vs[j + 1]'hj) (vs[i]'(by omega))
    · exact ⟨i, .stay hi (List.getElem?_eq_getElem (by omega)) (List.getElem?_eq_getElem hj) hc⟩
    · exact ⟨j + 1, .change hi (List.getElem?_eq_getElem (by omega)) (List.getElem?_eq_getElem hj) hc⟩

/-- All values since then are close to the one set. -/
theorem SetAt.close {vs : List (List ℚ)} {j i : Nat} (h : SetAt vs j i) {v : List ℚ} (hv : vs[i]? = some v) :
    ∀ k w, i < k → k ≤ j → vs[k]? = some w → Close w v := by
  induction h with
  | first => intro k w h1 h2; omega
  | @stay j i v' w' _ hv' hw hc ih =>
    intro k w h1 h2 hk
    rw [hv] at hv'; cases hv'
    rcases Nat.lt_or_ge j k with h | h
    · have : k = j + 1 := by omega
      subst this
      rw [hw] at hk; cases hk
      exact hc
    · exact ih hv k w h1 h hk
  | change => intro k w h1 h2; omega

theorem SetAt.mono {vs ws : List (List ℚ)} {j i : Nat} (h : SetAt vs j i) : SetAt (vs ++ ws) j i := by
  have key : ∀ k v, vs[k]? = some v → (vs ++ ws)[k]? = some v := fun k v hk => by
    rw [List.getElem?_append_left (List.getElem?_eq_some_iff.1 hk).1, hk]
  induction h with
  | first => exact .first
  | stay _ hv hw hc ih => exact .stay ih (key _ _ hv) (key _ _ hw) hc
  | change _ hv hw hc ih => exact .change ih (key _ _ hv) (key _ _ hw) hc

theorem allClose_eq (xs ys : List ℚ) :
    allClose (xs.map FVal.num) (ys.map FVal.num) = .ok (decide (Close xs ys)) := by
  induction xs generalizing ys with
  | nil => simp [allClose, Close]
  | cons x xs ih =>
    cases ys with
    | nil => simp [allClose, Close]
    | cons y ys =>
      simp only [List.map_cons, allClose, isclose, ih]
      have : Close (x :: xs) (y :: ys) ↔ |x - y| ≤ max |x| |y| / 10 ^ 9 ∧ Close xs ys := by
        simp [Close]
      simp [this]

theorem bestFitnesses_eq {hibs : List Bool} {e : Snapshot G} {xs : List ℚ} (h : ShowsBest size hibs e xs) :
    bestFitnesses size e.heap hibs e.inds = .ok (xs.map FVal.num) := by
  obtain ⟨hl, hf⟩ := h
  revert hl hf
  generalize e.inds = iss
  intro hl hf
  induction hibs generalizing iss xs with
  | nil =>
    simp only [List.zip_nil_left, List.forall₂_nil_left_iff] at hf
    subst hf
    cases iss <;> rfl
  | cons hib hibs ih =>
    cases iss with
    | nil => simp at hl
    | cons o iss =>
      simp only [List.zip_cons_cons] at hf
      cases hf with
      | cons h1 h2 =>
        rename_i x xs
        obtain ⟨is, b, rfl, hev, hfb, hp⟩ := h1
        unfold bestFitnesses
        have hne : is ≠ [] := by
          rintro rfl
          simpa using hfb.mem
        obtain ⟨r, hr, hfr⟩ := C46_best hev hne
        have : r = b := by
          exact hfr.unique hfb
        subst this
        rw [show bestIndividual size e.heap hib is = .ok r from hr]
        dsimp only
        rw [hp]
        dsimp only
        rw [ih iss (by simpa using hl) h2]
        rfl

/-- What the checker remembers after the generations of the history `vs`. -/
def Remembers (vs : List (List ℚ)) (k : Stag) : Prop :=
  (vs = [] ∧ (k.bestFitnesses = none ∨ k.bestFitnesses = some [])) ∨
  ∃ j i v, vs.length = j + 1 ∧ SetAt vs j i ∧ vs[i]? = some v ∧ k.bestFitnesses = some (v.map FVal.num) ∧
    k.generations = j - i

theorem stagStep_spec {n : Int} {k : Stag} {vs : List (List ℚ)} (hk : Remembers vs k)
    (hne : ∀ v ∈ vs, v ≠ []) (w : List ℚ) :
    ∃ b k' i, stagStep n k (w.map FVal.num) = (.ok b, k') ∧ Remembers (vs ++ [w]) k' ∧
      SetAt (vs ++ [w]) vs.length i ∧ (b = true ↔ i < vs.length ∧ n ≤ ((vs.length - i : Nat) : Int)) := by
  rcases hk with ⟨rfl, hb⟩ | ⟨j, i, v, hl, hs, hv, hb, hg⟩
  · refine ⟨false, ⟨some (w.map FVal.num), 0⟩, 0, ?_, .inr ⟨0, 0, w, by simp, .first, by simp, rfl, rfl⟩, .first,
      by simp⟩
    unfold stagStep
    rcases hb with hb | hb <;> rw [hb]
  · have hvne : v ≠ [] := hne v (List.mem_of_getElem? hv)
    have hw : (vs ++ [w])[j + 1]? = some w := by rw [← hl]; simp
    have hv' : (vs ++ [w])[i]? = some v := by
      rw [List.getElem?_append_left (List.getElem?_eq_some_iff.1 hv).1, hv]
    have hstep : stagStep n k (w.map FVal.num) = if Close w v then
        (.ok (decide (n ≤ ((k.generations + 1 : Nat) : Int))), { k with generations := k.generations + 1 })
        else (.ok false, ⟨some (w.map FVal.num), 0⟩) := by
      unfold stagStep
      rw [hb]
      cases hvc : v with
      | nil => exact absurd hvc hvne
      | cons x xs =>
        simp only [List.map_cons]
        have := allClose_eq w (x :: xs)
        simp only [List.map_cons] at this
        rw [this]
        by_cases hc : Close w (x :: xs) <;> simp [hc]
    have hile := hs.le
    by_cases hc : Close w v
    · have hset : SetAt (vs ++ [w]) (j + 1) i := .stay hs.mono hv' hw hc
      refine ⟨_, { k with generations := k.generations + 1 }, i, by rw [hstep, if_pos hc], .inr ⟨j + 1, i, v, by simp [hl], hset, hv', hb, ?_⟩,
        by rw [hl]; exact hset, ?_⟩
      · dsimp only; omega
      · rw [hg, hl]
        simp only [decide_eq_true_eq]
        rw [show j - i + 1 = j + 1 - i by omega]
        constructor
        · exact fun h => ⟨by omega, h⟩
        · exact fun h => h.2
    · have hset : SetAt (vs ++ [w]) (j + 1) (j + 1) := .change hs.mono hv' hw hc
      refine ⟨_, _, j + 1, by rw [hstep, if_neg hc], .inr ⟨j + 1, j + 1, w, by simp [hl], hset, hw, rfl, by simp⟩,
        by rw [hl]; exact hset, ?_⟩
      simp [hl]

theorem Feeds.snoc {κ : Type} {t : Checker G κ} {es : List (Snapshot G)} {e : Snapshot G} {k k' k'' : κ}
    {bs : List Bool} {b : Bool} (h : Feeds t es k bs k')
    (he : t k' e.heap e.inds e.bestOfRun e.genNum = (.ok b, k'')) : Feeds t (es ++ [e]) k (bs ++ [b]) k'' := by
  induction h with
  | nil => exact .cons he .nil
  | cons h1 _ ih => exact .cons h1 (ih he)

theorem Feeds.length {κ : Type} {t : Checker G κ} {es : List (Snapshot G)} {k k' : κ} {bs : List Bool}
    (h : Feeds t es k bs k') : bs.length = es.length := by
  induction h with
  | nil => rfl
  | cons _ _ ih => simp [ih]

theorem stagnation_from {hibs : List Bool} (hh : hibs ≠ []) {n : Int} {snaps : List (Snapshot G)}
    {ws : List (List ℚ)} (hv : List.Forall₂ (ShowsBest size hibs) snaps ws) {vs : List (List ℚ)} {k : Stag}
    (hk : Remembers vs k) (hne : ∀ v ∈ vs, v ≠ []) :
    ∃ answers k', Feeds (stagnation size hibs n) snaps k answers k' ∧
      ∀ j < snaps.length, ∀ i, SetAt (vs ++ ws) (vs.length + j) i →
        (answers[j]? = some true ↔ i < vs.length + j ∧ n ≤ ((vs.length + j - i : Nat) : Int)) := by
  induction hv generalizing vs k with
  | nil => exact ⟨[], k, .nil, by simp⟩
  | @cons e w snaps ws he _ ih =>
    obtain ⟨b, k', i₀, hstep, hr, hset, hb⟩ := stagStep_spec (n := n) hk hne w
    have hw : w ≠ [] := by
      rintro rfl
      obtain ⟨hl, hf⟩ := he
      simp only [List.forall₂_nil_right_iff, List.zip_eq_nil_iff] at hf
      rcases hf with hf | hf
      · exact hh hf
      · rw [hf] at hl
        exact hh (List.length_eq_zero_iff.1 hl.symm)
    obtain ⟨answers, k'', hf, hans⟩ := ih hr (by
      intro v hv
      rw [List.mem_append, List.mem_singleton] at hv
      rcases hv with hv | rfl
      · exact hne v hv
      · exact hw)
    refine ⟨b :: answers, k'', .cons ?_ hf, ?_⟩
    · unfold stagnation
      rw [bestFitnesses_eq he]
      exact hstep
    · rintro (_ | j) hj i hi
      · have hi₀ : SetAt (vs ++ w :: ws) (vs.length + 0) i₀ := by
          have := hset.mono (ws := ws)
          rwa [List.append_assoc] at this
        have := hi.unique hi₀
        subst this
        simpa using hb
      · have := hans j (by simpa using hj) i (by
          rw [List.append_assoc, List.length_append, List.length_singleton]
          rwa [show vs.length + 1 + j = vs.length + (j + 1) by omega])
        rw [List.length_append, List.length_singleton,
          show vs.length + 1 + j = vs.length + (j + 1) by omega] at this
        simpa using this

theorem Feeds.unique {κ : Type} {t : Checker G κ} {es : List (Snapshot G)} {k k' k'' : κ} {bs bs' : List Bool}
    (h : Feeds t es k bs k') (h' : Feeds t es k bs' k'') : bs = bs' ∧ k' = k'' := by
  induction h generalizing bs' k'' with
  | nil => cases h'; exact ⟨rfl, rfl⟩
  | cons h1 _ ih =>
    cases h' with
    | cons h1' h2' =>
      rw [h1] at h1'
      simp only [Prod.mk.injEq, Except.ok.injEq] at h1'
      obtain ⟨rfl, rfl⟩ := h1'
      obtain ⟨rfl, rfl⟩ := ih h2'
      exact ⟨rfl, rfl⟩

/-- C41: asked at consecutive generations `snaps` whose best fitness values are `vs`, the checker answers
without raising, and its answer at generation `j` is yes exactly if the value of generation `j` was set at
some earlier generation `i` and at least `n` generations have passed since. -/
theorem C41_stagnation {hibs : List Bool} (hh : hibs ≠ []) {n : Int} {snaps : List (Snapshot G)}
    {vs : List (List ℚ)} (hv : List.Forall₂ (ShowsBest size hibs) snaps vs) :
    ∃ answers k', Feeds (stagnation size hibs n) snaps ⟨none, 0⟩ answers k' ∧
      ∀ j < snaps.length, ∀ i, SetAt vs j i →
        (answers[j]? = some true ↔ i < j ∧ n ≤ ((j - i : Nat) : Int)) := by
  obtain ⟨answers, k', h1, h2⟩ := stagnation_from (n := n) hh hv (vs := []) (k := ⟨none, 0⟩)
    (.inl ⟨rfl, .inl rfl⟩) (by simp)
  exact ⟨answers, k', h1, fun j hj i hi => by simpa using h2 j hj i (by simpa using hi)⟩

/-- C41: if the checker raises, it has forgotten nothing: asked again, it answers as if it had not been asked. -/
theorem C41_raises {hibs : List Bool} {n : Int} {k k' : Stag} {h : List (Ind G)} {inds : List (Option (List Nat))}
    {b : Option Nat} {g : Nat} {e : Err} (hr : stagnation size hibs n k h inds b g = (.error e, k')) : k' = k := by
  unfold stagnation at hr
  split at hr
  · cases hr; rfl
  · unfold stagStep at hr
    split at hr
    · split at hr <;> cases hr
      rfl
    · cases hr

/-- If values within the tolerance are equal (as for integers below 10⁹), the generation at which a value was
set is determined by equality alone. -/
theorem SetAt.exact {vs : List (List ℚ)} (hex : ∀ v ∈ vs, ∀ w ∈ vs, Close w v ↔ w = v) {j i : Nat}
    (h : SetAt vs j i) (hj : j < vs.length) :
    (∀ k, i ≤ k → k ≤ j → vs[k]? = vs[j]?) ∧ (0 < i → vs[i - 1]? ≠ vs[i]?) := by
  induction h with
  | first => exact ⟨fun k h1 h2 => by rw [show k = 0 by omega], by simp⟩
  | @stay j i v w hs hv hw hc ih =>
    obtain ⟨h1, h2⟩ := ih (by omega)
    have hwv : w = v := (hex v (List.mem_of_getElem? hv) w (List.mem_of_getElem? hw)).1 hc
    have hij : vs[i]? = vs[j]? := h1 i (le_refl _) hs.le
    refine ⟨fun k g1 g2 => ?_, h2⟩
    rcases Nat.lt_or_ge j k with g | g
    · rw [show k = j + 1 by omega]
    · rw [h1 k g1 g, ← hij, hv, hw, hwv]
  | @change j i v w hs hv hw hc ih =>
    obtain ⟨h1, -⟩ := ih (by omega)
    have hwv : w ≠ v := fun he => hc ((hex v (List.mem_of_getElem? hv) w (List.mem_of_getElem? hw)).2 he)
    refine ⟨fun k g1 g2 => by rw [show k = j + 1 by omega], fun _ => ?_⟩
    rw [Nat.add_sub_cancel, ← h1 i (le_refl _) hs.le, hv, hw]
    exact fun he => hwv (Option.some.inj he).symm

/-- C41 for values that are equal if they are within the tolerance: the answer at generation `j` is yes
exactly if the last `n + 1` generations (at least two) had the same best fitness. -/
theorem C41_exact {hibs : List Bool} (hh : hibs ≠ []) {n : Nat} (hn : 1 ≤ n) {snaps : List (Snapshot G)}
    {vs : List (List ℚ)} (hv : List.Forall₂ (ShowsBest size hibs) snaps vs)
    (hex : ∀ v ∈ vs, ∀ w ∈ vs, Close w v ↔ w = v) :
    ∃ answers k', Feeds (stagnation size hibs n) snaps ⟨none, 0⟩ answers k' ∧
      ∀ j < snaps.length, (answers[j]? = some true ↔ n ≤ j ∧ ∀ k, j - n ≤ k → k ≤ j → vs[k]? = vs[j]?) := by
  obtain ⟨answers, k', h1, h2⟩ := C41_stagnation (n := n) hh hv
  refine ⟨answers, k', h1, fun j hj => ?_⟩
  have hjv : j < vs.length := by rw [← hv.length_eq]; exact hj
  obtain ⟨i, hi⟩ := SetAt.total hjv
  obtain ⟨g1, g2⟩ := hi.exact hex hjv
  have hle := hi.le
  rw [h2 j hj i hi]
  constructor
  · rintro ⟨hij, hni⟩
    exact ⟨by omega, fun k q1 q2 => g1 k (by omega) q2⟩
  · rintro ⟨hnj, hall⟩
    by_contra hcon
    have hlt : j - n < i := by omega
    refine g2 (by omega) ?_
    rw [hall (i - 1) (by omega) (by omega), hall i (by omega) hle]

/-- C41 in a run: a run that returns, with a stagnation checker, stopped (early) in the first generation whose
best fitness values were set at least `n` generations before — or ran all generations and there was no such
generation. -/
theorem C41_run {c : Cfg G Stag} {s s' : Run G Stag} {hibs : List Bool} (hh : hibs ≠ []) {n : Int}
    (hck : c.checker = .one (stagnation size hibs n)) (hlog : s.log = []) (hg : s.genNum = 0)
    (hf : s.checkers = [⟨none, 0⟩]) (h : evolve c s = (.ok (), s')) :
    ∃ snaps stop, Course c s s' snaps stop ∧ ∀ vs, List.Forall₂ (ShowsBest size hibs) snaps vs →
      (∀ j i, j < snaps.length → SetAt vs j i → i < j → n ≤ ((j - i : Nat) : Int) → stop = true ∧ j + 1 = snaps.length) ∧
      (stop = true → ∃ i, SetAt vs (snaps.length - 1) i ∧ i < snaps.length - 1 ∧
        n ≤ ((snaps.length - 1 - i : Nat) : Int)) := by
  obtain ⟨snaps, stop, hc, answers, k', -, hfeed, h1, h2⟩ := C36_one_checker hck hlog hg hf h
  refine ⟨snaps, stop, hc, fun vs hv => ?_⟩
  obtain ⟨answers', k'', hfeed', h3⟩ := C41_stagnation (n := n) hh hv
  have : answers = answers' := (hfeed.unique hfeed').1
  subst this
  refine ⟨fun j i hj hi hij hn => h1 j ((h3 j hj i hi).2 ⟨hij, hn⟩), fun hs => ?_⟩
  have hlt : snaps.length - 1 < snaps.length := by
    have := List.length_pos_iff.2 hc.ne
    omega
  obtain ⟨i, hi⟩ := SetAt.total (vs := vs) (j := snaps.length - 1) (by rw [← hv.length_eq]; exact hlt)
  exact ⟨i, hi, (h3 _ hlt i hi).1 (h2 hs)⟩

/-! ## Instances -/

/-- Best fitness 3, then 5, 5, 5. -/
def exSnap (v : ℚ) : Snapshot Nat :=
  ⟨[⟨1, 0, 10, exFit (.num v), -1, [], [], false, []⟩], [some [0]], none, none, 0, 0⟩

theorem exSnap_best (v : ℚ) : ShowsBest (fun _ => 1) [true] (exSnap v) [v] := by
  refine ⟨rfl, .cons ⟨[0], 0, rfl, ?_, ⟨[], [], rfl, by simp, by simp⟩, rfl⟩ .nil⟩
  intro r hr
  simp only [List.mem_singleton] at hr
  subst hr
  exact ⟨_, _, none, v, rfl, ⟨rfl, rfl, rfl, rfl⟩, rfl⟩

example : List.Forall₂ (ShowsBest (fun _ => 1) [true]) [exSnap 3, exSnap 5, exSnap 5, exSnap 5]
    [[3], [5], [5], [5]] :=
  .cons (exSnap_best 3) (.cons (exSnap_best 5) (.cons (exSnap_best 5) (.cons (exSnap_best 5) .nil)))

example : SetAt [[3], [5], [5], [5]] 3 1 :=
  .stay (.stay (.change .first rfl rfl (by decide +kernel)) rfl rfl (by decide +kernel)) rfl rfl (by decide +kernel)

example : ∀ v ∈ ([[3], [5], [5], [5]] : List (List ℚ)), ∀ w ∈ ([[3], [5], [5], [5]] : List (List ℚ)),
    Close w v ↔ w = v := by decide +kernel

example : threshold (G := Nat) 4 1 () (exSnap 5).heap [] (some 0) 7 = (.ok true, ()) := by
  rw [C42_threshold (x := 5) rfl]
  decide +kernel

/-- The checker raises if the individuals have not been created. -/
example := C41_raises (size := fun _ : Nat => 1) (hibs := [true]) (n := 2) (k := ⟨some [.num 3], 1⟩) (h := []) (inds := [none]) (b := none) (g := 4)
  (e := .typeError) rfl

end Verif.Evo
