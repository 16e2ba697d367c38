import Verif.Model.FPSelection
import Verif.Props.Selection
import Mathlib.Tactic.Linarith
import Mathlib.Tactic.Positivity
import Mathlib.Algebra.Order.BigOperators.Group.List

/-! # C28, C29: fitness-proportionate selection -/

namespace Verif.Evo
open PyM
variable {G : Type} {size : G → Nat} {d : Bool} {s s' : World G}

/-! ## The distribution -/

theorem min_le {scores : List ℝ} {least : ℝ} (h : scores.min? = some least) : ∀ x ∈ scores, least ≤ x := by
  intro x hx
  exact ((List.min?_eq_some_iff).1 h).2 x hx

theorem min_mem {scores : List ℝ} {least : ℝ} (h : scores.min? = some least) : least ∈ scores :=
  ((List.min?_eq_some_iff).1 h).1

/-- No division by zero. -/
theorem smoothed_pos {scores : List ℝ} {least : ℝ} (h : scores.min? = some least) (h0 : ∀ x ∈ scores, 0 ≤ x) :
    ∀ x ∈ scores, 0 < x + smoothing least := by
  intro x hx
  have h1 := h0 x hx
  unfold smoothing
  split
  · linarith
  · rename_i hl
    have h2 := h0 least (min_mem h)
    have h3 := min_le h x hx
    have : 0 < least := lt_of_le_of_ne h2 (Ne.symm hl)
    linarith

theorem sum_exp_pos {xs : List ℝ} (h : xs ≠ []) : 0 < (xs.map Real.exp).sum := by
  apply List.sum_pos
  · intro x hx
    simp only [List.mem_map] at hx
    obtain ⟨y, _, rfl⟩ := hx
    exact Real.exp_pos y
  · simpa using h

theorem softmax_sum {xs : List ℝ} (h : xs ≠ []) : (softmax xs).sum = 1 := by
  unfold softmax
  have hp := sum_exp_pos h
  have : (xs.map fun x => Real.exp x / (xs.map Real.exp).sum) = (xs.map Real.exp).map fun y => y / (xs.map Real.exp).sum := by
    rw [List.map_map]; rfl
  rw [this]
  generalize (xs.map Real.exp) = l at hp ⊢
  have : ∀ (l : List ℝ) (t : ℝ), (l.map fun y => y / t).sum = l.sum / t := by
    intro l t
    induction l with
    | nil => simp
    | cons a l ih => simp [ih, add_div]
  rw [this, div_self hp.ne']

/-- The distribution that was computed. -/
theorem fpDistribution_ok {hib : Bool} {scores p : List ℝ} (h : fpDistribution hib scores = .ok p) :
    ∃ least, scores.min? = some least ∧ 0 ≤ least ∧
      p = if (fpScores hib least scores).sum ≠ 1 then softmax (fpScores hib least scores) else fpScores hib least scores := by
  unfold fpDistribution at h
  split at h
  · simp at h
  · rename_i least hl
    split at h
    · simp at h
    · simp only [Except.ok.injEq] at h
      exact ⟨least, hl, by linarith, h.symm⟩

theorem length_fpScores (hib : Bool) (least : ℝ) (scores : List ℝ) : (fpScores hib least scores).length = scores.length := by
  unfold fpScores
  split <;> simp

theorem fpScores_nonneg {hib : Bool} {scores : List ℝ} {least : ℝ} (h : scores.min? = some least) (h0 : 0 ≤ least) :
    ∀ x ∈ fpScores hib least scores, 0 ≤ x := by
  have hn : ∀ x ∈ scores, 0 ≤ x := fun x hx => h0.trans (min_le h x hx)
  unfold fpScores
  split
  · exact hn
  · intro x hx
    simp only [List.mem_map] at hx
    obtain ⟨y, hy, rfl⟩ := hx
    have := smoothed_pos h hn y hy
    positivity

theorem fp_valid {hib : Bool} {scores p : List ℝ} (h : fpDistribution hib scores = .ok p) :
    p.length = scores.length ∧ p ≠ [] ∧ (∀ x ∈ p, 0 ≤ x) ∧ p.sum = 1 := by
  obtain ⟨least, hl, h0, rfl⟩ := fpDistribution_ok h
  have hne : scores ≠ [] := by intro hc; rw [hc] at hl; simp at hl
  have hw : fpScores hib least scores ≠ [] := by
    intro hc
    have := length_fpScores hib least scores
    rw [hc] at this
    exact hne (List.length_eq_zero_iff.1 this.symm)
  split
  · refine ⟨by simp [softmax, length_fpScores], by simpa [softmax] using hw, ?_, softmax_sum hw⟩
    intro x hx
    simp only [softmax, List.mem_map] at hx
    obtain ⟨y, _, rfl⟩ := hx
    exact div_nonneg (Real.exp_pos y).le (sum_exp_pos hw).le
  · rename_i hs
    exact ⟨length_fpScores _ _ _, hw, fpScores_nonneg hl h0, not_not.1 hs⟩

/-- C28: for non-negative scores the selection probabilities exist; they are non-negative and sum to one. -/
theorem C28_distribution (hib : Bool) {scores : List ℝ} (hne : scores ≠ []) (h0 : ∀ x ∈ scores, 0 ≤ x) :
    ∃ p, fpDistribution hib scores = .ok p ∧ p.length = scores.length ∧ (∀ x ∈ p, 0 ≤ x) ∧ p.sum = 1 := by
  have hm : ∃ least, scores.min? = some least := by
    cases h : scores.min? with
    | none => rw [List.min?_eq_none_iff] at h; exact absurd h hne
    | some l => exact ⟨l, rfl⟩
  obtain ⟨least, hl⟩ := hm
  have hp : ∃ p, fpDistribution hib scores = .ok p := by
    unfold fpDistribution
    rw [hl]
    dsimp only
    rw [if_neg (not_lt.2 (h0 least (min_mem hl)))]
    exact ⟨_, rfl⟩
  obtain ⟨p, hp⟩ := hp
  have := fp_valid hp
  exact ⟨p, hp, this.1, this.2.2⟩

/-- C28: the inverse scores never divide by zero. -/
theorem C28_no_division_by_zero {scores : List ℝ} {least : ℝ} (hl : scores.min? = some least) (h0 : ∀ x ∈ scores, 0 ≤ x) :
    ∀ x ∈ scores, x + smoothing least ≠ 0 := fun x hx => (smoothed_pos hl h0 x hx).ne'

theorem getElem_softmax {xs : List ℝ} {i : Nat} (hi : i < (softmax xs).length) :
    (softmax xs)[i] = Real.exp (xs[i]'(by simpa [softmax] using hi)) / (xs.map Real.exp).sum := by
  simp [softmax]

theorem fpScores_better {hib : Bool} {scores : List ℝ} {least : ℝ} (hl : scores.min? = some least) (h0 : 0 ≤ least)
    {i j : Nat} (hi : i < scores.length) (hj : j < scores.length)
    (hb : if hib then scores[j] < scores[i] else scores[i] < scores[j]) :
    (fpScores hib least scores)[j]'(by rw [length_fpScores]; exact hj) < (fpScores hib least scores)[i]'(by rw [length_fpScores]; exact hi) := by
  have hn : ∀ x ∈ scores, 0 ≤ x := fun x hx => h0.trans (min_le hl x hx)
  cases hib with
  | true => simpa [fpScores] using hb
  | false =>
    simp only [Bool.false_eq_true, if_false] at hb
    simp only [fpScores, Bool.false_eq_true, if_false, List.getElem_map]
    have h1 := smoothed_pos hl hn scores[i] (List.getElem_mem hi)
    exact one_div_lt_one_div_of_lt h1 (by linarith)

/-- C28: a strictly fitter individual has a strictly greater probability; equally fit individuals have the same. -/
theorem C28_favours_fitter {hib : Bool} {scores p : List ℝ} (h : fpDistribution hib scores = .ok p) {i j : Nat}
    (hi : i < scores.length) (hj : j < scores.length) :
    ((if hib then scores[j] < scores[i] else scores[i] < scores[j]) → ∃ x y, p[i]? = some x ∧ p[j]? = some y ∧ y < x) ∧
    (scores[i] = scores[j] → p[i]? = p[j]?) := by
  have hlen := (fp_valid h).1
  obtain ⟨least, hl, h0, rfl⟩ := fpDistribution_ok h
  have hi' : i < (fpScores hib least scores).length := by rw [length_fpScores]; exact hi
  have hj' : j < (fpScores hib least scores).length := by rw [length_fpScores]; exact hj
  have hne : fpScores hib least scores ≠ [] := by intro hc; rw [hc] at hi'; simp at hi'
  constructor
  · intro hb
    have hlt := fpScores_better hl h0 hi hj hb
    split
    · have e1 : i < (softmax (fpScores hib least scores)).length := by simpa [softmax] using hi'
      have e2 : j < (softmax (fpScores hib least scores)).length := by simpa [softmax] using hj'
      refine ⟨_, _, List.getElem?_eq_getElem e1, List.getElem?_eq_getElem e2, ?_⟩
      rw [getElem_softmax, getElem_softmax]
      exact div_lt_div_of_pos_right (Real.exp_lt_exp.2 hlt) (sum_exp_pos hne)
    · exact ⟨_, _, List.getElem?_eq_getElem hi', List.getElem?_eq_getElem hj', hlt⟩
  · intro he
    have hew : (fpScores hib least scores)[i] = (fpScores hib least scores)[j] := by
      cases hib <;> simp [fpScores, he]
    split
    · have e1 : i < (softmax (fpScores hib least scores)).length := by simpa [softmax] using hi'
      have e2 : j < (softmax (fpScores hib least scores)).length := by simpa [softmax] using hj'
      rw [List.getElem?_eq_getElem e1, List.getElem?_eq_getElem e2, getElem_softmax, getElem_softmax, hew]
    · rw [List.getElem?_eq_getElem hi', List.getElem?_eq_getElem hj', hew]

/-- C28: a negative score is a `ValueError`, and so is an empty population. -/
theorem C28_negative (hib : Bool) {scores : List ℝ} (h : scores = [] ∨ ∃ x ∈ scores, x < 0) :
    fpDistribution hib scores = .error .valueError := by
  unfold fpDistribution
  cases hm : scores.min? with
  | none => rfl
  | some least =>
    rcases h with rfl | ⟨x, hx, hx0⟩
    · simp at hm
    · dsimp only
      rw [if_pos ((min_le hm x hx).trans_lt hx0)]

/-! ## Drawing -/

theorem countP_range_of {f : Nat → Bool} (hf : ∀ i j, i ≤ j → f j = true → f i = true) (n : Nat) :
    ∀ i < n, (f i = true ↔ i < (List.range n).countP f) := by
  induction n with
  | zero => intro i hi; omega
  | succ n ih =>
    intro i hi
    have hle : (List.range n).countP f ≤ n := by have := List.countP_le_length (l := List.range n) (p := f); simpa using this
    rw [List.range_succ, List.countP_append]
    by_cases hn : f n = true
    · have hall : ∀ k < n, f k = true := fun k hk => hf k n (by omega) hn
      have : (List.range n).countP f = n := by
        rw [List.countP_eq_length.2 (by intro k hk; exact hall k (List.mem_range.1 hk))]; simp
      rw [this]
      simp only [List.countP_cons, List.countP_nil, hn, if_true]
      constructor
      · intro _; omega
      · intro _; exact hf i n (by omega) hn
    · simp only [List.countP_cons, List.countP_nil, hn, Bool.false_eq_true, if_false]
      by_cases hin : i = n
      · subst hin
        constructor
        · intro h; exact absurd h hn
        · intro h; omega
      · have := ih i (by omega)
        rw [this]
        simp

theorem sum_take_mono {p : List ℝ} (h0 : ∀ x ∈ p, 0 ≤ x) {i j : Nat} (hij : i ≤ j) : (p.take i).sum ≤ (p.take j).sum := by
  have e : p.take j = p.take i ++ (p.drop i).take (j - i) := by
    rw [← List.take_add]; congr 1; omega
  rw [e, List.sum_append]
  have : 0 ≤ ((p.drop i).take (j - i)).sum :=
    List.sum_nonneg fun x hx => h0 x (List.mem_of_mem_drop (List.mem_of_mem_take hx))
  linarith

/-- The position that is drawn: the interval of the cumulative sums in which the random number lies. -/
theorem lt_drawIndex {p : List ℝ} (h0 : ∀ x ∈ p, 0 ≤ x) (u : ℝ) {i : Nat} (hi : i < p.length) :
    i < drawIndex p u ↔ (p.take (i + 1)).sum ≤ u := by
  unfold drawIndex cdf
  rw [List.countP_map]
  have := countP_range_of (f := (fun x => @decide (x ≤ u) (Classical.propDecidable _)) ∘ fun i => (p.take (i + 1)).sum)
    (by
      intro a b hab hb
      simp only [Function.comp, decide_eq_true_eq] at hb ⊢
      exact (sum_take_mono h0 (by omega)).trans hb) p.length i hi
  rw [← this]
  simp

theorem drawIndex_le (p : List ℝ) (u : ℝ) : drawIndex p u ≤ p.length := by
  unfold drawIndex
  refine List.countP_le_length.trans ?_
  simp [cdf]

/-- C28: individual number `i` is selected exactly when the random number `u`, uniform in `[0, 1)`, lies in an
interval of length `p[i]`; these intervals are one behind the other. -/
theorem C28_probability {p : List ℝ} (h0 : ∀ x ∈ p, 0 ≤ x) (h1 : p.sum = 1) :
    (∀ u, 0 ≤ u → u < 1 → ∃ i, ∃ h : i < p.length, drawIndex p u = i ∧ 0 < p[i]) ∧
    ∀ i (h : i < p.length), {u : ℝ | 0 ≤ u ∧ u < 1 ∧ drawIndex p u = i} = Set.Ico (p.take i).sum ((p.take i).sum + p[i]) := by
  have key : ∀ u : ℝ, u < 1 → 0 ≤ u → ∀ i (h : i < p.length), drawIndex p u = i ↔ (p.take i).sum ≤ u ∧ u < (p.take i).sum + p[i] := by
    intro u hu hu0 i hi
    have e : (p.take (i + 1)).sum = (p.take i).sum + p[i] := by
      rw [List.take_succ_eq_append_getElem hi, List.sum_append]; simp
    have hlt := lt_drawIndex h0 u hi
    rw [e] at hlt
    constructor
    · intro hd
      refine ⟨?_, by by_contra hc; have := hlt.2 (not_lt.1 hc); omega⟩
      cases i with
      | zero => simpa using hu0
      | succ k => exact (lt_drawIndex h0 u (by omega)).1 (by omega)
    · rintro ⟨ha, hb⟩
      have h2 : ¬ i < drawIndex p u := fun hc => by have := hlt.1 hc; linarith
      have h3 : ∀ k, i = k + 1 → k < drawIndex p u := fun k hk => (lt_drawIndex h0 u (by omega)).2 (hk ▸ ha)
      cases i with
      | zero => omega
      | succ k => have := h3 k rfl; omega
  constructor
  · intro u hu0 hu
    have hlt : drawIndex p u < p.length := by
      have hle := drawIndex_le p u
      by_contra hc
      have hlen : p.length ≠ 0 := by intro h; rw [List.length_eq_zero_iff] at h; rw [h] at h1; simp at h1
      have := (lt_drawIndex h0 u (i := p.length - 1) (by omega)).1 (by omega)
      rw [show p.length - 1 + 1 = p.length by omega, List.take_length, h1] at this
      linarith
    refine ⟨_, hlt, rfl, ?_⟩
    have := (key u hu hu0 _ hlt).1 rfl
    linarith
  · intro i hi
    ext u
    simp only [Set.mem_setOf_eq, Set.mem_Ico]
    constructor
    · rintro ⟨a, b, c⟩
      exact (key u b a i hi).1 c
    · rintro ⟨a, b⟩
      have hs : (p.take (i + 1)).sum ≤ p.sum := by
        have := sum_take_mono h0 (show i + 1 ≤ p.length by omega)
        rwa [List.take_length] at this
      have e : (p.take (i + 1)).sum = (p.take i).sum + p[i] := by
        rw [List.take_succ_eq_append_getElem hi, List.sum_append]; simp
      have hu0 : 0 ≤ u := le_trans (List.sum_nonneg fun x hx => h0 x (List.mem_of_mem_take hx)) a
      have hu1 : u < 1 := by rw [← h1]; linarith
      exact ⟨hu0, hu1, (key u hu1 hu0 i hi).2 ⟨a, b⟩⟩

/-! ## The selection -/

theorem random_ensures : Ensures Rand.random fun u => 0 ≤ u ∧ u < 1 := by
  intro t
  refine ⟨_, _, rfl, ?_, ?_⟩
  · positivity
  · rw [div_lt_one (by positivity)]
    exact_mod_cast Nat.mod_lt _ (Nat.succ_pos _)

theorem drawIndices_ensures {p : List ℝ} (h0 : ∀ x ∈ p, 0 ≤ x) (h1 : p.sum = 1) (n : Nat) :
    Ensures (drawIndices n p) fun ks => ks.length = n ∧ ∀ k ∈ ks, ∃ h : k < p.length, 0 < p[k] := by
  unfold drawIndices
  refine replicateM_ensures n ?_
  intro t
  obtain ⟨u, t', hu, h⟩ := random_ensures t
  refine ⟨drawIndex p (u : ℝ), t', ?_, ?_⟩
  · rw [bind_run, hu]; rfl
  · obtain ⟨i, hi, he, hp⟩ := (C28_probability h0 h1).1 (u : ℝ) (by exact_mod_cast h.1) (by exact_mod_cast h.2)
    rw [he]
    exact ⟨hi, hp⟩

theorem keyed_length {h : List (Ind G)} {refs : List Nat} {ks : List (Nat × FVal)} (hk : keyed size h refs = .ok ks) :
    ks.length = refs.length := by
  induction refs generalizing ks with
  | nil => simp only [keyed, Except.ok.injEq] at hk; subst hk; rfl
  | cons r rs ih =>
    unfold keyed at hk
    split at hk
    · simp at hk
    · split at hk
      · simp at hk
      · rename_i l hl
        simp only [Except.ok.injEq] at hk
        subst hk
        simp [ih hl]

theorem scoresOf_length {h : List (Ind G)} {refs : List Nat} {qs : List ℚ} (hk : scoresOf size h refs = .ok qs) :
    qs.length = refs.length := by
  unfold scoresOf at hk
  split at hk
  · simp at hk
  · rename_i ks hks
    split at hk
    · simp at hk
    · simp only [Except.ok.injEq] at hk
      rw [← hk, List.length_map, keyed_length hks]

theorem cloneAt_wlp (source : List Nat) (k : Nat) (s₁ : World G) :
    wlp (cloneAt source k) (fun r s₂ => Ext (fun _ => False) s₁ s₂ ∧
      ∃ src ∈ source, source[k]? = some src ∧ CopyOf s₁ s₂ src r) s₁ := by
  unfold cloneAt
  split
  · simp
  · rename_i src hsrc
    rw [wlp_cloneSelected]
    intro i hi
    exact ⟨Ext.push _ _ rfl _, src, List.mem_of_getElem? hsrc, hsrc, copyOf_selected hi _⟩

theorem fpSelect_wlp (hib : Bool) (source dest : List Nat) (hv : Valid s source) :
    wlp (fpSelect size hib source dest) (fun res s' => Ext (fun _ => False) s s' ∧
      ∃ new, res = dest ++ new ∧ new.Nodup ∧ new.length = source.length - dest.length ∧
        ∀ r ∈ new, ∃ src ∈ source, CopyOf s s' src r) s := by
  unfold fpSelect
  rw [wlp_bind, wlp_reading]
  intro scores hsc
  rw [wlp_bind, wlp_ofExcept]
  intro p hp
  rw [wlp_bind, wlp_ofExcept]
  intro _ _
  rw [wlp_bind, wlp_rand]
  have hval := fp_valid hp
  obtain ⟨ks, t, hrun, hks⟩ := drawIndices_ensures hval.2.2.1 hval.2.2.2 (source.length - dest.length) s.tape
  intro ks' t' hrun'
  rw [hrun] at hrun'
  cases hrun'
  rw [wlp_bind]
  have e0 : Ext (fun _ => False) s { s with tape := t } := Ext.tape _ _ _
  refine (copies_wlp (R := fun k src => source[k]? = some src) ks source (s := { s with tape := t }) hv
    (fun k _ s₁ _ => cloneAt_wlp source k s₁)).mono ?_
  rintro new s' ⟨h1, h2, h3⟩
  rw [wlp_pure]
  refine ⟨(e0.trans h1).mono (by simp), new, rfl, h2, by rw [← h3.length_eq, hks.1], fun r hr => ?_⟩
  obtain ⟨n, hn, rfl⟩ := List.getElem_of_mem hr
  have hn' : n < ks.length := by rw [h3.length_eq]; exact hn
  obtain ⟨src, hm, _, hc⟩ := h3.get hn' hn
  exact ⟨src, hm, hc.left e0 (hv src hm) fun h => h⟩

theorem keyed_of {h : List (Ind G)} {refs : List Nat} {vs : List FVal}
    (hk : List.Forall₂ (fun r v => augOf size h r = .ok v) refs vs) : keyed size h refs = .ok (refs.zip vs) := by
  induction hk with
  | nil => rfl
  | cons h1 _ ih => simp only [keyed, h1, ih, List.zip_cons_cons]

theorem scoresOf_of {h : List (Ind G)} {refs : List Nat} {qs : List ℚ}
    (hk : List.Forall₂ (fun r q => augOf size h r = .ok (.num q)) refs qs) : scoresOf size h refs = .ok qs := by
  have hlen := hk.length_eq
  have hk' : List.Forall₂ (fun r v => augOf size h r = .ok v) refs (qs.map FVal.num) := by
    rw [List.forall₂_map_right_iff]; exact hk
  unfold scoresOf
  rw [keyed_of hk']
  dsimp only
  rw [if_neg]
  · have : (refs.zip (qs.map FVal.num)).map (fun p => p.2.toRat) = ((refs.zip (qs.map FVal.num)).map Prod.snd).map FVal.toRat := by
      rw [List.map_map]; rfl
    rw [this, List.map_snd_zip (by simp [hlen]), List.map_map]
    congr 1
    exact List.map_id _
  · simp only [List.any_eq_true, not_exists, not_and]
    intro p hp
    have := (List.of_mem_zip hp).2
    obtain ⟨q, -, hq⟩ := List.mem_map.1 this
    rw [← hq]
    simp [FVal.isNum]

/-- C28: if the fitness of an individual is not a number, `select` raises `TypeError` before it draws or clones. -/
theorem C28_not_a_number (hib : Bool) {source dest : List Nat} {vs : List FVal}
    (hk : List.Forall₂ (fun r v => augOf size s.heap r = .ok v) source vs) (hn : ∃ v ∈ vs, ∀ q, v ≠ .num q) :
    fpSelect size hib source dest s = (.error .typeError, s) := by
  have hs : scoresOf size s.heap source = .error .typeError := by
    unfold scoresOf
    rw [keyed_of hk]
    dsimp only
    rw [if_pos]
    obtain ⟨v, hv, hq⟩ := hn
    obtain ⟨n, hn, rfl⟩ := List.getElem_of_mem hv
    have hn' : n < source.length := by rw [hk.length_eq]; exact hn
    rw [List.any_eq_true]
    refine ⟨(source[n], vs[n]), ?_, ?_⟩
    · rw [List.mem_iff_getElem?]
      exact ⟨n, by simp [List.getElem?_zip_eq_some, List.getElem?_eq_getElem hn, List.getElem?_eq_getElem hn']⟩
    · cases hv' : vs[n] with
      | num q => exact absurd hv' (hq q)
      | none => rfl
      | obj r => rfl
  unfold fpSelect
  simp only [bind, PyM.bind, reading, PyM.get, hs, PyM.ofExcept]

/-- C28: on an evaluated population without negative scores, `select` succeeds and adds as many fresh clones as are
missing, each of an individual with a positive probability. -/
theorem C28_select (hib : Bool) {source dest : List Nat} {qs : List ℚ} (hv : Valid s source) (hne : source ≠ [])
    (hq : List.Forall₂ (fun r q => augOf size s.heap r = .ok (.num q)) source qs) (h0 : ∀ q ∈ qs, 0 ≤ q) (hd : dest.length ≤ source.length) :
    ∃ p, fpDistribution hib (qs.map fun q : ℚ => (q : ℝ)) = .ok p ∧
    wp (fpSelect size hib source dest) (fun res s' => Ext (fun _ => False) s s' ∧
      ∃ (ks new : List Nat), res = dest ++ new ∧ new.Nodup ∧ new.length = source.length - dest.length ∧
        List.Forall₂ (fun k r => ∃ src ∈ source, source[k]? = some src ∧ CopyOf s s' src r) ks new ∧
        ∀ k ∈ ks, ∃ x, p[k]? = some x ∧ 0 < x) s := by
  replace hq := scoresOf_of hq
  have hlen := scoresOf_length hq
  have hne' : qs.map (fun q : ℚ => (q : ℝ)) ≠ [] := by
    intro hc
    have : qs = [] := by simpa using hc
    rw [this] at hlen
    exact hne (List.length_eq_zero_iff.1 hlen.symm)
  obtain ⟨p, hp, hpl, hp0, hp1⟩ := C28_distribution hib hne' (by
    intro x hx
    simp only [List.mem_map] at hx
    obtain ⟨q, hq, rfl⟩ := hx
    exact_mod_cast h0 q hq)
  have hpl' : p.length = source.length := by rw [hpl, List.length_map, hlen]
  refine ⟨p, hp, ?_⟩
  unfold fpSelect
  rw [wp_bind, wp_reading]
  refine ⟨qs, hq, ?_⟩
  rw [wp_bind, wp_ofExcept]
  refine ⟨p, hp, ?_⟩
  rw [wp_bind, wp_ofExcept]
  refine ⟨(), ?_, ?_⟩
  · unfold checkChoice
    rw [if_neg]
    rintro (h | h | ⟨x, hx, hx0⟩ | h | h)
    · exact hne (List.length_eq_zero_iff.1 h)
    · exact h hpl'
    · have := hp0 x hx; linarith
    · exact h hp1
    · omega
  rw [wp_bind, wp_rand]
  obtain ⟨ks, t, hrun, hks⟩ := drawIndices_ensures hp0 hp1 (source.length - dest.length) s.tape
  refine ⟨ks, t, hrun, ?_⟩
  dsimp only
  rw [wp_bind]
  have e0 : Ext (fun _ => False) s { s with tape := t } := Ext.tape _ _ _
  refine (copies_wp (R := fun k src => source[k]? = some src) ks source (s := { s with tape := t }) hv ?_).mono ?_
  · intro k hk s₁ h1
    obtain ⟨hkl, _⟩ := hks.2 k hk
    have hk' : source[k]? = some (source[k]'(by omega)) := List.getElem?_eq_getElem (by omega)
    unfold cloneAt
    rw [hk']
    dsimp only
    rw [wp_cloneSelected]
    have hs1 : source[k]'(by omega) < s₁.heap.length :=
      lt_of_lt_of_le (hv _ (List.getElem_mem (by omega))) ((e0.trans h1).mono (by simp) : Ext (fun _ => False) s s₁).len
    exact ⟨_, List.getElem?_eq_getElem hs1, Ext.push _ _ rfl _, _, List.getElem_mem _, rfl, copyOf_selected (List.getElem?_eq_getElem hs1) _⟩
  · rintro new s' ⟨h1, h2, h3⟩
    rw [wp_pure]
    refine ⟨(e0.trans h1).mono (by simp), ks, new, rfl, h2, by rw [← h3.length_eq, hks.1], ?_, ?_⟩
    · refine h3.imp ?_
      rintro k r ⟨src, hm, hk, hc⟩
      exact ⟨src, hm, hk, hc.left e0 (hv src hm) fun h => h⟩
    · intro k hk
      obtain ⟨h, hpos⟩ := hks.2 k hk
      exact ⟨_, List.getElem?_eq_getElem h, hpos⟩

/-- Fitness-proportionate selection meets the contract of selection methods. -/
theorem fitnessProportionate_good (hib : Bool) : (fitnessProportionate size hib).Good := by
  intro source dest s hs _
  refine (fpSelect_wlp hib source dest hs).mono ?_
  rintro res s' ⟨h1, new, h2, h3, _, h4⟩
  exact ⟨h1, new, h2, h3, h4⟩

theorem fitnessProportionate_fills (hib : Bool) : (fitnessProportionate size hib).Fills := by
  intro source dest s
  unfold fitnessProportionate fpSelect
  dsimp only
  rw [wlp_bind, wlp_reading]
  intro scores hsc
  rw [wlp_bind, wlp_ofExcept]
  intro p hp
  rw [wlp_bind, wlp_ofExcept]
  intro _ _
  rw [wlp_bind, wlp_rand]
  have hval := fp_valid hp
  obtain ⟨ks, t, hrun, hks⟩ := drawIndices_ensures hval.2.2.1 hval.2.2.2 (source.length - dest.length) s.tape
  intro ks' t' hrun'
  rw [hrun] at hrun'
  cases hrun'
  rw [wlp_bind]
  refine (mapL_length _ _).mono fun new s' hn => ?_
  rw [wlp_pure]
  simp [hn, hks.1]

/-! ## C29 -/

/-- The claim of C29: with `higher_is_better`, probabilities are proportional to the scores. -/
def C29_statement : Prop :=
  ∀ (scores p : List ℝ), (∀ x ∈ scores, 0 ≤ x) → 0 < scores.sum → fpDistribution true scores = .ok p →
    ∀ i j (hi : i < scores.length) (hj : j < scores.length) (hi' : i < p.length) (hj' : j < p.length),
      p[i] * scores[j] = p[j] * scores[i]

/-- C29 is false: of the scores 0 and 2, the first is selected with a positive probability. -/
theorem C29_refuted : ¬ C29_statement := by
  intro h
  obtain ⟨p, hp, hl, -, -⟩ := C28_distribution true (scores := [0, 2]) (by simp) (by simp)
  have hp0 : ∃ h : 0 < p.length, (0 : ℝ) < p[0]'h := by
    obtain ⟨least, _, _, rfl⟩ := fpDistribution_ok hp
    rw [if_pos (by simp [fpScores])]
    refine ⟨by simp [softmax, fpScores], show (0 : ℝ) < _ from ?_⟩
    rw [getElem_softmax]
    exact div_pos (Real.exp_pos _) (sum_exp_pos (xs := fpScores true least [0, 2]) (by simp [fpScores]))
  obtain ⟨h0, hpos⟩ := hp0
  have := h [0, 2] p (by simp) (by simp) hp 0 1 (by simp) (by simp) h0 (by rw [hl]; simp)
  simp at this
  linarith

/-- C29, what holds: if the scores sum to one, they are the probabilities. -/
theorem C29_normalised_partial {scores : List ℝ} (hne : scores ≠ []) (h0 : ∀ x ∈ scores, 0 ≤ x) (h1 : scores.sum = 1) :
    fpDistribution true scores = .ok scores := by
  obtain ⟨p, hp, -⟩ := C28_distribution true hne h0
  rw [hp]
  obtain ⟨least, _, _, rfl⟩ := fpDistribution_ok hp
  simp [fpScores, h1]

/-- C29, what happens otherwise: the ratio of two probabilities is the exponential of the difference of the scores. -/
theorem C29_exponential_partial {scores p : List ℝ} (h1 : scores.sum ≠ 1) (h : fpDistribution true scores = .ok p)
    {i j : Nat} (hi : i < scores.length) (hj : j < scores.length) (hi' : i < p.length) (hj' : j < p.length) :
    p[i] = Real.exp (scores[i] - scores[j]) * p[j] := by
  obtain ⟨least, hl, h0, rfl⟩ := fpDistribution_ok h
  have hs : fpScores true least scores = scores := by simp [fpScores]
  simp only [hs, ne_eq, h1, not_false_eq_true, if_true] at hi' hj' ⊢
  rw [getElem_softmax, getElem_softmax, Real.exp_sub]
  field_simp

/-! ## Instances -/

example : ∃ p, fpDistribution false [1, 2, 0] = .ok p ∧ p.sum = 1 := by
  obtain ⟨p, h, _, _, h1⟩ := C28_distribution false (scores := [1, 2, 0]) (by simp) (by simp)
  exact ⟨p, h, h1⟩

/-- The random number 3/4 selects the second of two individuals with probabilities 1/4 and 3/4. -/
example : drawIndex [1 / 4, 3 / 4] (3 / 4) = 1 := by
  have := ((C28_probability (p := [1 / 4, 3 / 4]) (by norm_num) (by norm_num)).2 1 (by simp)).ge
    (show (3 / 4 : ℝ) ∈ Set.Ico _ _ by simp; norm_num)
  exact this.2.2

theorem exWorld_scores : List.Forall₂ (fun r q => augOf (fun _ => 1) exWorld.heap r = .ok (.num q)) [0, 1, 2] [1, 3, 2] :=
  .cons (by decide +kernel) (.cons (by decide +kernel) (.cons (by decide +kernel) .nil))

/-- `C28_select` applies to three evaluated individuals, of which one place is already taken. -/
example : ∃ p, fpDistribution true ([1, 3, 2].map fun q : ℚ => (q : ℝ)) = .ok p ∧
    wp (fpSelect (fun _ => 1) true [0, 1, 2] [1]) (fun res _ => res.length = 3) exWorld := by
  obtain ⟨p, hp, h⟩ := C28_select (size := fun _ : Nat => 1) (s := exWorld) true (source := [0, 1, 2]) (dest := [1])
    (by unfold Valid; decide) (by simp) exWorld_scores (by decide +kernel) (by decide)
  refine ⟨p, hp, h.mono ?_⟩
  rintro res s' ⟨_, ks, new, rfl, _, hl, _⟩
  simp [hl]

/-- A population whose second fitness is an object. -/
example := C28_not_a_number (size := fun _ : Nat => 1) (s := ⟨[⟨1, 0, 5, ⟨.num 3, true, true, false, false, none⟩, -1, [], [], false, []⟩,
    ⟨2, 0, 6, ⟨.obj 0, true, true, false, false, none⟩, -1, [], [], false, []⟩], 3, fun n => n⟩) true (source := [0, 1]) (dest := [])
  (vs := [.num 3, .obj 0]) (.cons rfl (.cons rfl .nil)) ⟨.obj 0, by simp, by simp⟩

end Verif.Evo
