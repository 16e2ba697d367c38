import Verif.Lemmas.SortFitness
import Mathlib.Tactic.Tauto

/-! # C26, C27, C46: tournament and elitism selection; best and worst individual -/

namespace Verif.Evo
open PyM
variable {G : Type} {size : G → Nat} {d : Bool} {s s' : World G}

/-! ## C26: tournament selection -/

/-- A tournament: `k` participants taken from the source; without replacement they are distinct members
of it. -/
def IsTournament (k : Nat) (replace : Bool) (source tour : List Nat) : Prop :=
  tour.length = k ∧ (∀ p ∈ tour, p ∈ source) ∧ (replace = false → tour.Subperm source)

theorem tours_post (k : Nat) (replace : Bool) (source : List Nat) (n : Nat) :
    Post (replicateM n (if replace then Rand.choices source k else Rand.sample k source))
      (fun tours => tours.length = n ∧ ∀ t ∈ tours, IsTournament k replace source t) := by
  refine replicateM_post n ?_
  cases replace with
  | true =>
    simp only [if_true]
    exact (Rand.choices_post source k).mono fun t h => ⟨h.1, h.2, by simp⟩
  | false =>
    simp only [Bool.false_eq_true, if_false]
    exact (Rand.sample_post k source).mono fun t h => ⟨h.2, fun p hp => h.1.subset hp, fun _ => h.1⟩

theorem tours_ensures {k : Nat} {replace : Bool} {source : List Nat} (n : Nat)
    (h : if replace then source ≠ [] else k ≤ source.length) :
    Ensures (replicateM n (if replace then Rand.choices source k else Rand.sample k source))
      (fun tours => tours.length = n ∧ ∀ t ∈ tours, IsTournament k replace source t) := by
  refine replicateM_ensures n ?_
  cases replace with
  | true =>
    simp only [if_true] at h ⊢
    exact (Rand.choices_ensures h k).mono fun t h => ⟨h.1, h.2, by simp⟩
  | false =>
    simp only [Bool.false_eq_true, if_false] at h ⊢
    exact (Rand.sample_ensures k source h).mono fun t h => ⟨h.2, fun p hp => h.1.subset hp, fun _ => h.1⟩

theorem pickWinner_wlp (tour source : List Nat) (hm : ∀ p ∈ tour, p ∈ source) (s₁ : World G) :
    wlp (pickWinner size tour) (fun r s₂ => Ext (fun _ => False) s₁ s₂ ∧
      ∃ src ∈ source, src ∈ tour ∧ CopyOf s₁ s₂ src r) s₁ := by
  cases tour with
  | nil => simp [pickWinner]
  | cons t ts =>
    unfold pickWinner
    dsimp only
    rw [wlp_bind]
    refine (winnerLoop_wlp t ts).mono ?_
    rintro w _ ⟨rfl, hw⟩
    rw [wlp_cloneSelected]
    intro i hi
    exact ⟨Ext.push _ _ rfl _, w, hm w hw, hw, copyOf_selected hi _⟩

/-- C26: whatever the fitness values, a successful `select` extends the destination to the size of the
source by fresh clones of participants of tournaments of the configured size, and modifies nothing. -/
theorem C26_fills (k : Nat) (replace : Bool) (source dest : List Nat) (hv : Valid s source) :
    wlp (tournamentSelect size k replace source dest) (fun res s' =>
      Ext (fun _ => False) s s' ∧ ∃ tours new, res = dest ++ new ∧ new.Nodup ∧
        new.length = source.length - dest.length ∧
        (∀ t ∈ tours, IsTournament k replace source t) ∧
        List.Forall₂ (fun t r => ∃ src ∈ t, CopyOf s s' src r) tours new) s := by
  unfold tournamentSelect
  rw [wlp_ite]
  refine ⟨fun _ => by simp, fun _ => ?_⟩
  rw [wlp_bind, wlp_rand]
  refine ((tours_post k replace source _).wlp _).mono fun tours t ht => ?_
  rw [wlp_bind]
  refine (copies_wlp (R := fun tour src => src ∈ tour) tours source (s := { s with tape := t }) hv
    (fun tour htour s₁ _ => pickWinner_wlp tour source (ht.2 tour htour).2.1 s₁)).mono ?_
  rintro new s' ⟨h1, h2, h3⟩
  rw [wlp_pure]
  have e0 : Ext (fun _ => False) s { s with tape := t } := Ext.tape _ _ _
  refine ⟨(e0.trans h1).mono (by simp), tours, new, rfl, h2, ?_, ht.2, ?_⟩
  · rw [← h3.length_eq, ht.1]
  · refine h3.imp ?_
    rintro tour r ⟨src, hs, hm, hc⟩
    exact ⟨src, hm, hc.left e0 (hv src hs) fun h => h⟩

/-- C26: on an evaluated population `select` succeeds, and every added individual is a fresh clone of a
participant that no participant of its tournament beats. -/
theorem C26_tournament {k : Nat} {replace : Bool} {source : List Nat} (dest : List Nat)
    (he : Evaluated size d s source) (hk : 0 < k)
    (hsz : if replace then source ≠ [] else k ≤ source.length) :
    wp (tournamentSelect size k replace source dest) (fun res s' =>
      Ext (fun _ => False) s s' ∧ ∃ tours new, res = dest ++ new ∧ new.Nodup ∧
        new.length = source.length - dest.length ∧
        (∀ t ∈ tours, IsTournament k replace source t) ∧
        List.Forall₂ (fun t r => ∃ src ∈ t, (∀ p ∈ t, ¬ Beats size d s p src) ∧
          CopyOf s s' src r) tours new) s := by
  have hv : Valid s source := he.valid
  unfold tournamentSelect
  rw [wp_ite]
  refine ⟨fun h => ?_, fun _ => ?_⟩
  · exfalso
    cases replace <;> simp at h hsz
    omega
  rw [wp_bind, wp_rand]
  have hens := tours_ensures (source.length - dest.length) hsz s.tape
  obtain ⟨tours, t, hrun, ht⟩ := hens
  refine ⟨tours, t, hrun, ?_⟩
  dsimp only
  rw [wp_bind]
  have e0 : Ext (fun _ => False) s { s with tape := t } := Ext.tape _ _ _
  refine (copies_wp (R := fun tour src => src ∈ tour ∧ ∀ p ∈ tour, ¬ Beats size d s p src) tours source
    (s := { s with tape := t }) hv ?_).mono ?_
  · intro tour htour s₁ h1
    obtain ⟨hlen, hmem, -⟩ := ht.2 tour htour
    cases tour with
    | nil => simp at hlen; omega
    | cons p ps =>
      unfold pickWinner
      dsimp only
      have e1 : Ext (fun _ => False) s s₁ := (e0.trans h1).mono (by simp)
      have he1 : Evaluated size d s₁ (p :: ps) := Evaluated.ext (fun r hr => he r (hmem r hr)) e1 (by simp)
      rw [wp_bind]
      refine (winnerLoop_wp p ps he1).mono ?_
      rintro w _ ⟨rfl, hw⟩
      rw [wp_cloneSelected]
      obtain ⟨x, hx⟩ := he1 w hw.mem
      have hwl := hx.lt
      refine ⟨_, List.getElem?_eq_getElem hwl, Ext.push _ _ rfl _, w, hmem w hw.mem, ⟨hw.mem, ?_⟩,
        copyOf_selected (List.getElem?_eq_getElem hwl) _⟩
      rintro q hq ⟨y, z, hy, hz, hp⟩
      exact hw.not_beaten q hq ⟨y, z, hy.ext e1 (fun h => h), hz.ext e1 (fun h => h), hp⟩
  · rintro new s' ⟨h1, h2, h3⟩
    rw [wp_pure]
    refine ⟨(e0.trans h1).mono (by simp), tours, new, rfl, h2, ?_, ht.2, ?_⟩
    · rw [← h3.length_eq, ht.1]
    · refine h3.imp ?_
      rintro tour r ⟨src, hs, ⟨hm, hbest⟩, hc⟩
      exact ⟨src, hm, hbest, hc.left e0 (hv src hs) fun h => h⟩

/-- C26: without replacement a too small source is a `ValueError`, and nothing changes. -/
theorem C26_too_small {k : Nat} {source : List Nat} (dest : List Nat) (h : source.length < k) :
    tournamentSelect size k false source dest s = (.error .valueError, s) := by
  unfold tournamentSelect
  simp [h, raise]

theorem tournament_good (k : Nat) (replace : Bool) : (tournament size k replace).Good := by
  intro source dest s hs hd
  refine (C26_fills k replace source dest hs).mono ?_
  rintro res s' ⟨h1, tours, new, rfl, h2, h3, h4, h5⟩
  refine ⟨h1, new, rfl, h2, fun r hr => ?_⟩
  obtain ⟨n, hn, rfl⟩ := List.getElem_of_mem hr
  have hn' : n < tours.length := by rw [h5.length_eq]; exact hn
  obtain ⟨src, hm, hc⟩ := h5.get hn' hn
  exact ⟨src, (h4 _ (List.getElem_mem hn')).2.1 src hm, hc⟩

theorem mapL_length {σ α β : Type} {f : α → PyM σ β} (xs : List α) (s : σ) :
    wlp (mapL f xs) (fun ys _ => ys.length = xs.length) s := by
  refine wlp_mapL (I := fun xs ys _ => ys.length = xs.length) rfl ?_
  intro pre x post ys s _ h
  exact (wlp_true _ _).mono fun _ _ _ => by simp [h]

theorem tournament_fills (k : Nat) (replace : Bool) : (tournament size k replace).Fills := by
  intro source dest s
  unfold tournament tournamentSelect
  dsimp only
  rw [wlp_ite]
  refine ⟨fun _ => by simp, fun _ => ?_⟩
  rw [wlp_bind, wlp_rand]
  refine ((tours_post k replace source _).wlp _).mono fun tours t ht => ?_
  rw [wlp_bind]
  refine (mapL_length _ _).mono fun new s' hn => ?_
  rw [wlp_pure]
  simp [hn, ht.1]

/-! ## C27: elitism -/

/-- The number of elements of `xs[:n]`. -/
def prefixLength (n : Int) (len : Nat) : Nat := if 0 ≤ n then min n.toNat len else ((len : Int) + n).toNat

theorem slice_zero {α : Type} (xs : List α) (n : Int) :
    Py.slice xs 0 n = xs.take (prefixLength n xs.length) := by
  unfold Py.slice Py.clamp prefixLength
  by_cases h : n < 0
  · have : ¬ 0 ≤ n := by omega
    simp [h, this]
  · have : 0 ≤ n := by omega
    simp [h, this]

theorem prefixLength_le (n : Int) (len : Nat) : prefixLength n len ≤ len := by
  unfold prefixLength; split <;> omega

/-- C27: elitism appends clones of the `num_elites` best individuals, best first, ties in population
order; no individual left out beats one taken. -/
theorem C27_elitism {source : List Nat} (n : Int) (dest : List Nat) (he : Evaluated size d s source) :
    wp (elitismSelect size n d source dest) (fun res s' => Ext (fun _ => False) s s' ∧
      ∃ taken left new, (taken ++ left).Perm source ∧ taken.length = prefixLength n source.length ∧
        taken.Pairwise (fun a b => ¬ Beats size d s b a) ∧
        (∀ t ∈ taken, ∀ o ∈ left, ¬ Beats size d s o t) ∧
        (∀ p : Nat → Bool, (∀ a b, p a → p b → ¬ Beats size d s a b) →
          (taken ++ left).filter p = source.filter p) ∧
        res = dest ++ new ∧ new.Nodup ∧ List.Forall₂ (fun src r => CopyOf s s' src r) taken new) s := by
  obtain ⟨l, h1, h2, h3, h4⟩ := sortedByFitness_eq he d
  simp only [if_true] at h3
  unfold elitismSelect
  rw [wp_bind, wp_reading]
  refine ⟨l, h1, ?_⟩
  rw [wp_bind, slice_zero]
  have hmem : ∀ r ∈ l.take (prefixLength n l.length), r ∈ source := fun r hr =>
    h2.subset (List.mem_of_mem_take hr)
  refine (copies_wp (R := fun x src => src = x) (l.take (prefixLength n l.length)) source he.valid ?_).mono ?_
  · intro r hr s₁ e1
    rw [wp_cloneSelected]
    have hlt : r < s₁.heap.length := lt_of_lt_of_le (he.valid r (hmem r hr)) e1.len
    exact ⟨_, List.getElem?_eq_getElem hlt, Ext.push _ _ rfl _, r, hmem r hr, rfl,
      copyOf_selected (List.getElem?_eq_getElem hlt) _⟩
  · rintro new s' ⟨e1, hnd, hf⟩
    rw [wp_pure]
    have hpw : (l.take (prefixLength n l.length) ++ l.drop (prefixLength n l.length)).Pairwise
        (fun a b => ¬ Beats size d s b a) := by rw [List.take_append_drop]; exact h3
    rw [List.pairwise_append] at hpw
    refine ⟨e1, l.take (prefixLength n l.length), l.drop (prefixLength n l.length), new, ?_, ?_,
      hpw.1, fun t ht o ho => hpw.2.2 t ht o ho, ?_, rfl, hnd, ?_⟩
    · rw [List.take_append_drop]; exact h2
    · rw [List.length_take, h2.length_eq, min_eq_left (prefixLength_le _ _)]
    · intro p hp; rw [List.take_append_drop]; exact h4 p hp
    · refine hf.imp ?_
      rintro r c ⟨src, -, rfl, hc⟩
      exact hc

theorem elitism_wlp (n : Int) (hib : Bool) (source dest : List Nat) (hs : Valid s source) :
    wlp (elitismSelect size n hib source dest) (fun res s' => Ext (fun _ => False) s s' ∧
      ∃ new, res = dest ++ new ∧ new.Nodup ∧ new.length = prefixLength n source.length ∧
        ∀ r ∈ new, ∃ src ∈ source, CopyOf s s' src r) s := by
  unfold elitismSelect
  rw [wlp_bind, wlp_reading]
  intro l hl
  have hperm : l.Perm source := by
    unfold sortedByFitness at hl
    cases hk : keyed size s.heap source with
    | error e => simp [hk] at hl
    | ok ks =>
      have hfst : ks.map Prod.fst = source := by
        clear hl hs
        induction source generalizing ks with
        | nil => simp [keyed] at hk; simp [← hk]
        | cons r rs ih =>
          unfold keyed at hk
          cases ha : augOf size s.heap r with
          | error e => simp [ha] at hk
          | ok v =>
            cases hr : keyed size s.heap rs with
            | error e => simp [ha, hr] at hk
            | ok l' =>
              simp only [ha, hr, Except.ok.injEq] at hk
              subst hk
              simp [ih l' hr]
      simp only [hk] at hl
      split at hl
      · cases hl
      · simp only [Except.ok.injEq] at hl
        rw [← hl, ← hfst]
        exact (Py.sortBy_perm _ _).map _
  rw [wlp_bind, slice_zero]
  have hmem : ∀ r ∈ l.take (prefixLength n l.length), r ∈ source := fun r hr =>
    hperm.subset (List.mem_of_mem_take hr)
  refine (copies_wlp (R := fun x src => src = x) (l.take (prefixLength n l.length)) source hs ?_).mono ?_
  · intro r hr s₁ e1
    rw [wlp_cloneSelected]
    intro i hi
    exact ⟨Ext.push _ _ rfl _, r, hmem r hr, rfl, copyOf_selected hi _⟩
  · rintro new s' ⟨e1, hnd, hf⟩
    rw [wlp_pure]
    refine ⟨e1, new, rfl, hnd, ?_, fun r hr => ?_⟩
    · rw [← hf.length_eq, List.length_take, hperm.length_eq, min_eq_left (prefixLength_le _ _)]
    · obtain ⟨k, hk, rfl⟩ := List.getElem_of_mem hr
      obtain ⟨src, hm, -, hc⟩ := hf.get (by rw [hf.length_eq]; exact hk) hk
      exact ⟨src, hm, hc⟩

theorem elitism_good (n : Int) (hib : Bool) : (elitism size n hib).Good := by
  intro source dest s hs hd
  refine (elitism_wlp n hib source dest hs).mono ?_
  rintro res s' ⟨h1, new, h2, h3, -, h5⟩
  exact ⟨h1, new, h2, h3, h5⟩

/-! ## C46: best and worst individual -/

/-- The first best element of a list is unique. -/
theorem FirstBest.unique {l : List Nat} {a b : Nat} (ha : FirstBest (Beats size d s) l a)
    (hb : FirstBest (Beats size d s) l b) : a = b := by
  by_contra hne
  have h1 := ha.not_beaten b hb.mem
  have h2 := hb.not_beaten a ha.mem
  obtain ⟨pre, post, hl, hp, -⟩ := ha
  obtain ⟨pre', post', hl', hp', -⟩ := hb
  rw [hl] at hl'
  rcases List.append_eq_append_iff.1 hl' with ⟨c, rfl, hc⟩ | ⟨c, rfl, hc⟩
  · cases c with
    | nil => simp only [List.nil_append, List.cons.injEq] at hc; exact hne hc.1
    | cons x xs =>
      simp only [List.cons_append, List.cons.injEq] at hc
      obtain ⟨rfl, -⟩ := hc
      exact h1 (hp' a (by simp))
  · cases c with
    | nil => simp only [List.nil_append, List.cons.injEq] at hc; exact hne hc.1.symm
    | cons x xs =>
      simp only [List.cons_append, List.cons.injEq] at hc
      obtain ⟨rfl, -⟩ := hc
      exact h2 (hp b (by simp))

theorem first_of_sorted {B : Nat → Nat → Prop} {r : Nat} {l refs rest : List Nat} (hl : l = r :: rest)
    (hperm : l.Perm refs) (hpw : l.Pairwise (fun a b => ¬ B b a))
    (hirr : ∀ a, ¬ B a a) (hneg : ∀ a b c, a ∈ refs → b ∈ refs → c ∈ refs → ¬ B a b → ¬ B b c → ¬ B a c)
    (hst : ∀ p : Nat → Bool, (∀ a b, p a → p b → ¬ B a b) → l.filter p = refs.filter p) :
    FirstBest B refs r := by
  classical
  have hr : r ∈ refs := hperm.subset (by simp [hl])
  have hnb : ∀ a ∈ refs, ¬ B a r := by
    intro a ha
    have : a ∈ l := hperm.symm.subset ha
    rw [hl] at this hpw
    simp only [List.mem_cons] at this
    rcases this with rfl | h
    · exact hirr a
    · exact (List.pairwise_cons.1 hpw).1 a h
  have key := hst (fun a => decide (a ∈ refs ∧ ¬ B r a)) (by
    intro a b ha hb
    simp only [decide_eq_true_eq] at ha hb
    exact hneg a r b ha.1 hr hb.1 (hnb a ha.1) hb.2)
  rw [hl, List.filter_cons_of_pos (by simp [hr, hirr])] at key
  obtain ⟨pre, post, h1, h2, h3, h4⟩ := List.filter_eq_cons_iff.1 key.symm
  refine ⟨pre, post, h1, fun p hp => ?_, fun p hp => hnb p (by simp [h1, hp])⟩
  have := h2 p hp
  simp only [decide_eq_true_eq, not_and, not_not] at this
  exact this (by simp [h1, hp])

theorem not_beats_neg {refs : List Nat} (he : Evaluated size d s refs) (a b c : Nat)
    (ha : a ∈ refs) (hb : b ∈ refs) (hc : c ∈ refs) (h1 : ¬ Beats size d s a b)
    (h2 : ¬ Beats size d s b c) : ¬ Beats size d s a c := by
  obtain ⟨x, hx⟩ := he a ha
  obtain ⟨y, hy⟩ := he b hb
  obtain ⟨z, hz⟩ := he c hc
  rw [beats_iff hx hy] at h1
  rw [beats_iff hy hz] at h2
  rw [beats_iff hx hz]
  exact not_preferred_trans h1 h2

/-- C46: `get_best_individual` is the first individual that no other beats. -/
theorem C46_best {inds : List Nat} (he : Evaluated size d s inds) (hne : inds ≠ []) :
    ∃ r, bestIndividual size s.heap d inds = .ok r ∧ FirstBest (Beats size d s) inds r := by
  obtain ⟨l, h1, h2, h3, h4⟩ := sortedByFitness_eq he d
  simp only [if_true] at h3
  unfold bestIndividual
  rw [h1]
  cases l with
  | nil => exact absurd h2.symm.eq_nil hne
  | cons r rest =>
    exact ⟨r, rfl, first_of_sorted rfl h2 h3 (fun a => beats_irrefl) (not_beats_neg he) h4⟩

/-- C46: `get_worst_individual` is the first individual that beats no other. -/
theorem C46_worst {inds : List Nat} (he : Evaluated size d s inds) (hne : inds ≠ []) :
    ∃ r, worstIndividual size s.heap d inds = .ok r ∧
      FirstBest (fun a b => Beats size d s b a) inds r ∧ ∀ p ∈ inds, ¬ Beats size d s r p := by
  obtain ⟨l, h1, h2, h3, h4⟩ := sortedByFitness_eq he (!d)
  have hd : ¬ (!d) = d := by cases d <;> simp
  simp only [hd, if_false] at h3
  unfold worstIndividual
  rw [h1]
  cases l with
  | nil => exact absurd h2.symm.eq_nil hne
  | cons r rest =>
    have hf := first_of_sorted (B := fun a b => Beats size d s b a) rfl h2 h3 (fun a => beats_irrefl)
      (fun a b c ha hb hc hab hbc => not_beats_neg he c b a hc hb ha hbc hab)
      (fun p hp => h4 p fun a b ha hb => hp b a hb ha)
    refine ⟨r, rfl, hf, fun p hp => ?_⟩
    have hp' : p ∈ r :: rest := h2.symm.subset hp
    simp only [List.mem_cons] at hp'
    rcases hp' with rfl | h
    · exact beats_irrefl
    · exact (List.pairwise_cons.1 h3).1 p h

/-- C46: the best individual of an evaluated population is the very individual found by the loop of the
population evaluator (same tie-breaking). -/
theorem C46_same_as_evaluator {b : Nat} {rest : List Nat} (he : Evaluated size d s (b :: rest)) :
    ∃ r, bestIndividual size s.heap d (b :: rest) = .ok r ∧ bestLoop size b rest s = (.ok r, s) := by
  obtain ⟨r, hr, hf⟩ := C46_best he (by simp)
  refine ⟨r, hr, ?_⟩
  have heq : ∀ (b : Nat) rest, bestLoop size b rest = winnerLoop (G := G) size b rest := by
    intro b rest
    induction rest generalizing b with
    | nil => rfl
    | cons p ps ih =>
      unfold bestLoop winnerLoop
      congr 1
      funext v
      exact ih _
  rw [heq]
  obtain ⟨r', s', hrun, rfl, hf'⟩ := winnerLoop_wp b rest he
  rw [hrun, hf.unique hf']

/-- C46: on a population with an unevaluated individual both queries are a `ValueError`. -/
theorem C46_unevaluated {inds : List Nat} {hib : Bool}
    (hall : ∀ r ∈ inds, (∃ x, HasScore size d s r x) ∨ ∃ i, s.heap[r]? = some i ∧ i.fit.evaluated = false)
    (hu : ∃ r ∈ inds, ∃ i, s.heap[r]? = some i ∧ i.fit.evaluated = false) :
    bestIndividual size s.heap hib inds = .error .valueError ∧
      worstIndividual size s.heap hib inds = .error .valueError := by
  have hk : keyed size s.heap inds = .error .valueError := by
    induction inds with
    | nil => simp at hu
    | cons r rs ih =>
      unfold keyed
      by_cases hr : ∃ i, s.heap[r]? = some i ∧ i.fit.evaluated = false
      · obtain ⟨i, hi, hev⟩ := hr
        have : augOf size s.heap r = .error .valueError := by
          simp [augOf, hi, Fit.augmented, Fit.getPure, hev]
        rw [this]
      · obtain ⟨x, hx⟩ := (hall r (by simp)).resolve_right hr
        rw [augOf_eq hx]
        obtain ⟨r', hr', h'⟩ := hu
        simp only [List.mem_cons] at hr'
        rcases hr' with rfl | hr'
        · exact absurd h' hr
        · rw [ih (fun r hr => hall r (by simp [hr])) ⟨r', hr', h'⟩]
  unfold bestIndividual worstIndividual sortedByFitness
  rw [hk]
  exact ⟨rfl, rfl⟩

/-- C46: the queries of an empty population are an `IndexError`. -/
theorem C46_empty (hib : Bool) : bestIndividual size s.heap hib [] = .error .indexError ∧
    worstIndividual size s.heap hib [] = .error .indexError := by
  constructor <;> rfl

/-- C46: the average of an evaluated population is the mean of the pure fitness values. -/
theorem C46_average {inds : List Nat} {qs : List ℚ}
    (h : List.Forall₂ (fun r q => ∃ i w, s.heap[r]? = some i ∧ Holds i.fit d w q) inds qs)
    (hne : inds ≠ []) :
    averageFitness s.heap inds = .ok (some (qs.sum / inds.length)) := by
  have hp : pureAll s.heap inds = .ok (qs.map FVal.num) := by
    clear hne
    induction h with
    | nil => rfl
    | @cons r q _ _ hr _ ih =>
      obtain ⟨i, w, hi, hh⟩ := hr
      unfold pureAll
      have : pureOf s.heap r = .ok (.num q) := by
        unfold pureOf; rw [hi]; exact hh.getPure
      rw [this, ih]
      rfl
  unfold averageFitness
  rw [hp]
  have hany : (qs.map FVal.num).any (fun v => !v.isNum) = false := by
    rw [List.any_eq_false]; simp [FVal.isNum]
  have hne' : (qs.map FVal.num).isEmpty = false := by
    cases qs with
    | nil => cases h; exact absurd rfl hne
    | cons q qs => rfl
  have hmap : (qs.map FVal.num).map FVal.toRat = qs := by
    rw [List.map_map]
    have : FVal.toRat ∘ FVal.num = id := rfl
    rw [this, List.map_id]
  simp only [hany, hne', hmap, Bool.false_eq_true, if_false, List.length_map]
  rw [h.length_eq]

/-! ## Instances -/

/-- Three evaluated individuals with fitness 1, 3, 2 (higher is better). -/
def exWorld : World Nat :=
  ⟨[⟨1, 0, 10, exFit (.num 1), -1, [], [], false, []⟩, ⟨2, 0, 30, exFit (.num 3), -1, [], [], false, []⟩,
    ⟨3, 0, 20, exFit (.num 2), -1, [], [], false, []⟩], 4, fun n => n⟩

theorem exWorld_evaluated : Evaluated (fun _ => 1) true exWorld [0, 1, 2] := by
  intro r hr
  simp only [List.mem_cons, List.not_mem_nil, or_false] at hr
  rcases hr with rfl | rfl | rfl
  · exact ⟨_, _, none, 1, rfl, ⟨rfl, rfl, rfl, rfl⟩, rfl⟩
  · exact ⟨_, _, none, 3, rfl, ⟨rfl, rfl, rfl, rfl⟩, rfl⟩
  · exact ⟨_, _, none, 2, rfl, ⟨rfl, rfl, rfl, rfl⟩, rfl⟩

example : exWorld.WF := ⟨by decide, by decide⟩

example : bestIndividual (fun _ => 1) exWorld.heap true [0, 1, 2] = .ok 1 ∧
    worstIndividual (fun _ => 1) exWorld.heap true [0, 1, 2] = .ok 0 ∧
    averageFitness exWorld.heap [0, 1, 2] = .ok (some 2) := by decide +kernel

example : ((elitismSelect (fun _ => 1) 2 true [0, 1, 2] [] exWorld).1 = .ok [3, 4]) ∧
    ((elitismSelect (fun _ => 1) 2 true [0, 1, 2] [] exWorld).2.heap.map (·.genome) =
      [10, 30, 20, 30, 20]) := by decide +kernel

example : (tournamentSelect (fun _ => 1) 2 false [0, 1, 2] [] exWorld).1 = .ok [3, 4, 5] := by
  decide +kernel

end Verif.Evo
