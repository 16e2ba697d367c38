import Verif.Props.Selection
import Verif.Lemmas.Tournaments

/-! # C116: how often each individual wins a tournament -/

namespace Verif.Evo
open PyM
variable {G : Type} {size : G → Nat} {d : Bool} {s : World G} {replace : Bool} {k : Nat} {source : List Nat} {a b : Nat}

/-! ## Tournaments and draws -/

/-- The possible outcomes of the random draws of a tournament: an index into the individuals that are left — all of
them with replacement, one less for each that has been drawn without. -/
def IsDraws (replace : Bool) : (n : Nat) → List Nat → Prop
  | _, [] => True
  | n, x :: xs => x < n ∧ IsDraws replace (if replace then n else n - 1) xs

/-- The generator that produces the given draws first. -/
def prepend : List Nat → Tape → Tape
  | [], t => t
  | x :: xs, t => fun
    | 0 => x
    | n + 1 => prepend xs t n

/-- The tournament that the draws describe. -/
def tourOf (replace : Bool) : List Nat → List Nat → List Nat
  | _, [] => []
  | xs, i :: is => xs.getD i 0 :: tourOf replace (if replace then xs else xs.eraseIdx i) is

/-- `random.choices` or `random.sample`, whichever `select` uses — tournament_selection.py:64. -/
abbrev drawTour (replace : Bool) (k : Nat) (source : List Nat) : Rand (List Nat) :=
  if replace then Rand.choices source k else Rand.sample k source

theorem getD_of_lt {xs : List Nat} {i : Nat} (h : i < xs.length) : xs.getD i 0 = xs[i] := by
  rw [List.getD_eq_getElem?_getD, List.getElem?_eq_getElem h, Option.getD_some]

theorem choices_prepend (ds : List Nat) (hd : IsDraws true source.length ds) (t : Tape) :
    Rand.choices source ds.length (prepend ds t) = (.ok (tourOf true source ds), t) := by
  unfold Rand.choices
  induction ds with
  | nil => rfl
  | cons i is ih =>
    obtain ⟨hi, hd⟩ := hd
    have hn : source.length ≠ 0 := by omega
    have h1 : Rand.choice source (prepend (i :: is) t) = (.ok (source.getD i 0), prepend is t) := by
      unfold Rand.choice
      rw [if_neg hn]
      have : (Rand.next : Rand Nat) (prepend (i :: is) t) = (.ok i, prepend is t) := rfl
      rw [bind_of_ok this, Nat.mod_eq_of_lt hi, List.getElem?_eq_getElem hi, getD_of_lt hi]
      rfl
    show replicateM (is.length + 1) _ _ = _
    unfold replicateM
    rw [bind_of_ok h1, bind_of_ok (ih (by simpa using hd))]
    rfl

theorem sample_prepend (ds : List Nat) (hd : IsDraws false source.length ds) (t : Tape) :
    Rand.sample ds.length source (prepend ds t) = (.ok (tourOf false source ds), t) := by
  induction ds generalizing source with
  | nil => rfl
  | cons i is ih =>
    have hlen : ∀ (n : Nat) (l : List Nat), IsDraws false n l → l.length ≤ n := by
      intro n l
      induction l generalizing n with
      | nil => simp
      | cons x l ih =>
        rintro ⟨h1, h2⟩
        have := ih _ h2
        simp only [Bool.false_eq_true, if_false, List.length_cons] at this ⊢
        omega
    have hle := hlen _ _ hd
    obtain ⟨hi, hd⟩ := hd
    show Rand.sample (is.length + 1) _ _ = _
    unfold Rand.sample
    rw [if_neg (by simpa using hle)]
    have : (Rand.next : Rand Nat) (prepend (i :: is) t) = (.ok i, prepend is t) := rfl
    rw [bind_of_ok this, Nat.mod_eq_of_lt hi, List.getElem?_eq_getElem hi]
    show (Rand.sample is.length (source.eraseIdx i) >>= fun rest => pure (source[i] :: rest)) (prepend is t) = _
    have hd' : IsDraws false (source.eraseIdx i).length is := by
      rw [List.length_eraseIdx_of_lt hi]; simpa using hd
    rw [bind_of_ok (ih hd')]
    rw [tourOf, getD_of_lt hi]
    rfl

theorem drawTour_prepend {ds : List Nat} (hd : IsDraws replace source.length ds) (t : Tape) :
    drawTour replace ds.length source (prepend ds t) = (.ok (tourOf replace source ds), t) := by
  unfold drawTour
  cases replace with
  | true => exact choices_prepend ds hd t
  | false => exact sample_prepend ds hd t

theorem isTournament_nil : IsTournament 0 replace source [] := ⟨rfl, by simp, fun _ => List.nil_subperm⟩

theorem isTournament_cons {x : Nat} {t : List Nat} : IsTournament (k + 1) replace source (x :: t) ↔
    x ∈ source ∧ IsTournament k replace (if replace then source else source.erase x) t := by
  unfold IsTournament
  cases replace with
  | true => simp; tauto
  | false =>
    simp only [List.length_cons, Nat.add_right_cancel_iff, List.mem_cons, forall_eq_or_imp, forall_const, Bool.false_eq_true,
      if_false]
    constructor
    · rintro ⟨h1, ⟨h2, h3⟩, h4⟩
      have h5 : t.Subperm (source.erase x) := by
        have := h4.erase x
        rwa [List.erase_cons_head] at this
      exact ⟨h2, h1, fun p hp => h5.subset hp, h5⟩
    · rintro ⟨h1, h2, h3, h4⟩
      refine ⟨h2, ⟨h1, fun p hp => List.mem_of_mem_erase (h3 p hp)⟩, ?_⟩
      exact ((List.subperm_cons x).2 h4).trans (List.perm_cons_erase h1).symm.subperm

theorem tourOf_isTournament {ds : List Nat} (hn : source.Nodup) (hd : IsDraws replace source.length ds) :
    IsTournament ds.length replace source (tourOf replace source ds) := by
  induction ds generalizing source with
  | nil => exact isTournament_nil
  | cons i is ih =>
    obtain ⟨hi, hd⟩ := hd
    rw [tourOf, getD_of_lt hi]
    refine isTournament_cons.2 ⟨List.getElem_mem hi, ?_⟩
    cases replace with
    | true => exact ih hn hd
    | false =>
      simp only [Bool.false_eq_true, if_false] at hd ⊢
      rw [hn.erase_getElem i hi]
      exact ih (hn.sublist (List.eraseIdx_sublist ..)) (by rw [List.length_eraseIdx_of_lt hi]; exact hd)

theorem tourOf_surj {t : List Nat} (hn : source.Nodup) (ht : IsTournament k replace source t) :
    ∃ ds, ds.length = k ∧ IsDraws replace source.length ds ∧ tourOf replace source ds = t := by
  induction k generalizing source t with
  | zero =>
    have : t = [] := List.length_eq_zero_iff.1 ht.1
    subst this
    exact ⟨[], rfl, trivial, rfl⟩
  | succ k ih =>
    cases t with
    | nil => exact absurd ht.1 (by simp)
    | cons x t =>
      obtain ⟨hx, ht⟩ := isTournament_cons.1 ht
      obtain ⟨i, hi, rfl⟩ := List.getElem_of_mem hx
      cases replace with
      | true =>
        obtain ⟨ds, h1, h2, h3⟩ := ih hn ht
        exact ⟨i :: ds, by simp [h1], ⟨hi, h2⟩, by rw [tourOf, getD_of_lt hi]; simp [h3]⟩
      | false =>
        simp only [Bool.false_eq_true, if_false] at ht
        rw [hn.erase_getElem i hi] at ht
        obtain ⟨ds, h1, h2, h3⟩ := ih (hn.sublist (List.eraseIdx_sublist ..)) ht
        rw [List.length_eraseIdx_of_lt hi] at h2
        exact ⟨i :: ds, by simp [h1], ⟨hi, h2⟩, by rw [tourOf, getD_of_lt hi]; simp [h3]⟩

theorem tourOf_inj {ds ds' : List Nat} (hn : source.Nodup) (hd : IsDraws replace source.length ds)
    (hd' : IsDraws replace source.length ds') (h : tourOf replace source ds = tourOf replace source ds') : ds = ds' := by
  induction ds generalizing source ds' with
  | nil =>
    cases ds' with
    | nil => rfl
    | cons => simp [tourOf] at h
  | cons i is ih =>
    cases ds' with
    | nil => simp [tourOf] at h
    | cons j js =>
      obtain ⟨hi, hd⟩ := hd
      obtain ⟨hj, hd'⟩ := hd'
      rw [tourOf, tourOf, getD_of_lt hi, getD_of_lt hj] at h
      obtain ⟨h1, h2⟩ := List.cons.inj h
      obtain rfl := (List.Nodup.getElem_inj_iff hn).1 h1
      congr 1
      cases replace with
      | true => exact ih hn hd hd' h2
      | false =>
        simp only [Bool.false_eq_true, if_false] at hd hd' h2
        rw [← List.length_eraseIdx_of_lt hi] at hd hd'
        exact ih (hn.sublist (List.eraseIdx_sublist ..)) hd hd' h2

/-- C116: the tournaments are equally likely: every possible outcome of the `k` random draws produces a tournament of
`k` members of the source — distinct ones if there is no replacement — and every such tournament is produced by exactly
one outcome. -/
theorem C116_draws (hn : source.Nodup) :
    (∀ ds, ds.length = k → IsDraws replace source.length ds →
      ∃ tour, IsTournament k replace source tour ∧ ∀ t, drawTour replace k source (prepend ds t) = (.ok tour, t)) ∧
    ∀ tour, IsTournament k replace source tour →
      ∃! ds, ds.length = k ∧ IsDraws replace source.length ds ∧ ∀ t, drawTour replace k source (prepend ds t) = (.ok tour, t) := by
  constructor
  · rintro ds rfl hd
    exact ⟨_, tourOf_isTournament hn hd, drawTour_prepend hd⟩
  · intro tour ht
    obtain ⟨ds, h1, h2, h3⟩ := tourOf_surj hn ht
    refine ⟨ds, ⟨h1, h2, fun t => by subst h1 h3; exact drawTour_prepend h2 t⟩, ?_⟩
    rintro ds' ⟨h1', h2', h3'⟩
    refine tourOf_inj hn h2' h2 ?_
    have := h3' fun _ => 0
    subst h1'
    rw [drawTour_prepend h2'] at this
    simpa [h3] using this

/-! ## Winning -/

/-- The number of tournaments of `k` members of the source that `a` wins: it is the first participant that no other one
beats. -/
noncomputable def wins (size : G → Nat) (d : Bool) (s : World G) (replace : Bool) (k : Nat) (source : List Nat) (a : Nat) : Nat :=
  {tour | IsTournament k replace source tour ∧ FirstBest (Beats size d s) tour a}.ncard

/-- The number of tournaments of `k` among `n` individuals. -/
def tournaments (replace : Bool) (k n : Nat) : Nat := if replace then n ^ k else n.descFactorial k

theorem isTournament_iff (hn : source.Nodup) {t : List Nat} : IsTournament k replace source t ↔ t ∈ allTours replace k source.toFinset := by
  rw [mem_allTours]
  unfold IsTournament
  simp only [List.mem_toFinset]
  refine and_congr_right fun _ => and_congr_right fun hsub => imp_congr_right fun _ => ⟨fun h => ?_, fun h => ?_⟩
  · obtain ⟨l, hl, hs⟩ := h
    exact (hl.nodup_iff).1 (hn.sublist hs)
  · exact List.subperm_of_subset h hsub

theorem wins_eq (hn : source.Nodup) : wins size d s replace k source a = (won (Beats size d s) replace k source.toFinset a).card := by
  unfold wins
  rw [← Set.ncard_coe_finset]
  congr 1
  ext t
  simp only [Set.mem_ofPred_eq, Finset.mem_coe, mem_won, isTournament_iff hn]

open Classical in
/-- The score, such that more is better. -/
noncomputable def rankKey (size : G → Nat) (d : Bool) (s : World G) (p : Nat) : ℚ :=
  if h : ∃ x, HasScore size d s p x then (if d then h.choose else - h.choose) else 0

theorem rankKey_eq {p : Nat} {x : ℚ} (h : HasScore size d s p x) : rankKey size d s p = if d then x else -x := by
  have he : ∃ x, HasScore size d s p x := ⟨x, h⟩
  unfold rankKey
  rw [dif_pos he, he.choose_spec.unique h]

theorem beats_key (he : Evaluated size d s source) : ∀ p ∈ source.toFinset, ∀ q ∈ source.toFinset,
    Beats size d s p q ↔ rankKey size d s q < rankKey size d s p := by
  intro p hp q hq
  obtain ⟨x, hx⟩ := he p (by simpa using hp)
  obtain ⟨y, hy⟩ := he q (by simpa using hq)
  rw [beats_iff hx hy, rankKey_eq hx, rankKey_eq hy]
  unfold Preferred
  cases d <;> simp

/-- C116: if `a` is fitter than `b`, it wins at least as many of the equally likely tournaments as `b`, and more if at
least two take part and `a` can win at all against `b` (without replacement: there are enough others who are not fitter
than `a`). -/
theorem C116_favours_fitter (hn : source.Nodup) (he : Evaluated size d s source) (ha : a ∈ source) (hb : b ∈ source)
    (hab : Beats size d s a b) :
    wins size d s replace k source b ≤ wins size d s replace k source a ∧
    (2 ≤ k → (replace = false → k ≤ {p | p ∈ source ∧ ¬ Beats size d s p a}.ncard) →
      wins size d s replace k source b < wins size d s replace k source a) := by
  have hB := beats_key he
  have ha' : a ∈ source.toFinset := by simpa using ha
  have hb' : b ∈ source.toFinset := by simpa using hb
  have hlt := (hB a ha' b hb').1 hab
  rw [wins_eq hn, wins_eq hn]
  refine ⟨won_le hB ha' hb' hlt.le, fun hk hr => won_lt hB ha' hb' hlt hk fun h => (hr h).trans (Nat.le_of_eq ?_)⟩
  rw [← Set.ncard_coe_finset]
  congr 1
  ext p
  simp only [Set.mem_ofPred_eq, Finset.coe_filter, List.mem_toFinset]
  refine and_congr_right fun hp => ?_
  rw [hB p (by simpa using hp) a ha', not_lt]

/-- C116: equally fit individuals win equally many. -/
theorem C116_equal (hn : source.Nodup) (he : Evaluated size d s source) (ha : a ∈ source) (hb : b ∈ source)
    (h1 : ¬ Beats size d s a b) (h2 : ¬ Beats size d s b a) :
    wins size d s replace k source b = wins size d s replace k source a := by
  have hB := beats_key he
  have ha' : a ∈ source.toFinset := by simpa using ha
  have hb' : b ∈ source.toFinset := by simpa using hb
  rw [hB a ha' b hb', not_lt] at h1
  rw [hB b hb' a ha', not_lt] at h2
  rw [wins_eq hn, wins_eq hn]
  exact Nat.le_antisymm (won_le hB ha' hb' h2) (won_le hB hb' ha' h1)

/-- C116: the exact number.  If `e` individuals (`a` included) are as fit as `a` and `w` are less fit, then each of the `e`
wins the same part of those tournaments that take place among these `e + w` but not among the `w` only. -/
theorem C116_count (hn : source.Nodup) (he : Evaluated size d s source) (ha : a ∈ source) (hk : 0 < k) {e w : Nat}
    (hE : {p | p ∈ source ∧ ¬ Beats size d s p a ∧ ¬ Beats size d s a p}.ncard = e)
    (hW : {p | p ∈ source ∧ Beats size d s a p}.ncard = w) :
    e * wins size d s replace k source a = tournaments replace k (e + w) - tournaments replace k w := by
  have hB := beats_key he
  have ha' : a ∈ source.toFinset := by simpa using ha
  have h1 : e = (source.toFinset.filter fun p => rankKey size d s p = rankKey size d s a).card := by
    rw [← hE, ← Set.ncard_coe_finset]
    congr 1
    ext p
    simp only [Set.mem_ofPred_eq, Finset.coe_filter, List.mem_toFinset]
    refine and_congr_right fun hp => ?_
    rw [hB p (by simpa using hp) a ha', hB a ha' p (by simpa using hp), not_lt, not_lt]
    exact ⟨fun h => le_antisymm h.1 h.2, fun h => ⟨h.le, h.ge⟩⟩
  have h2 : w = (source.toFinset.filter fun p => rankKey size d s p < rankKey size d s a).card := by
    rw [← hW, ← Set.ncard_coe_finset]
    congr 1
    ext p
    simp only [Set.mem_ofPred_eq, Finset.coe_filter, List.mem_toFinset]
    refine and_congr_right fun hp => ?_
    rw [hB a ha' p (by simpa using hp)]
  have h3 : (source.toFinset.filter fun p => rankKey size d s p ≤ rankKey size d s a).card = e + w := by
    rw [h1, h2, ← Finset.card_union_of_disjoint]
    · congr 1
      ext p
      simp only [Finset.mem_filter, Finset.mem_union, ← and_or_left]
      refine and_congr_right fun _ => ?_
      rw [le_iff_lt_or_eq, or_comm]
    · rw [Finset.disjoint_left]
      intro p hp hq
      have e1 := (Finset.mem_filter.1 hp).2
      have e2 := (Finset.mem_filter.1 hq).2
      exact e2.ne e1
  have := won_count (replace := replace) hB ha' hk
  rw [h3, ← h1, ← h2, ← wins_eq hn] at this
  exact this

/-- C116: in particular an individual that is fitter than all others wins all tournaments but those it does not take part
in. -/
theorem C116_best (hn : source.Nodup) (he : Evaluated size d s source) (ha : a ∈ source) (hk : 0 < k)
    (hbest : ∀ p ∈ source, p ≠ a → Beats size d s a p) :
    wins size d s replace k source a = tournaments replace k source.length - tournaments replace k (source.length - 1) := by
  have h1 : {p | p ∈ source ∧ ¬ Beats size d s p a ∧ ¬ Beats size d s a p} = {a} := by
    ext p
    simp only [Set.mem_ofPred_eq, Set.mem_singleton_iff]
    constructor
    · rintro ⟨hp, -, h⟩
      by_contra hne
      exact h (hbest p hp hne)
    · rintro rfl
      exact ⟨ha, beats_irrefl, beats_irrefl⟩
  have h2 : {p | p ∈ source ∧ Beats size d s a p} = ((source.toFinset.erase a : Finset Nat) : Set Nat) := by
    ext p
    simp only [Set.mem_ofPred_eq, Finset.coe_erase, List.coe_toFinset, Set.mem_sdiff, Set.mem_singleton_iff]
    constructor
    · rintro ⟨hp, h⟩
      exact ⟨hp, fun hc => beats_irrefl (hc ▸ h)⟩
    · rintro ⟨hp, h⟩
      exact ⟨hp, hbest p hp h⟩
  have hc : (source.toFinset.erase a).card = source.length - 1 := by
    rw [Finset.card_erase_of_mem (by simpa using ha), List.toFinset_card_of_nodup hn]
  have := C116_count (replace := replace) hn he ha hk (e := 1) (w := source.length - 1) (by rw [h1]; exact Set.ncard_singleton a)
    (by rw [h2, Set.ncard_coe_finset, hc])
  have hl : 0 < source.length := List.length_pos_of_mem ha
  rwa [Nat.one_mul, show 1 + (source.length - 1) = source.length by omega] at this

/-! ## Selection -/

/-- C116: the individuals that `select` adds are clones of the winners of as many tournaments, drawn independently one after
the other. -/
theorem C116_select (dest : List Nat) (he : Evaluated size d s source) (hk : 0 < k)
    (hsz : if replace then source ≠ [] else k ≤ source.length) :
    ∃ tours t, replicateM (source.length - dest.length) (drawTour replace k source) s.tape = (.ok tours, t) ∧
      wp (tournamentSelect size k replace source dest) (fun res s' => ∃ new, res = dest ++ new ∧
        List.Forall₂ (fun tour r => ∃ a, FirstBest (Beats size d s) tour a ∧ CopyOf s s' a r) tours new) s := by
  have hv : Valid s source := he.valid
  obtain ⟨tours, t, hrun, ht⟩ := tours_ensures (source.length - dest.length) hsz s.tape
  refine ⟨tours, t, hrun, ?_⟩
  unfold tournamentSelect
  rw [wp_ite]
  refine ⟨fun h => ?_, fun _ => ?_⟩
  · exfalso
    cases replace <;> simp at h hsz
    omega
  rw [wp_bind, wp_rand]
  refine ⟨tours, t, hrun, ?_⟩
  dsimp only
  rw [wp_bind]
  have e0 : Ext (fun _ => False) s { s with tape := t } := Ext.tape _ _ _
  refine (copies_wp (R := fun tour src => FirstBest (Beats size d s) tour src) tours source
    (s := { s with tape := t }) hv ?_).mono ?_
  · intro tour htour s₁ h1
    obtain ⟨hlen, hmem, -⟩ := ht.2 tour htour
    cases tour with
    | nil => simp at hlen; omega
    | cons p ps =>
      unfold pickWinner
      dsimp only
      have e1 : Ext (fun _ => False) s s₁ := (e0.trans h1).mono (by simp)
      have he0 : Evaluated size d s (p :: ps) := fun r hr => he r (hmem r hr)
      have he1 : Evaluated size d s₁ (p :: ps) := he0.ext e1 (by simp)
      rw [wp_bind]
      refine (winnerLoop_wp p ps he1).mono ?_
      rintro w s₂ ⟨rfl, hw⟩
      rw [wp_cloneSelected]
      obtain ⟨x, hx⟩ := he1 w hw.mem
      have hwl := hx.lt
      refine ⟨_, List.getElem?_eq_getElem hwl, Ext.push _ _ rfl _, w, hmem w hw.mem, ?_,
        copyOf_selected (List.getElem?_eq_getElem hwl) _⟩
      have hiff : ∀ q ∈ p :: ps, ∀ q' ∈ p :: ps, Beats size d s₂ q q' ↔ Beats size d s q q' := by
        intro q hq q' hq'
        obtain ⟨y, hy⟩ := he0 q hq
        obtain ⟨z, hz⟩ := he0 q' hq'
        rw [beats_iff hy hz, beats_iff (hy.ext e1 fun h => h) (hz.ext e1 fun h => h)]
      have hwm := hw.mem
      obtain ⟨pre, post, hl, g1, g2⟩ := hw
      refine ⟨pre, post, hl, fun q hq => ?_, fun q hq => ?_⟩
      · exact (hiff w hwm q (by rw [hl]; simp [hq])).1 (g1 q hq)
      · exact fun hc => g2 q hq ((hiff q (by rw [hl]; simp [hq]) w hwm).2 hc)
  · rintro new s' ⟨h1, h2, h3⟩
    rw [wp_pure]
    refine ⟨new, rfl, h3.imp ?_⟩
    rintro tour r ⟨src, hs, hm, hc⟩
    exact ⟨src, hm, hc.left e0 (hv src hs) fun h => h⟩

/-! ## Examples -/

theorem exWorld_beats : ∀ p ∈ [0, 1, 2], p ≠ 1 → Beats (fun _ => 1) true exWorld 1 p := by
  intro p hp hne
  simp only [List.mem_cons, List.not_mem_nil, or_false] at hp
  rcases hp with rfl | rfl | rfl
  · exact ⟨3, 1, ⟨_, none, 3, rfl, ⟨rfl, rfl, rfl, rfl⟩, rfl⟩, ⟨_, none, 1, rfl, ⟨rfl, rfl, rfl, rfl⟩, rfl⟩, by
      show (1 : ℚ) < 3; decide +kernel⟩
  · exact absurd rfl hne
  · exact ⟨3, 2, ⟨_, none, 3, rfl, ⟨rfl, rfl, rfl, rfl⟩, rfl⟩, ⟨_, none, 2, rfl, ⟨rfl, rfl, rfl, rfl⟩, rfl⟩, by
      show (2 : ℚ) < 3; decide +kernel⟩

/-- Among three individuals the best wins five of the nine tournaments of two. -/
example : wins (fun _ => 1) true exWorld true 2 [0, 1, 2] 1 = 5 :=
  C116_best (by decide) exWorld_evaluated (by simp) (by decide) exWorld_beats

example : wins (fun _ => 1) true exWorld false 2 [0, 1, 2] 0 < wins (fun _ => 1) true exWorld false 2 [0, 1, 2] 1 := by
  refine (C116_favours_fitter (by decide) exWorld_evaluated (by simp) (by simp) (exWorld_beats 0 (by simp) (by decide))).2
    (by decide) fun _ => ?_
  have : {p | p ∈ [0, 1, 2] ∧ ¬ Beats (fun _ => 1) true exWorld p 1} = ((({0, 1, 2} : Finset Nat)) : Set Nat) := by
    ext p
    simp only [Set.mem_ofPred_eq, Finset.coe_insert, Finset.coe_singleton, Set.mem_insert_iff, Set.mem_singleton_iff,
      List.mem_cons, List.not_mem_nil, or_false]
    refine ⟨fun h => h.1, fun h => ⟨h, fun hc => ?_⟩⟩
    by_cases h1 : p = 1
    · subst h1; exact beats_irrefl hc
    · exact beats_irrefl (beats_trans hc (exWorld_beats p (by simpa using h) h1))
  rw [this, Set.ncard_coe_finset]
  decide

example := C116_draws (replace := false) (k := 2) (source := [0, 1, 2]) (by decide)

/-- Two equally fit individuals. -/
def exTie : World Nat :=
  ⟨[⟨1, 0, 10, exFit (.num 3), -1, [], [], false, []⟩, ⟨2, 0, 30, exFit (.num 3), -1, [], [], false, []⟩], 3, fun n => n⟩

theorem exTie_score (p : Nat) (hp : p ∈ [0, 1]) : HasScore (fun _ => 1) true exTie p 3 := by
  simp only [List.mem_cons, List.not_mem_nil, or_false] at hp
  rcases hp with rfl | rfl
  · exact ⟨_, none, 3, rfl, ⟨rfl, rfl, rfl, rfl⟩, rfl⟩
  · exact ⟨_, none, 3, rfl, ⟨rfl, rfl, rfl, rfl⟩, rfl⟩

theorem exTie_equal (p q : Nat) (hp : p ∈ [0, 1]) (hq : q ∈ [0, 1]) : ¬ Beats (fun _ => 1) true exTie p q := by
  rw [beats_iff (exTie_score p hp) (exTie_score q hq)]
  exact lt_irrefl (3 : ℚ)

example : wins (fun _ => 1) true exTie true 5 [0, 1] 1 = wins (fun _ => 1) true exTie true 5 [0, 1] 0 :=
  C116_equal (by decide) (fun r hr => ⟨3, exTie_score r hr⟩) (by simp) (by simp) (exTie_equal _ _ (by simp) (by simp))
    (exTie_equal _ _ (by simp) (by simp))

example := fun e w => C116_count (a := 0) (replace := true) (k := 2) (e := e) (w := w) (by decide) exWorld_evaluated (by simp) (by decide)
example := C116_select (replace := false) (k := 2) [] exWorld_evaluated (by decide) (by decide)

end Verif.Evo
