import Verif.Model.Statistics
import Verif.Props.GenBest
import Mathlib.Algebra.Order.BigOperators.Group.List
import Mathlib.Algebra.Order.Field.Basic
import Mathlib.Tactic.NormNum

/-! # C95: what the statistics write -/

namespace Verif.Evo
open PyM
variable {G κ : Type} {c : Cfg G κ} {s s' : Run G κ} {size : G → Nat} {sub : SubCfg G} {m : Mode}

/-- The individual at `r` holds the pure fitness `q`. -/
def PureIs (h : List (Ind G)) (r : Nat) (q : ℚ) : Prop := ∃ i, h[r]? = some i ∧ i.fit.value = .num q ∧ i.fit.evaluated = true

/-- `x` is at least as good as `y`. -/
def AtLeast (d : Bool) (x y : ℚ) : Prop := if d then y ≤ x else x ≤ y

/-- What the class `kind` writes about the one sub-population `is` of generation `n`: the numbers are the pure
fitness of the first individual that no other beats, that of the first that beats no other, and the mean of the
pure fitness values `qs` of all (with the mean of the sizes). -/
structure Report (kind : StatKind) (size : G → Nat) (d : Bool) (h : List (Ind G)) (is : List Nat) (n : Nat)
    (b w : Nat) (qs : List ℚ) (best worst : ℚ) (msgs : List Msg) : Prop where
  pure : List.Forall₂ (PureIs h) is qs
  first : FirstBest (Beats size d (ofHeap h)) is b
  last : FirstBest (fun r p => Beats size d (ofHeap h) p r) is w
  isBest : PureIs h b best
  isWorst : PureIs h w worst
  msgs : msgs = match kind with
    | .minimal => [.generation n]
    | .bestAverageWorst => [.generation n, .subpopulation 0,
        .values (.num best) (.num worst) (some (qs.sum / is.length)) none]
    | .withSize => [.generation n, .subpopulation 0,
        .values (.num best) (.num worst) (some (qs.sum / is.length))
          (some (some ((is.map fun r => (((h[r]?).map fun i => size i.genome).getD 0 : ℚ)).sum / is.length)))]

theorem pureIs_unique {h : List (Ind G)} {r : Nat} {p q : ℚ} (h1 : PureIs h r p) (h2 : PureIs h r q) : p = q := by
  obtain ⟨i, hi, hp, -⟩ := h1
  obtain ⟨j, hj, hq, -⟩ := h2
  rw [hi] at hj
  cases hj
  rw [hp] at hq
  exact FVal.num.inj hq

theorem pureOf_of {h : List (Ind G)} {r : Nat} {q : ℚ} (hq : PureIs h r q) : pureOf h r = .ok (.num q) := by
  obtain ⟨i, hi, h1, h2⟩ := hq
  simp [pureOf, hi, Fit.getPure, h1, h2]

theorem HasScore.pureIs {h : List (Ind G)} {d : Bool} {r : Nat} {x : ℚ} (hs : HasScore size d (ofHeap h) r x) :
    ∃ q, PureIs h r q := by
  obtain ⟨i, b, q, hi, hh, -⟩ := hs
  exact ⟨q, i, hi, hh.value, hh.evaluated⟩

theorem mapM_heap {h : List (Ind G)} {is : List Nat} (hv : ∀ r ∈ is, ∃ i, h[r]? = some i) :
    ∃ l, is.mapM (fun r => h[r]?) = some l ∧ l.length = is.length ∧
      l.map (fun i => (size i.genome : ℚ)) = is.map fun r => (((h[r]?).map fun i => size i.genome).getD 0 : ℚ) := by
  induction is with
  | nil => exact ⟨[], rfl, rfl, rfl⟩
  | cons r rs ih =>
    obtain ⟨i, hi⟩ := hv r (by simp)
    obtain ⟨l, h1, h2, h3⟩ := ih fun x hx => hv x (by simp [hx])
    refine ⟨i :: l, ?_, by simp [h2], ?_⟩
    · simp [List.mapM_cons, hi, h1]
    · simp [hi, h3]

/-- On a settled population the statistics write their report and raise nothing. -/
theorem writeStatistics_report (kind : StatKind) {e : Snapshot G} {is : List Nat} (hi : e.inds = [some is])
    (hd : m.hib = sub.hib) (hs : Settled size m e.heap is) :
    ∃ b w qs best worst msgs, writeStatistics kind size [sub] e = (msgs, .ok ()) ∧
      Report kind size m.hib e.heap is e.genNum b w qs best worst msgs := by
  have hev : Evaluated size m.hib (ofHeap e.heap) is := hs.evaluated
  obtain ⟨b, hb, hfb⟩ := C46_best hev hs.inhabited
  obtain ⟨w, hw, hfw, -⟩ := C46_worst hev hs.inhabited
  have hqs : ∃ qs, List.Forall₂ (PureIs e.heap) is qs := by
    have := hs.evaluated
    clear hi hs hev hb hfb hw hfw
    induction is with
    | nil => exact ⟨[], .nil⟩
    | cons r rs ih =>
      obtain ⟨qs, hqs⟩ := ih fun x hx => this x (by simp [hx])
      obtain ⟨x, hx⟩ := this r (by simp)
      obtain ⟨q, hq⟩ := hx.pureIs
      exact ⟨q :: qs, .cons hq hqs⟩
  obtain ⟨qs, hqs⟩ := hqs
  obtain ⟨x, hx⟩ := hs.evaluated b hfb.mem
  obtain ⟨best, hbest⟩ := hx.pureIs
  obtain ⟨y, hy⟩ := hs.evaluated w hfw.mem
  obtain ⟨worst, hworst⟩ := hy.pureIs
  have hlen := hqs.length_eq
  have havg : averageFitness e.heap is = .ok (some (qs.sum / is.length)) := by
    have h1 : pureAll e.heap is = .ok (qs.map FVal.num) := by
      clear hi hs hev hb hfb hw hfw hlen hx hy hbest hworst
      induction hqs with
      | nil => rfl
      | cons hq _ ih =>
        unfold pureAll
        rw [pureOf_of hq, ih]
        rfl
    have h2 : qs ≠ [] := by
      rintro rfl
      exact hs.inhabited (List.length_eq_zero_iff.1 hlen)
    unfold averageFitness
    rw [h1]
    have hany : (qs.map FVal.num).any (fun v => !v.isNum) = false := by
      rw [List.any_eq_false]; simp [FVal.isNum]
    have hmap : (qs.map FVal.num).map FVal.toRat = qs := by
      rw [List.map_map]
      have : FVal.toRat ∘ FVal.num = id := rfl
      rw [this, List.map_id]
    simp only [hany, Bool.false_eq_true, if_false, hmap, List.length_map, List.isEmpty_iff, List.map_eq_nil_iff, h2, hlen]
  have hsize : averageSize size e.heap is =
      .ok (some ((is.map fun r => (((e.heap[r]?).map fun i => size i.genome).getD 0 : ℚ)).sum / is.length)) := by
    obtain ⟨l, h1, h2, h3⟩ := mapM_heap (size := size) (h := e.heap) (is := is) fun r hr => by
      obtain ⟨x, i, -, -, hi, -⟩ := hs.evaluated r hr
      exact ⟨i, hi⟩
    unfold averageSize
    rw [h1]
    have hne : l.isEmpty = false := by
      cases l with
      | nil => exact absurd (List.length_eq_zero_iff.1 h2.symm) hs.inhabited
      | cons _ _ => rfl
    simp only [hne, Bool.false_eq_true, if_false, h3, h2]
  have hb' : bestIndividual size e.heap m.hib is = .ok b := hb
  have hw' : worstIndividual size e.heap m.hib is = .ok w := hw
  refine ⟨b, w, qs, best, worst, _, ?_, ⟨hqs, hfb, hfw, hbest, hworst, rfl⟩⟩
  cases kind <;>
    simp [writeStatistics, statLoop, statValues, hi, ← hd, hb', hw', pureOf_of hbest, pureOf_of hworst, havg, hsize]

/-- C95, for any number of sub-populations: if the values of each can be computed, the statistics write for each its
number, counted from 0, and its values, in order. -/
theorem C95_subpopulations (kind : StatKind) (hk : kind ≠ .minimal) (subs : List (SubCfg G)) (e : Snapshot G)
    {iss : List (List Nat)} (hi : e.inds = iss.map some) (hl : subs.length = iss.length) {vs : List Msg}
    (hv : List.Forall₂ (fun (p : SubCfg G × List Nat) v => statValues kind size e.heap p.1.hib p.2 = .ok v) (subs.zip iss) vs) :
    writeStatistics kind size subs e =
      (.generation e.genNum :: (vs.zipIdx.flatMap fun p => [.subpopulation p.2, p.1]), .ok ()) := by
  have key : ∀ (k : Nat) (l : List (SubCfg G × List Nat)) (vs : List Msg),
      List.Forall₂ (fun (p : SubCfg G × List Nat) v => statValues kind size e.heap p.1.hib p.2 = .ok v) l vs →
      statLoop kind size e.heap k (l.map fun p => (p.1, some p.2)) =
        ((vs.zipIdx k).flatMap fun p => [.subpopulation p.2, p.1], .ok ()) := by
    intro k l vs h
    induction h generalizing k with
    | nil => rfl
    | cons h1 _ ih => simp [statLoop, h1, ih (k + 1)]
  have hz : subs.zip e.inds = (subs.zip iss).map fun p => (p.1, some p.2) := by
    rw [hi, List.zip_map_right]
    rfl
  cases kind with
  | minimal => exact absurd rfl hk
  | bestAverageWorst => simp only [writeStatistics, hz, key 0 _ _ hv]
  | withSize => simp only [writeStatistics, hz, key 0 _ _ hv]

/-- C95: with every `after_generation` event of a run — also of a run that raises later — each statistics class
writes its lines without raising: the generation number, and for the population the pure fitness of its first
individual that no other beats (from generation 1 on that is `best_of_gen`), the pure fitness of its first
individual that beats no other, and the mean of the pure fitness values (and of the sizes). -/
theorem C95_lines (kind : StatKind) (hc : c.Ordinary sub m) (hr : s.Ready m) (hlog : s.log = [])
    (hg : s.genNum = 0) {r : Except Err Unit} (h : evolve c s = (r, s')) :
    ∀ e ∈ s'.log, e.publisher = "algorithm" → e.name = "after_generation" →
      ∃ is b w qs best worst msgs, e.snap.inds = [some is] ∧ is ≠ [] ∧
        (0 < e.snap.genNum → e.snap.bestOfGen = some b) ∧
        writeStatistics kind c.size c.subs e.snap = (msgs, .ok ()) ∧
        Report kind c.size m.hib e.snap.heap is e.snap.genNum b w qs best worst msgs := by
  intro e he h1 h2
  obtain ⟨is, hi, hset, hbest⟩ := C91_events hc hr hlog hg h e he h1 h2
  rw [hc.subs]
  obtain ⟨b, w, qs, best, worst, msgs, hw, hrep⟩ := writeStatistics_report kind hi hc.dir hset
  refine ⟨is, b, w, qs, best, worst, msgs, hi, hset.inhabited, fun hn => ?_, hw, hrep⟩
  obtain ⟨b', hb', hf'⟩ := hbest hn
  rw [hb', hf'.unique hrep.first]

/-- The full claim about the numbers: whatever the configuration, the best value is at least as good as the
average, and the average at least as good as the worst value. -/
def C95_statement : Prop :=
  ∀ (G κ : Type) (c : Cfg G κ) (sub : SubCfg G) (m : Mode) (s s' : Run G κ) (r : Except Err Unit),
    c.Ordinary sub m → s.Ready m → s.log = [] → s.genNum = 0 → evolve c s = (r, s') →
    ∀ e ∈ s'.log, e.publisher = "algorithm" → e.name = "after_generation" →
      ∀ n k best worst avg sz, writeStatistics .bestAverageWorst c.size c.subs e.snap =
        ([.generation n, .subpopulation k, .values (.num best) (.num worst) (some avg) sz], .ok ()) →
      AtLeast m.hib best avg ∧ AtLeast m.hib avg worst

theorem Settled.pure_score {h : List (Ind G)} {is : List Nat} (hs : Settled size m h is)
    (hb : m.bloat = none ∨ m.bloat = some 0) {r : Nat} (hr : r ∈ is) {q : ℚ} (hq : PureIs h r q) :
    HasScore size m.hib (ofHeap h) r q := by
  obtain ⟨x, i, b, q', hi, hh, hx⟩ := hs.evaluated r hr
  obtain ⟨j, hj, hv, hev⟩ := hq
  have hij : j = i := Option.some.inj (hj.symm.trans hi)
  subst hij
  have hqq : q' = q := FVal.num.inj (hh.value.symm.trans hv)
  subst hqq
  have hm := hs.mode r hr
  have hm' : j.mode = m := by
    have : modeAt (ofHeap h) r = some j.mode := by simp only [modeAt]; rw [hi]; rfl
    exact Option.some.inj (this.symm.trans hm)
  have hbl : b = m.bloat := by rw [← hh.bloat, ← hm']; rfl
  refine ⟨j, b, q', hi, hh, ?_⟩
  rw [hbl]
  rcases hb with hb | hb <;> rw [hb] <;> unfold score
  · rfl
  · cases m.hib <;> simp

theorem forall₂_mem_right {α β : Type} {R : α → β → Prop} {l : List α} {l' : List β} (h : List.Forall₂ R l l') :
    ∀ y ∈ l', ∃ x ∈ l, R x y := by
  induction h with
  | nil => simp
  | cons hxy _ ih =>
    rintro y hy
    rcases List.mem_cons.1 hy with rfl | hy
    · exact ⟨_, by simp, hxy⟩
    · obtain ⟨x, hx, hr⟩ := ih y hy
      exact ⟨x, by simp [hx], hr⟩

theorem mean_le {qs : List ℚ} {b : ℚ} (hne : qs ≠ []) (h : ∀ q ∈ qs, q ≤ b) : qs.sum / qs.length ≤ b := by
  have h1 : qs.sum ≤ qs.length • b := List.sum_le_card_nsmul qs b h
  have h2 : (0 : ℚ) < qs.length := by exact_mod_cast List.length_pos_of_ne_nil hne
  rw [div_le_iff₀ h2]
  rw [nsmul_eq_mul] at h1
  linarith

theorem le_mean {qs : List ℚ} {b : ℚ} (hne : qs ≠ []) (h : ∀ q ∈ qs, b ≤ q) : b ≤ qs.sum / qs.length := by
  have h1 : qs.length • b ≤ qs.sum := List.card_nsmul_le_sum qs b h
  have h2 : (0 : ℚ) < qs.length := by exact_mod_cast List.length_pos_of_ne_nil hne
  rw [le_div_iff₀ h2]
  rw [nsmul_eq_mul] at h1
  linarith

theorem FirstBest.not_beating {d : Bool} {t : World G} {l : List Nat} {w : Nat}
    (h : FirstBest (fun r p => Beats size d t p r) l w) (p : Nat) (hp : p ∈ l) : ¬ Beats size d t w p := by
  obtain ⟨pre, post, rfl, h1, h2⟩ := h
  rcases List.mem_append.1 hp with hp | hp
  · exact fun hb => beats_irrefl (beats_trans hb (h1 p hp))
  · rcases List.mem_cons.1 hp with rfl | hp
    · exact beats_irrefl
    · exact h2 p hp

/-- C95, the part that holds: without bloat control (no weight, or weight 0) the three numbers are in order,
and every pure fitness of the population lies between the worst and the best value. -/
theorem C95_ordered_partial (hc : c.Ordinary sub m) (hr : s.Ready m) (hlog : s.log = [])
    (hg : s.genNum = 0) (hb : m.bloat = none ∨ m.bloat = some 0) {r : Except Err Unit} (h : evolve c s = (r, s')) :
    ∀ e ∈ s'.log, e.publisher = "algorithm" → e.name = "after_generation" →
      ∃ is qs best worst avg, e.snap.inds = [some is] ∧ List.Forall₂ (PureIs e.snap.heap) is qs ∧
        writeStatistics .bestAverageWorst c.size c.subs e.snap = ([.generation e.snap.genNum, .subpopulation 0,
          .values (.num best) (.num worst) (some avg) none], .ok ()) ∧
        best ∈ qs ∧ worst ∈ qs ∧ (∀ q ∈ qs, AtLeast m.hib best q ∧ AtLeast m.hib q worst) ∧
        AtLeast m.hib best avg ∧ AtLeast m.hib avg worst := by
  intro e he h1 h2
  obtain ⟨is, hi, hset, -⟩ := C91_events hc hr hlog hg h e he h1 h2
  rw [hc.subs]
  obtain ⟨b, w, qs, best, worst, msgs, hw, hrep⟩ := writeStatistics_report .bestAverageWorst hi hc.dir hset
  have hmem : ∀ x ∈ is, ∀ q, PureIs e.snap.heap x q → q ∈ qs := by
    intro x hx q hq
    have : ∃ y ∈ qs, PureIs e.snap.heap x y := by
      have hp := hrep.pure
      clear hw hrep hi hset
      induction hp with
      | nil => simp at hx
      | cons hxy _ ih =>
        rcases List.mem_cons.1 hx with rfl | hx
        · exact ⟨_, by simp, hxy⟩
        · obtain ⟨y, hy, hr⟩ := ih hx
          exact ⟨y, by simp [hy], hr⟩
    obtain ⟨y, hy, hr⟩ := this
    rwa [pureIs_unique hq hr]
  have hsc : ∀ x ∈ is, ∀ q, PureIs e.snap.heap x q → HasScore c.size m.hib (ofHeap e.snap.heap) x q :=
    fun x hx q hq => hset.pure_score hb hx hq
  have hne : qs ≠ [] := by
    rintro rfl
    exact hset.inhabited (List.length_eq_zero_iff.1 hrep.pure.length_eq)
  have hall : ∀ q ∈ qs, AtLeast m.hib best q ∧ AtLeast m.hib q worst := by
    intro q hq
    obtain ⟨x, hx, hxq⟩ := forall₂_mem_right hrep.pure q hq
    have s1 := hsc x hx q hxq
    have s2 := hsc b hrep.first.mem best hrep.isBest
    have s3 := hsc w hrep.last.mem worst hrep.isWorst
    have n1 : ¬ Preferred m.hib q best := fun hp =>
      hrep.first.not_beaten x hx ⟨q, best, s1, s2, hp⟩
    have n2 : ¬ Preferred m.hib worst q := fun hp =>
      hrep.last.not_beating x hx ⟨worst, q, s3, s1, hp⟩
    unfold Preferred at n1 n2
    unfold AtLeast
    cases hm : m.hib <;> simp [hm] at n1 n2 ⊢ <;> exact ⟨n1, n2⟩
  have hlen : (is.length : ℚ) = qs.length := by rw [hrep.pure.length_eq]
  refine ⟨is, qs, best, worst, qs.sum / is.length, hi, hrep.pure, ?_, hmem b hrep.first.mem best hrep.isBest,
    hmem w hrep.last.mem worst hrep.isWorst, hall, ?_, ?_⟩
  · rw [hw, hrep.msgs]
  · rw [hlen]
    unfold AtLeast at hall ⊢
    cases hm : m.hib <;> simp only [hm, Bool.false_eq_true, if_false, if_true] at hall ⊢
    · exact le_mean hne fun q hq => (hall q hq).1
    · exact mean_le hne fun q hq => (hall q hq).1
  · rw [hlen]
    unfold AtLeast at hall ⊢
    cases hm : m.hib <;> simp only [hm, Bool.false_eq_true, if_false, if_true] at hall ⊢
    · exact mean_le hne fun q hq => (hall q hq).2
    · exact le_mean hne fun q hq => (hall q hq).2

example := C95_lines .withSize exCfg_ordinary (.inl rfl) (s := exRun) rfl rfl (s' := (evolve exCfg exRun).2)
  (ran exRun_ends.1)

example := C95_ordered_partial exCfg_ordinary (.inl rfl) (s := exRun) rfl rfl (.inl rfl)
  (s' := (evolve exCfg exRun).2) (ran exRun_ends.1)

/-- What is written in the example run. -/
example : (((evolve exCfg exRun).2.log.filter fun e => e.name = "after_generation").map fun e =>
      (writeStatistics .bestAverageWorst exCfg.size exCfg.subs e.snap).1) = [
    [.generation 1, .subpopulation 0, .values (.num 3) (.num 2) (some (7 / 3)) none],
    [.generation 2, .subpopulation 0, .values (.num 4) (.num 3) (some (10 / 3)) none]] := by decide +kernel

/-- The individuals are numbers; the fitness of a number is the number and its size twice the number, each unit
of which costs 1. -/
def exBloatSub : SubCfg Nat :=
  { exSub with
    creators := [createIndividuals 0 (fun t => (.ok (t 0 % 7), fun n => t (n + 1)))
      (fun h => ⟨.none, false, h, false, true, some 1⟩) true]
    nElite := 3
    sels := [tournament (fun g => 2 * g) 2 false] }

def exBloatCfg : Cfg Nat Nat := { exCfg with size := fun g => 2 * g, subs := [exBloatSub] }

theorem exBloatCfg_ordinary : exBloatCfg.Ordinary exBloatSub ⟨true, some 1⟩ where
  subs := rfl
  dir := rfl
  creators := by
    intro create h
    simp only [exBloatSub, List.mem_singleton] at h
    subst h
    exact createIndividuals_good _ _ _ _ ⟨rfl, rfl⟩
  sels := ⟨_, _, rfl, tournament_good _ _, tournament_fills _ _⟩
  ops := by
    intro o ho
    simp only [exBloatSub, exSub, List.mem_singleton] at ho
    subst ho
    exact Op.inPlace_good _ _ _ _
  sched := fun _ _ => List.Perm.refl _
  map := rfl

theorem exBloat_written : (((evolve exBloatCfg exRun).2.log.filter fun e =>
      e.publisher = "algorithm" && e.name = "after_generation").map fun e =>
      writeStatistics .bestAverageWorst exBloatCfg.size exBloatCfg.subs e.snap) = [
    ([.generation 1, .subpopulation 0, .values (.num 1) (.num 3) (some 2) none], .ok ()),
    ([.generation 2, .subpopulation 0, .values (.num 2) (.num 4) (some 3) none], .ok ())] := by decide +kernel

/-- C95's order is false with bloat control: "best fitness 1, worst fitness 3, average fitness 2" is written
although a higher fitness is better. -/
theorem C95_refuted : ¬ C95_statement := by
  intro h
  have h0 := exBloat_written
  have h1 := h Nat Nat exBloatCfg exBloatSub ⟨true, some 1⟩ exRun (evolve exBloatCfg exRun).2
    (evolve exBloatCfg exRun).1 exBloatCfg_ordinary (.inl rfl) rfl rfl (Prod.mk.eta (p := evolve exBloatCfg exRun)).symm
  generalize (evolve exBloatCfg exRun).2.log = log at h0 h1
  have hmem : ([.generation 1, .subpopulation 0, .values (.num 1) (.num 3) (some 2) none], .ok ()) ∈
      (log.filter fun e => e.publisher = "algorithm" && e.name = "after_generation").map fun e =>
        writeStatistics .bestAverageWorst exBloatCfg.size exBloatCfg.subs e.snap := by
    rw [h0]; simp
  obtain ⟨e, he, hw⟩ := List.mem_map.1 hmem
  obtain ⟨he, hn⟩ := List.mem_filter.1 he
  simp only [Bool.and_eq_true, decide_eq_true_eq] at hn
  have := (h1 e he hn.1 hn.2 _ _ _ _ _ _ hw).1
  simp only [AtLeast, if_true] at this
  norm_num at this

/-- Two sub-populations of one individual each. -/
example := C95_subpopulations (size := fun g : Nat => g) .withSize (by decide) [exBloatSub, exBloatSub]
  ⟨[⟨1, 0, 5, ⟨.num 3, true, true, false, false, none⟩, -1, [], [], false, []⟩,
    ⟨2, 0, 6, ⟨.num 4, true, true, false, false, none⟩, -1, [], [], false, []⟩], [some [0], some [1]], none, none, 7, 0⟩
  (iss := [[0], [1]]) rfl rfl (vs := [.values (.num 3) (.num 3) (some 3) (some (some 5)), .values (.num 4) (.num 4) (some 4) (some (some 6))])
  (.cons (by decide +kernel) (.cons (by decide +kernel) .nil))

end Verif.Evo
