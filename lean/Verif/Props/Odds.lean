import Verif.Props.Positions
import Verif.Props.Pressure

/-! # C120: how often `random_subtree` chooses each sub-program -/

namespace Verif.GP
open PyM Verif.Evo
variable {fs : List Fn} {p : Prog} {τ : Option Ty} {root n : Node}

instance (τ : Option Ty) (root n : Node) : Decidable (Qualifies τ root n) := by unfold Qualifies; infer_instance

/-- The draws — one for each qualifying node — for which `random_subtree` returns the block of nodes. -/
def drawsOf (fs : List Fn) (p : Prog) (τ : Option Ty) (root : Node) (st : List Node) : Set Nat :=
  {d | d < p.flatten.countP (Qualifies τ root ·) ∧ ∀ t, randomSubtree fs p.flatten τ (prepend [d] t) = (.ok (some st), t)}

/-- The positions of a program at which a sub-program with the given listing starts with a qualifying node. -/
def placesOf (p : Prog) (τ : Option Ty) (root : Node) (st : List Node) : Set Nat :=
  {i | ∃ c q n, p = Ctx.fill c q ∧ c.before.length = i ∧ q.flatten = st ∧ st.head? = some n ∧ Qualifies τ root n}

theorem relevantNodes_eq (hroot : p.flatten.head? = some root) :
    relevantNodes p.flatten τ = p.flatten.filter (Qualifies τ root ·) := by
  unfold relevantNodes
  refine List.filter_congr fun n _ => ?_
  rw [hroot, Bool.eq_iff_iff]
  show _ ↔ decide (Qualifies τ root n) = true
  rw [decide_eq_true_iff]
  unfold Qualifies
  simp only [Option.some.injEq, Bool.or_eq_true, decide_eq_true_eq, Bool.and_eq_true, ne_eq, decide_not, Bool.not_eq_true',
    decide_eq_false_iff_not]
  tauto

theorem randomSubtree_prepend (hok : p.Ok) (hfs : ∀ f ∈ p.fns, f ∈ fs) (hroot : p.flatten.head? = some root) {d : Nat}
    (hd : (p.flatten.filter (Qualifies τ root ·))[d]? = some n) (t : Tape) :
    ∃ st, getSubtreeByRoot fs p.flatten n = .ok st ∧ st.head? = some n ∧
      randomSubtree fs p.flatten τ (prepend [d] t) = (.ok (some st), t) := by
  have hrel := relevantNodes_eq (τ := τ) hroot
  have hlt : d < (p.flatten.filter (Qualifies τ root ·)).length := (List.getElem?_eq_some_iff.1 hd).1
  have hch : Rand.choice (relevantNodes p.flatten τ) (prepend [d] t) = (.ok n, t) := by
    unfold Rand.choice
    rw [hrel, if_neg (by omega)]
    have : (Rand.next : Rand Nat) (prepend [d] t) = (.ok d, t) := rfl
    rw [bind_of_ok this, Nat.mod_eq_of_lt hlt, hd]
    rfl
  have hmem : n ∈ p.flatten := (List.mem_filter.1 (List.mem_of_getElem? hd)).1
  have hlt' : p.flatten.idxOf n < p.flatten.length := List.idxOf_lt_length_iff.2 hmem
  obtain ⟨c, q, rfl, hbef⟩ := Ctx.exists_before p _ hlt'
  have hlen : c.before.length = (c.fill q).flatten.idxOf n := by
    rw [hbef, List.length_take]; omega
  obtain ⟨m, l, hml⟩ := List.exists_cons_of_ne_nil q.flatten_ne_nil
  have hm : m = n := by
    have h1 := Ctx.head_before (c := c) (q := q) (n := m) (by simp [hml])
    rw [hlen, List.getElem?_eq_getElem hlt'] at h1
    simpa using h1.symm
  subst hm
  have hnb : m ∉ c.before := by
    rw [hbef]
    intro hc
    obtain ⟨i, hi, he⟩ := List.getElem_of_mem hc
    rw [List.getElem_take] at he
    have hi' : i < List.idxOf m (c.fill q).flatten := by
      simp only [List.length_take] at hi; omega
    have := List.not_of_lt_findIdx (xs := (c.fill q).flatten) (p := (· == m)) hi'
    rw [he] at this
    simp at this
  obtain ⟨hget, -⟩ := cut_at hok hfs (n := m) (by simp [hml]) hnb
  refine ⟨q.flatten, hget, by simp [hml], ?_⟩
  unfold randomSubtree
  rw [if_neg (by rw [hrel]; exact List.ne_nil_of_length_pos (by omega)), bind_of_ok hch, hget]
  rfl

theorem ncard_positions {α : Type} [DecidableEq α] (l : List α) (a : α) : {d : Nat | l[d]? = some a}.ncard = l.count a := by
  have h1 : {d : Nat | l[d]? = some a} = (((List.range l.length).filter fun d => decide (l[d]? = some a)).toFinset : Set Nat) := by
    ext d
    simp only [Set.mem_ofPred_eq, List.coe_toFinset, List.mem_filter, List.mem_range, decide_eq_true_eq]
    exact ⟨fun h => ⟨(List.getElem?_eq_some_iff.1 h).1, h⟩, fun h => h.2⟩
  rw [h1, Set.ncard_coe_finset, List.toFinset_card_of_nodup (List.nodup_range.filter _), ← List.countP_eq_length_filter]
  induction l with
  | nil => rfl
  | cons b l ih =>
    rw [List.length_cons, List.range_succ_eq_map, List.countP_cons, List.countP_map, List.count_cons]
    congr 1
    · rw [← ih]
      · rfl
      · ext d
        simp only [Set.mem_ofPred_eq, List.coe_toFinset, List.mem_filter, List.mem_range, decide_eq_true_eq]
        exact ⟨fun h => ⟨(List.getElem?_eq_some_iff.1 h).1, h⟩, fun h => h.2⟩
    · simp

/-- **C120 (partial)**: the sub-program that starts with the first copy of a qualifying node is returned for as many draws as
there are copies of the node — for the draws of the others, too. -/
theorem C120_odds_partial (hok : p.Ok) (hfs : ∀ f ∈ p.fns, f ∈ fs) (hroot : p.flatten.head? = some root) {c : Ctx} {q : Prog}
    (hp : p = c.fill q) (hq : q.flatten.head? = some n) (hn : Qualifies τ root n) (hfirst : n ∉ c.before) :
    (drawsOf fs p τ root q.flatten).ncard = p.flatten.count n := by
  have hget : getSubtreeByRoot fs p.flatten n = .ok q.flatten := by
    subst hp
    exact (cut_at hok hfs hq hfirst).1
  have h1 : drawsOf fs p τ root q.flatten = {d | (p.flatten.filter (Qualifies τ root ·))[d]? = some n} := by
    ext d
    simp only [drawsOf, Set.mem_ofPred_eq, List.countP_eq_length_filter]
    constructor
    · rintro ⟨hd, h⟩
      obtain ⟨st, -, h2, h3⟩ := randomSubtree_prepend hok hfs hroot (List.getElem?_eq_getElem hd) (fun _ => 0)
      rw [h] at h3
      simp only [Prod.mk.injEq, Except.ok.injEq, Option.some.injEq, and_true] at h3
      rw [← h3, hq] at h2
      rw [List.getElem?_eq_getElem hd, ← h2]
    · intro hd
      refine ⟨(List.getElem?_eq_some_iff.1 hd).1, fun t => ?_⟩
      obtain ⟨st, h1, -, h3⟩ := randomSubtree_prepend hok hfs hroot hd t
      rw [hget] at h1
      rw [h3, Except.ok.inj h1]
  rw [h1, ncard_positions, List.count_filter (by simpa using hn)]

/-- **C120 (partial)**: in a program without copies of a node the sub-programs that start with a qualifying node are equally
likely: each is returned for exactly one of the draws. -/
theorem C120_distinct_partial (hok : p.Ok) (hfs : ∀ f ∈ p.fns, f ∈ fs) (hroot : p.flatten.head? = some root)
    (hnd : p.flatten.Nodup) {c : Ctx} {q : Prog} (hp : p = c.fill q) (hq : q.flatten.head? = some n) (hn : Qualifies τ root n) :
    (drawsOf fs p τ root q.flatten).ncard = 1 := by
  obtain ⟨post, hf⟩ := c.flatten_before
  have hfp := hf q
  rw [← hp] at hfp
  obtain ⟨m, l, hml⟩ := List.exists_cons_of_ne_nil q.flatten_ne_nil
  have hm : m = n := by rw [hml] at hq; simpa using hq
  subst hm
  have hfirst : m ∉ c.before := by
    intro hc
    rw [hfp, List.append_assoc] at hnd
    exact (List.nodup_append.1 hnd).2.2 m hc m (by simp [hml]) rfl
  rw [C120_odds_partial hok hfs hroot hp hq hn hfirst, List.count_eq_one_of_mem hnd]
  rw [hfp]
  simp [hml]

/-- C120: a sub-program that starts with another copy is never returned for its own sake: every block that is returned is the
listing of the sub-program at the first copy of its first node. -/
theorem C120_first_copy (hok : p.Ok) (hfs : ∀ f ∈ p.fns, f ∈ fs) (hroot : p.flatten.head? = some root) {st : List Node}
    (h : (drawsOf fs p τ root st).Nonempty) : ∃ c q n, p = Ctx.fill c q ∧ q.flatten = st ∧ st.head? = some n ∧ Qualifies τ root n ∧ n ∉ c.before := by
  obtain ⟨d, -, h⟩ := h
  obtain ⟨c, q, h1, h2, n, root', h3, h4, h5, h6⟩ := (C87_choosable_partial fs p hok hfs τ st).1 ⟨_, _, h fun _ => 0⟩
  rw [← h1, hroot] at h4
  cases h4
  exact ⟨c, q, n, h1, h2.symm, by rw [h2, h3], h5, h6⟩

/-- C120: what the property says. -/
def C120_statement : Prop :=
  ∀ (fs : List Fn) (p : Prog) (τ : Option Ty) (root : Node), p.Ok → (∀ f ∈ p.fns, f ∈ fs) → p.flatten.head? = some root →
    ∀ st, (drawsOf fs p τ root st).ncard = (placesOf p τ root st).ncard

/-- `add(neg(x), neg(y))` -/
def Sample.twoNegs : Prog := .app Sample.add [.app Sample.neg [.term Sample.x none], .app Sample.neg [.term Sample.y none]]

theorem Sample.twoNegs_ok : Sample.twoNegs.Ok := by
  simp [Sample.twoNegs, Prog.Ok, Prog.OkAll, Sample.add, Sample.neg]

theorem Sample.twoNegs_fns : ∀ f ∈ Sample.twoNegs.fns, f ∈ Sample.cfg.functionSet := by
  simp [Sample.twoNegs, Prog.fns, Prog.fnsAll, Sample.cfg]

/-- **C120 is false**: in `add(neg(x), neg(y))`, `neg(x)` is chosen for two of the five draws and `neg(y)` for none. -/
theorem C120_refuted : ¬ C120_statement := by
  intro h
  have h1 := h Sample.cfg.functionSet Sample.twoNegs none (.func Sample.add) Sample.twoNegs_ok Sample.twoNegs_fns rfl
    [.func Sample.neg, .term Sample.y none]
  have h2 : drawsOf Sample.cfg.functionSet Sample.twoNegs none (.func Sample.add) [.func Sample.neg, .term Sample.y none] = ∅ := by
    ext d
    simp only [drawsOf, Set.mem_ofPred_eq, Set.mem_empty_iff_false, iff_false, not_and]
    intro hd hc
    have hd' : d < 5 := hd
    have := congrArg (fun r => r.1) (hc fun _ => 0)
    revert this
    have key : ∀ d < 5, (randomSubtree Sample.cfg.functionSet Sample.twoNegs.flatten none (prepend [d] fun _ => 0)).1 ≠
        .ok (some [.func Sample.neg, .term Sample.y none]) := by decide +kernel
    exact key d hd'
  have h3 : 3 ∈ placesOf Sample.twoNegs none (.func Sample.add) [.func Sample.neg, .term Sample.y none] :=
    ⟨.app Sample.add [.app Sample.neg [.term Sample.x none]] .hole [], .app Sample.neg [.term Sample.y none], .func Sample.neg,
      rfl, rfl, rfl, rfl, .inl rfl⟩
  have h4 : (placesOf Sample.twoNegs none (.func Sample.add) [.func Sample.neg, .term Sample.y none]).Finite := by
    refine (Set.finite_lt_nat (Sample.twoNegs.flatten.length + 1)).subset ?_
    rintro i ⟨c, q, n, hp, rfl, -⟩
    obtain ⟨post, hf⟩ := c.flatten_before
    rw [Set.mem_ofPred_eq, hp, hf q]
    simp only [List.length_append]
    omega
  rw [h2, Set.ncard_empty] at h1
  have := (Set.ncard_eq_zero h4).1 h1.symm
  rw [this] at h3
  exact h3

/-- `neg(x)` is chosen for two draws. -/
example : (drawsOf Sample.cfg.functionSet Sample.twoNegs none (.func Sample.add) [.func Sample.neg, .term Sample.x none]).ncard = 2 :=
  C120_odds_partial (n := .func Sample.neg) (c := .app Sample.add [] .hole [.app Sample.neg [.term Sample.y none]])
    (q := .app Sample.neg [.term Sample.x none]) Sample.twoNegs_ok Sample.twoNegs_fns rfl rfl rfl (.inl rfl) (by decide)

example : (drawsOf Sample.cfg.functionSet Sample.grown none (.func Sample.add) [.func Sample.mul, .term Sample.x none, .term Sample.y none]).ncard = 1 :=
  C120_odds_partial (n := .func Sample.mul) (c := .app Sample.add [] .hole [.term Sample.x none])
    (q := .app Sample.mul [.term Sample.x none, .term Sample.y none]) (by
      simp [Sample.grown, Prog.Ok, Prog.OkAll, Sample.add, Sample.mul]) (by simp [Sample.grown, Prog.fns, Prog.fnsAll, Sample.cfg])
    rfl rfl rfl (.inl rfl) (by decide)

example : (drawsOf [Sample.add] (.app Sample.add [.term Sample.x none, .term Sample.y none]) none (.func Sample.add) [.term Sample.y none]).ncard = 1 :=
  C120_distinct_partial (n := .term Sample.y none) (c := .app Sample.add [.term Sample.x none] .hole []) (q := .term Sample.y none)
    (by simp [Prog.Ok, Prog.OkAll, Sample.add]) (by simp [Prog.fns, Prog.fnsAll]) rfl (by decide) rfl rfl (.inl rfl)

end Verif.GP
