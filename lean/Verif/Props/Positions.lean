import Verif.Props.Complete
import Verif.Lemmas.Mutation
import Verif.Spec.Positions

/-!
# C87: which parts of a tree the subtree operators can alter

`random_subtree` draws a node and then looks it up in the list with `list.index`, which finds the first
equal node.
-/

namespace Verif.GP
open PyM

theorem Ctx.flatten_before (c : Ctx) : ∃ post : List Node, ∀ p : Prog,
    (c.fill p).flatten = c.before ++ p.flatten ++ post := by
  induction c with
  | hole => exact ⟨[], fun p => by simp [fill, before]⟩
  | app f l c r ih =>
    obtain ⟨post, h⟩ := ih
    refine ⟨post ++ Prog.flattenAll r, fun p => ?_⟩
    simp [fill, before, Prog.flatten, Prog.flattenAll_append, Prog.flattenAll, h]

/-- Every position of a listing is the start of the listing of a sub-program, with the nodes before it
in the listing before the hole. -/
theorem Ctx.exists_before (p : Prog) (i : Nat) (hi : i < p.flatten.length) :
    ∃ (c : Ctx) (q : Prog), p = c.fill q ∧ c.before = p.flatten.take i := by
  obtain ⟨c, q, pre, post, hp, hlen, hf⟩ := Ctx.exists_at p i hi
  refine ⟨c, q, hp, ?_⟩
  obtain ⟨post', hf'⟩ := c.flatten_before
  have hl : c.before.length = i := by
    by_contra hne
    have hx : ∀ v : Val, (c.before ++ [Node.term v none] ++ post')[i]? = some (.term v none) := by
      intro v
      have h1 := hf (.term v none)
      have h2 := hf' (.term v none)
      simp only [Prog.flatten] at h1 h2
      rw [← h2, h1, ← hlen]
      simp
    have heq : (c.before ++ [Node.term ⟨0, .int 0⟩ none] ++ post')[i]? =
        (c.before ++ [Node.term ⟨0, .int 1⟩ none] ++ post')[i]? := by
      by_cases hlt : i < c.before.length
      · simp [List.getElem?_append, hlt]
      · simp only [List.append_assoc]
        simp only [List.getElem?_append_right (show c.before.length ≤ i by omega)]
        obtain ⟨k, hk⟩ : ∃ k, i - c.before.length = k + 1 := ⟨i - c.before.length - 1, by omega⟩
        rw [hk]; simp
    rw [hx, hx] at heq
    simp at heq
  have := hf' q
  rw [← hp] at this
  rw [this, List.append_assoc, ← hl, List.take_left]

theorem Ctx.head_before {c : Ctx} {q : Prog} {n : Node} (h : q.flatten.head? = some n) :
    (c.fill q).flatten[c.before.length]? = some n := by
  obtain ⟨post, hf⟩ := c.flatten_before
  rw [hf q, List.append_assoc, List.getElem?_append_right (Nat.le_refl _), Nat.sub_self,
    List.getElem?_append_left (List.length_pos_of_ne_nil q.flatten_ne_nil), ← List.head?_eq_getElem?]
  exact h

theorem Ctx.idxOf_before {c : Ctx} {q : Prog} {n : Node} (h : q.flatten.head? = some n)
    (hn : n ∉ c.before) : (c.fill q).flatten.idxOf n = c.before.length := by
  obtain ⟨post, hf⟩ := c.flatten_before
  obtain ⟨m, l, hml⟩ := List.exists_cons_of_ne_nil q.flatten_ne_nil
  have hm : m = n := by rw [hml] at h; simpa using h
  subst hm
  rw [hf q, List.append_assoc, List.idxOf_append_of_notMem hn, hml]
  simp

/-- A choosable position is found again by `_get_subtree_by_root` and by `replace_subtree`. -/
theorem cut_at {fs : List Fn} {c : Ctx} {q : Prog} (hok : (c.fill q).Ok)
    (hfs : ∀ f ∈ (c.fill q).fns, f ∈ fs) {n : Node} (h : q.flatten.head? = some n)
    (hn : n ∉ c.before) :
    getSubtreeByRoot fs (c.fill q).flatten n = .ok q.flatten ∧ GoodCut (c, q) := by
  obtain ⟨post, hf⟩ := c.flatten_before
  have hidx := Ctx.idxOf_before h hn
  have hlt : c.before.length < (c.fill q).flatten.length := by
    rw [hf q]; have := List.length_pos_of_ne_nil q.flatten_ne_nil; simp; omega
  have hqok : q.Ok := Ctx.ok_of_fill hok
  have hqfs : ∀ f ∈ q.fns, f ∈ fs := by
    intro f hf'
    refine hfs f (Prog.mem_fns_iff.2 ?_)
    rw [hf q]; simp [Prog.mem_fns_iff.1 hf']
  constructor
  · unfold getSubtreeByRoot
    simp only
    rw [hidx, if_neg (Nat.ne_of_lt hlt)]
    split
    · rename_i h0
      cases c with
      | hole => simp [Ctx.fill]
      | app f l c r => simp [Ctx.before] at h0
    · have := findEndAt_listing fs (c.fill q).flatten ((c.fill q).flatten.length + 1) q hqok hqfs
        (by rw [← Prog.length_flatten, hf q]; simp; omega) c.before post (hf q)
      rw [this]
      simp only [bind, Except.bind]
      have hsz := q.size_pos
      rw [show c.before.length + q.size - 1 + 1 - c.before.length = q.size by omega, hf q,
        List.append_assoc, List.drop_left, ← Prog.length_flatten, List.take_left]
  · intro r
    obtain ⟨m, l, hml⟩ := List.exists_cons_of_ne_nil q.flatten_ne_nil
    have hm : m = n := by rw [hml] at h; simpa using h
    subst hm
    show replaceSubtree (c.fill q).flatten q.flatten r.flatten = .ok (c.fill r).flatten
    rw [hml]
    unfold replaceSubtree
    simp only
    rw [hidx, if_neg (Nat.ne_of_lt hlt), hf r, ← hml, ← List.drop_drop, hf q]
    simp only [List.append_assoc, List.take_left, List.drop_left]

theorem choosable_relevant {τ : Option Ty} {c : Ctx} {q : Prog} {n root : Node}
    (h : q.flatten.head? = some n) (hr : (c.fill q).flatten.head? = some root)
    (hq : Qualifies τ root n) : n ∈ relevantNodes (c.fill q).flatten τ := by
  refine mem_relevantNodes.2 ⟨?_, ?_⟩
  · exact List.mem_of_getElem? (Ctx.head_before h)
  · intro root' h'
    rw [hr] at h'
    obtain rfl := Option.some.inj h'
    exact hq

/-- Which sub-programs `random_subtree` returns, and where they are. -/
theorem randomSubtree_choosable {fs : List Fn} {p : Prog} (hok : p.Ok) (hfs : ∀ f ∈ p.fns, f ∈ fs)
    (τ : Option Ty) :
    Post (randomSubtree fs p.flatten τ) fun r =>
      match r with
      | none => Stuck τ p
      | some st => ∃ (c : Ctx) (q : Prog), p = c.fill q ∧ st = q.flatten ∧ Choosable τ c q := by
  unfold randomSubtree
  refine Post.ite (fun h => Post.pure ?_) fun h => ?_
  · rintro c q rfl ⟨n, root, h1, h2, h3, -⟩
    have := choosable_relevant h1 h2 h3
    rw [h] at this
    simp at this
  refine Post.bind (Rand.choice_post _) fun n hn => ?_
  obtain ⟨hmem, hqual⟩ := mem_relevantNodes.1 hn
  have hlt : p.flatten.idxOf n < p.flatten.length := List.idxOf_lt_length_iff.2 hmem
  obtain ⟨c, q, rfl, hbef⟩ := Ctx.exists_before p _ hlt
  have hlen : c.before.length = (c.fill q).flatten.idxOf n := by
    rw [hbef, List.length_take]; omega
  obtain ⟨m, l, hml⟩ := List.exists_cons_of_ne_nil q.flatten_ne_nil
  have hm : m = n := by
    have h1 := Ctx.head_before (c := c) (q := q) (n := m) (by simp [hml])
    rw [hlen, List.getElem?_eq_getElem hlt] at h1
    simpa using h1.symm
  subst hm
  have hnb : m ∉ c.before := by
    rw [hbef]
    intro hc
    obtain ⟨i, hi, he⟩ := List.getElem_of_mem hc
    rw [List.getElem_take] at he
    have hi' : i < List.idxOf m (c.fill q).flatten := by
      simp only [List.length_take] at hi; omega
    have := List.not_of_lt_findIdx (xs := (c.fill q).flatten) (p := (· == m)) hi'
    rw [he] at this
    simp at this
  obtain ⟨hget, -⟩ := cut_at hok hfs (n := m) (by simp [hml]) hnb
  obtain ⟨root, tl, hroot⟩ := List.exists_cons_of_ne_nil (c.fill q).flatten_ne_nil
  refine Post.bind (Q := fun st => st = q.flatten) (Post.ofExcept fun a ha => ?_) fun st hst => ?_
  · rw [hget] at ha; simpa using ha.symm
  · subst hst
    exact Post.pure ⟨c, q, rfl, rfl, m, root, by simp [hml], by simp [hroot],
      hqual root (by simp [hroot]), hnb⟩

theorem randomSubtree_reach {fs : List Fn} {c : Ctx} {q : Prog} (hok : (c.fill q).Ok)
    (hfs : ∀ f ∈ (c.fill q).fns, f ∈ fs) {τ : Option Ty} (h : Choosable τ c q) :
    Reach (randomSubtree fs (c.fill q).flatten τ) (some q.flatten) := by
  obtain ⟨n, root, h1, h2, h3, h4⟩ := h
  have hrel := choosable_relevant h1 h2 h3
  unfold randomSubtree
  simp only
  rw [if_neg (List.ne_nil_of_mem hrel)]
  refine (Reach.choice hrel).bind ?_
  refine (Reach.ofExcept (cut_at hok hfs h1 h4).1).bind (Reach.pure _)

theorem randomSubtree_stuck {fs : List Fn} {p : Prog} (hok : p.Ok) (hfs : ∀ f ∈ p.fns, f ∈ fs)
    {τ : Option Ty} (h : Stuck τ p) : Reach (randomSubtree fs p.flatten τ) none := by
  intro t'
  obtain ⟨r, t'', hr⟩ := randomSubtree_total hok hfs τ t'
  have hp := randomSubtree_choosable hok hfs τ _ _ _ hr
  cases r with
  | some st =>
    obtain ⟨c, q, h1, -, h3⟩ := hp
    exact absurd h3 (h c q h1)
  | none =>
    unfold randomSubtree at hr ⊢
    by_cases hrel : relevantNodes p.flatten τ = []
    · rw [if_pos hrel]; exact ⟨t', rfl⟩
    · rw [if_neg hrel] at hr
      obtain ⟨n, t1, -, hr⟩ := bind_ok.1 hr
      obtain ⟨st, t2, -, hr⟩ := bind_ok.1 hr
      cases hr

/-- **C87, the positions.** `random_subtree` can return a block of nodes if and only if it is the
listing of a sub-program that starts with a qualifying node of which no copy is listed before. -/
theorem C87_choosable_partial (fs : List Fn) (p : Prog) (hp : p.Ok) (hfs : ∀ f ∈ p.fns, f ∈ fs)
    (τ : Option Ty) (st : List Node) :
    (∃ tape tape', randomSubtree fs p.flatten τ tape = (.ok (some st), tape')) ↔
      ∃ c q, p = Ctx.fill c q ∧ st = q.flatten ∧ Choosable τ c q := by
  constructor
  · rintro ⟨t, t', h⟩
    exact randomSubtree_choosable hp hfs τ t _ t' h
  · rintro ⟨c, q, rfl, rfl, h⟩
    obtain ⟨t, ht⟩ := randomSubtree_reach hp hfs h (fun _ => 0)
    exact ⟨t, _, ht⟩

/-! ### Mutation -/

/-- **C87, mutation.** What subtree mutation can make of a program: exactly the programs obtained by
exchanging a choosable sub-program for one in the range of the grow method; the program itself if
there is no choosable sub-program. -/
theorem C87_mutation_partial (c : Cfg) (hd : DistinctKeys c.terminalSet) (herc : c.ErcProper)
    (τ : Option Ty) (hreq : c.Requests τ) (p : Prog) (hty : p.HasType τ)
    (hfs : ∀ f ∈ p.fns, f ∈ c.functionSet ∧ f.Legal) (minDepth maxDepth : Nat)
    (hle : minDepth ≤ maxDepth) (attempts : Nat) (hpos : 0 < attempts) (out : List Ind) :
    (∃ tape tape', subtreeMutation minDepth maxDepth attempts [⟨c, p.flatten⟩] tape
        = (.ok out, tape')) ↔
      (∃ ctx q r σ, p = Ctx.fill ctx q ∧ q.HasType σ ∧ Choosable none ctx q ∧
        r.Growable c σ minDepth maxDepth ∧ out = [⟨c, (ctx.fill r).flatten⟩]) ∨
      (Stuck none p ∧ out = [⟨c, p.flatten⟩]) := by
  have hfs1 : ∀ f ∈ p.fns, f ∈ c.functionSet := fun f hf => (hfs f hf).1
  have hok := hty.ok
  -- the type of a sub-program is requested by the configuration
  have hsub : ∀ ctx q, p = Ctx.fill ctx q → ∀ n, q.flatten.head? = some n →
      q.HasType n.type ∧ c.Requests n.type := by
    rintro ctx q rfl n hn
    obtain ⟨σ, h1, h2, -⟩ := Ctx.fill_hasType_param hty
    have hl : ∀ f ∈ q.fns, f.Legal := by
      intro f hf
      refine (hfs f ?_).2
      obtain ⟨pre, post, hfl⟩ := ctx.flatten_fill
      rw [Prog.mem_fns_iff] at hf ⊢
      rw [hfl q]; simp [hf]
    have e : n.type = σ := by rw [head_type hl hn, HasType.rootType h1]
    rw [e]
    refine ⟨h1, ?_⟩
    rcases h2 with rfl | ⟨f, hf, hσ⟩
    · exact hreq
    · exact hreq.param (hfs1 f hf) hσ
  constructor
  · rintro ⟨t, t', h⟩
    have hatt : ∀ k, Post (mutationAttempt minDepth maxDepth [⟨c, p.flatten⟩] k) fun r =>
        (r.1 = false ∧ r.2 = [⟨c, p.flatten⟩] ∧ Stuck none p) ∨
        (r.1 = true ∧ ∃ ctx q r' σ, p = Ctx.fill ctx q ∧ q.HasType σ ∧ Choosable none ctx q ∧
          r'.Growable c σ minDepth maxDepth ∧ r.2 = [⟨c, (ctx.fill r').flatten⟩]) := by
      intro k
      unfold mutationAttempt
      refine Post.bind (Q := fun l => ∃ r, l = [r] ∧ (match r with
        | none => Stuck none p
        | some st => ∃ (c : Ctx) (q : Prog), p = c.fill q ∧ st = q.flatten ∧ Choosable none c q)) ?_ ?_
      · refine Post.bind (randomSubtree_choosable hok hfs1 none) fun r hr => ?_
        refine Post.bind (Q := fun l => l = []) (Post.pure rfl) fun l hl => Post.pure ?_
        subst hl
        exact ⟨r, rfl, hr⟩
      · rintro l ⟨r, rfl, hr⟩
        cases r with
        | none =>
          rw [if_pos (by simp)]
          exact Post.pure (.inl ⟨rfl, rfl, hr⟩)
        | some st =>
          obtain ⟨ctx, q, rfl, rfl, hch⟩ := hr
          rw [if_neg (by simp)]
          obtain ⟨n, root, h1, h2, h3, h4⟩ := id hch
          obtain ⟨m, l, hml⟩ := List.exists_cons_of_ne_nil q.flatten_ne_nil
          have hm : m = n := by rw [hml] at h1; simpa using h1
          subst hm
          obtain ⟨hqt, hqr⟩ := hsub ctx q rfl m h1
          refine Post.bind (Q := fun o => ∃ r' : Prog, r'.Growable c m.type minDepth maxDepth ∧
            o = [⟨c, (ctx.fill r').flatten⟩]) ?_ ?_
          · simp only [List.filterMap_cons, List.filterMap_nil, id, List.zip_cons_cons, List.zip_nil_right]
            unfold mutateSubtrees
            rw [hml]
            simp only
            refine Post.bind (Q := fun new => ∃ r' : Prog, new = r'.flatten ∧
              r'.Growable c m.type minDepth maxDepth) ?_ ?_
            · intro t new t' hrun
              exact (C85_grow c hd herc (1 / 2) (by norm_num) (by norm_num) minDepth maxDepth hle
                m.type hqr new).1 ⟨t, t', hrun⟩
            · rintro new ⟨r', rfl, hr'⟩
              rw [← hml, (cut_at hok hfs1 h1 h4).2 r']
              refine Post.bind (Post.ofExcept (Q := (· = (ctx.fill r').flatten)) fun a ha =>
                (Except.ok.inj ha).symm) fun a ha => ?_
              subst ha
              refine Post.bind (Q := (· = [])) (Post.pure rfl) fun l hl => Post.pure ?_
              subst hl
              exact ⟨r', hr', rfl⟩
          · rintro o ⟨r', hr', rfl⟩
            exact Post.pure (.inr ⟨rfl, ctx, q, r', m.type, rfl, hqt, hch, hr', rfl⟩)
    have hloop : ∀ n i, 0 < n → Post (failableLoop (mutationAttempt minDepth maxDepth) pure n i
        [⟨c, p.flatten⟩]) fun out =>
        (∃ ctx q r σ, p = Ctx.fill ctx q ∧ q.HasType σ ∧ Choosable none ctx q ∧
        r.Growable c σ minDepth maxDepth ∧ out = [⟨c, (ctx.fill r).flatten⟩]) ∨
        (Stuck none p ∧ out = [⟨c, p.flatten⟩]) := by
      intro n
      induction n with
      | zero => intro i h; omega
      | succ n ih =>
        intro i _
        refine Post.bind (hatt i) fun r hr => ?_
        obtain ⟨b, o⟩ := r
        rcases hr with ⟨h1, h2, h3⟩ | ⟨h1, h2⟩
        · simp only at h1 h2
          subst h1 h2
          cases n with
          | zero => exact Post.pure (.inr ⟨h3, rfl⟩)
          | succ n => exact ih (i + 1) (by omega)
        · simp only at h1
          subst h1
          exact Post.pure (.inl h2)
    exact hloop attempts 0 hpos t out t' h
  · intro h
    suffices hr : Reach (subtreeMutation minDepth maxDepth attempts [⟨c, p.flatten⟩]) out by
      obtain ⟨t, ht⟩ := hr (fun _ => 0)
      exact ⟨t, _, ht⟩
    rcases h with ⟨ctx, q, r, σ, rfl, hqt, hch, hr, rfl⟩ | ⟨hst, rfl⟩
    · obtain ⟨k, rfl⟩ : ∃ k, attempts = k + 1 := ⟨attempts - 1, by omega⟩
      obtain ⟨n, root, h1, h2, h3, h4⟩ := id hch
      obtain ⟨m, l, hml⟩ := List.exists_cons_of_ne_nil q.flatten_ne_nil
      have hm : m = n := by rw [hml] at h1; simpa using h1
      subst hm
      obtain ⟨hqt', hqr⟩ := hsub ctx q rfl m h1
      have hσ : σ = m.type := by rw [HasType.rootType hqt, HasType.rootType hqt']
      subst hσ
      unfold subtreeMutation failableApply failableLoop
      refine Reach.bind (a := (true, [⟨c, (ctx.fill r).flatten⟩])) ?_ (Reach.pure _)
      unfold mutationAttempt
      refine Reach.bind (a := [some q.flatten]) (Reach.mapL (.cons ?_ .nil)) ?_
      · exact randomSubtree_reach hok hfs1 hch
      · rw [if_neg (by simp)]
        refine Reach.bind (a := [⟨c, (ctx.fill r).flatten⟩]) ?_ (Reach.pure _)
        simp only [List.filterMap_cons, List.filterMap_nil, id, List.zip_cons_cons, List.zip_nil_right]
        unfold mutateSubtrees
        rw [hml]
        simp only
        refine Reach.bind (a := r.flatten) ?_ ?_
        · unfold growCreate
          rw [max_eq_right hle]
          exact growTree_reach hd herc (by norm_num) (by norm_num) maxDepth hle rfl hqr hr
        · refine (Reach.ofExcept (by rw [← hml]; exact (cut_at hok hfs1 h1 h4).2 r)).bind ?_
          exact (Reach.pure _).bind (Reach.pure _)
    · unfold subtreeMutation failableApply
      clear hpos
      generalize 0 = i
      induction attempts generalizing i with
      | zero => exact Reach.pure _
      | succ n ih =>
        unfold failableLoop
        refine Reach.bind (a := (false, [⟨c, p.flatten⟩])) ?_ (ih (i + 1))
        unfold mutationAttempt
        refine Reach.bind (a := [none]) (Reach.mapL (.cons ?_ .nil)) ?_
        · exact randomSubtree_stuck hok hfs1 hst
        · rw [if_pos (by simp)]
          exact Reach.pure _

/-- **C87, untyped mutation.** In an untyped configuration the whole tree can be chosen: every program
can become every program in the range of the grow method by a single mutation. -/
theorem C87_mutation_anywhere_partial (c : Cfg) (hd : DistinctKeys c.terminalSet)
    (herc : c.ErcProper) (hun : c.Untyped) (p : Prog) (hty : p.HasType none)
    (hfs : ∀ f ∈ p.fns, f ∈ c.functionSet ∧ f.Legal) (minDepth maxDepth : Nat)
    (hle : minDepth ≤ maxDepth) (attempts : Nat) (hpos : 0 < attempts) (r : Prog)
    (hr : r.Growable c none minDepth maxDepth) :
    ∃ tape tape', subtreeMutation minDepth maxDepth attempts [⟨c, p.flatten⟩] tape
        = (.ok [⟨c, r.flatten⟩], tape') := by
  refine (C87_mutation_partial c hd herc none (.inl ⟨hun, rfl⟩) p hty hfs minDepth maxDepth hle
    attempts hpos _).2 (.inl ⟨.hole, p, r, none, rfl, hty, ?_, hr, rfl⟩)
  obtain ⟨n, l, hnl⟩ := List.exists_cons_of_ne_nil p.flatten_ne_nil
  refine ⟨n, n, by simp [hnl], by simp [Ctx.fill, hnl], .inl ?_, by simp [Ctx.before]⟩
  rw [head_type (fun f hf => (hfs f hf).2) (q := p) (by simp [hnl]), ← HasType.rootType hty]

/-- In a tree of typed nodes the root is not chosen. -/
theorem Choosable.root_kept {τ : Option Ty} {c : Ctx} {q r : Prog} (h : Choosable τ c q)
    (hty : ∀ n ∈ (c.fill q).flatten, n.type ≠ none) :
    (c.fill r).flatten.head? = (c.fill q).flatten.head? := by
  obtain ⟨n, root, h1, h2, h3, -⟩ := h
  cases c with
  | hole =>
    have hn : n = root := by
      simp only [Ctx.fill] at h2
      rw [h1] at h2
      exact Option.some.inj h2
    subst hn
    rcases h3 with h | h
    · exact absurd h (hty n (by rw [Ctx.fill] at *; exact List.mem_of_mem_head? h1))
    · exact absurd rfl h.1
  | app f l c rr => simp [Ctx.fill, Prog.flatten]

/-- **C87, typed mutation.** If all nodes of a tree are typed, no mutation ever changes its root: its
first node - a function or the only terminal - is the same afterwards, whatever is drawn. -/
theorem C87_mutation_root_kept (c : Cfg) (hd : DistinctKeys c.terminalSet) (herc : c.ErcProper)
    (τ : Option Ty) (hreq : c.Requests τ) (p : Prog) (hty : p.HasType τ)
    (hfs : ∀ f ∈ p.fns, f ∈ c.functionSet ∧ f.Legal) (htyped : ∀ n ∈ p.flatten, n.type ≠ none)
    (minDepth maxDepth : Nat) (hle : minDepth ≤ maxDepth) (attempts : Nat) (hpos : 0 < attempts)
    (tape tape' : Tape) (out : List Ind)
    (hrun : subtreeMutation minDepth maxDepth attempts [⟨c, p.flatten⟩] tape = (.ok out, tape')) :
    ∃ t, out = [⟨c, t⟩] ∧ t.head? = p.flatten.head? := by
  rcases (C87_mutation_partial c hd herc τ hreq p hty hfs minDepth maxDepth hle attempts hpos out).1
    ⟨tape, tape', hrun⟩ with ⟨ctx, q, r, σ, rfl, -, hch, -, rfl⟩ | ⟨-, rfl⟩
  · exact ⟨_, rfl, hch.root_kept htyped⟩
  · exact ⟨_, rfl, rfl⟩

/-! ### Crossover -/

theorem pick_rest_choosable (τ : Option Ty) {inds : List Ind} {ps : List Prog}
    (h : List.Forall₂ Represents inds ps) :
    Post (mapL (fun ind => randomSubtree ind.cfg.functionSet ind.tree τ) inds) fun others =>
      (none ∈ others ∧ ∃ p ∈ ps, Stuck τ p) ∨
      (none ∉ others ∧ ∃ tr : List (Ctx × Prog), ps = tr.map (fun x => x.1.fill x.2) ∧
        others.filterMap id = tr.map (fun x => x.2.flatten) ∧
        ∀ x ∈ tr, Choosable τ x.1 x.2) := by
  induction h with
  | nil => exact Post.pure (.inr ⟨by simp, [], by simp⟩)
  | @cons ind p inds ps hp hps ih =>
    obtain ⟨ht, hok, hfs⟩ := hp
    rw [show mapL (fun ind => randomSubtree ind.cfg.functionSet ind.tree τ) (ind :: inds) = (do
      let y ← randomSubtree ind.cfg.functionSet ind.tree τ
      let ys ← mapL (fun ind => randomSubtree ind.cfg.functionSet ind.tree τ) inds
      pure (y :: ys)) from rfl, ht]
    refine Post.bind (randomSubtree_choosable hok hfs τ) fun r hr => ?_
    refine Post.bind ih fun others ho => Post.pure ?_
    cases r with
    | none => exact .inl ⟨by simp, p, by simp, hr⟩
    | some st =>
      obtain ⟨c, q, rfl, rfl, hch⟩ := hr
      rcases ho with ⟨h1, p', h2, h3⟩ | ⟨h1, tr, h2, h3, h4⟩
      · exact .inl ⟨by simp [h1], p', by simp [h2], h3⟩
      · refine .inr ⟨by simp [h1], (c, q) :: tr, by simp [h2], by simpa using h3, ?_⟩
        intro x hx
        rcases List.mem_cons.1 hx with rfl | hx
        · exact hch
        · exact h4 x hx

theorem represents_map {inds : List Ind} {ps : List Prog} (h : List.Forall₂ Represents inds ps) :
    inds.map (·.tree) = ps.map Prog.flatten := by
  induction h with
  | nil => rfl
  | cons h _ ih => simp [h.1, ih]

theorem goodCut_of_choosable {ind : Ind} {τ : Option Ty} {x : Ctx × Prog}
    (hr : Represents ind (x.1.fill x.2)) (h : Choosable τ x.1 x.2) : GoodCut x := by
  obtain ⟨n, root, h1, -, -, h4⟩ := h
  exact (cut_at hr.2.1 hr.2.2 h1 h4).2

theorem goodCuts {inds : List Ind} {tr : List (Ctx × Prog)}
    (h : List.Forall₂ Represents inds (tr.map fun x => x.1.fill x.2))
    (hch : ∀ x ∈ tr, ∃ τ, Choosable τ x.1 x.2) : ∀ x ∈ tr, GoodCut x := by
  rw [List.forall₂_map_right_iff] at h
  induction h with
  | nil => simp
  | cons hr _ ih =>
    intro x hx
    rcases List.mem_cons.1 hx with rfl | hx
    · obtain ⟨τ, hτ⟩ := hch x (by simp)
      exact goodCut_of_choosable hr hτ
    · exact ih (fun y hy => hch y (by simp [hy])) x hx

theorem ChoosableAll.each {tr : List (Ctx × Prog)} (h : ChoosableAll tr) :
    ∀ x ∈ tr, ∃ τ, Choosable τ x.1 x.2 := by
  cases tr with
  | nil => exact h.elim
  | cons x tr =>
    obtain ⟨h1, r, -, h3⟩ := h
    intro y hy
    rcases List.mem_cons.1 hy with rfl | hy
    · exact ⟨_, h1⟩
    · exact ⟨_, h3 y hy⟩

theorem crossoverAttempt_choosable {inds : List Ind} {ps : List Prog}
    (h : List.Forall₂ Represents inds ps) (k : Nat) :
    Post (crossoverAttempt inds.length inds k) fun r => (r.1 = false ∧ r.2 = inds ∧ Blocked ps) ∨
      (r.1 = true ∧ ∃ tr ps', Exchange tr ps ps' ∧ ChoosableAll tr ∧
        r.2 = List.zipWith (fun ind p => { ind with tree := p.flatten }) inds ps') := by
  unfold crossoverAttempt
  refine Post.ite (fun _ => Post.raise) fun _ => ?_
  have hpick : Post (pickSubtrees inds) fun r => match r with
      | none => Blocked ps
      | some sts => ∃ tr : List (Ctx × Prog), ps = tr.map (fun x => x.1.fill x.2) ∧
        sts = tr.map (fun x => x.2.flatten) ∧ ChoosableAll tr := by
    cases h with
    | nil => exact Post.raise
    | @cons ind p inds ps hp hps =>
      obtain ⟨ht, hok, hfs⟩ := hp
      unfold pickSubtrees
      simp only [ht]
      refine Post.bind (randomSubtree_choosable hok hfs none) fun r hr => ?_
      cases r with
      | none => exact Post.pure (.inl hr)
      | some st =>
        obtain ⟨c, q, hpc, hst, hch⟩ := hr
        cases st with
        | nil => exact Post.raise
        | cons r0 tl0 =>
          have hhead : q.flatten.head? = some r0 := by rw [← hst]; rfl
          refine Post.bind (pick_rest_choosable r0.type hps) fun others ho => ?_
          refine Post.ite (fun hn => Post.pure ?_) fun hn => Post.pure ?_
          · rcases ho with ⟨-, p', h1, h2⟩ | ⟨h1, -⟩
            · exact .inr ⟨c, q, r0, hpc, hch, hhead, p', h1, h2⟩
            · exact absurd hn h1
          · rcases ho with ⟨h1, -⟩ | ⟨-, tr, h1, h2, h3⟩
            · exact absurd h1 hn
            · exact ⟨(c, q) :: tr, by simp [hpc, h1], by rw [hst, h2]; rfl, hch, r0, hhead, h3⟩
  refine Post.bind hpick fun r hr => ?_
  cases r with
  | none => exact Post.pure (.inl ⟨rfl, rfl, hr⟩)
  | some sts =>
    obtain ⟨tr, rfl, rfl, hch⟩ := hr
    have htree := represents_map h
    rw [List.map_map] at htree
    dsimp only
    rw [swap_exchange htree (goodCuts h hch.each)]
    refine Post.bind (Post.ofExcept fun a ha => (Except.ok.inj ha).symm) fun out ho => ?_
    subst ho
    exact Post.pure (.inr ⟨rfl, tr, _, ⟨rfl, rfl⟩, hch, rfl⟩)

/-- **C87, crossover.** What subtree crossover can make of its parents: exactly the results of
exchanging choosable sub-programs, the first of any type, the others qualifying for the type of the
first; the parents themselves if all attempts can fail. -/
theorem C87_crossover_partial (inds : List Ind) (ps : List Prog) (hne : inds ≠ [])
    (h : List.Forall₂ Represents inds ps) (attempts : Nat) (hpos : 0 < attempts) (out : List Ind) :
    (∃ tape tape', subtreeCrossover inds.length attempts inds tape = (.ok out, tape')) ↔
      (∃ tr ps', Exchange tr ps ps' ∧ ChoosableAll tr ∧
        out = List.zipWith (fun ind p => { ind with tree := p.flatten }) inds ps') ∨
      (Blocked ps ∧ out = inds) := by
  constructor
  · rintro ⟨t, t', hrun⟩
    have hloop : ∀ n i, 0 < n → Post (failableLoop (crossoverAttempt inds.length) pure n i inds)
        fun out => (∃ tr ps', Exchange tr ps ps' ∧ ChoosableAll tr ∧
          out = List.zipWith (fun ind p => { ind with tree := p.flatten }) inds ps') ∨
          (Blocked ps ∧ out = inds) := by
      intro n
      induction n with
      | zero => intro i h; omega
      | succ n ih =>
        intro i _
        refine Post.bind (crossoverAttempt_choosable h i) fun r hr => ?_
        obtain ⟨b, o⟩ := r
        rcases hr with ⟨h1, h2, h3⟩ | ⟨h1, h2⟩
        · simp only at h1 h2
          subst h1 h2
          cases n with
          | zero => exact Post.pure (.inr ⟨h3, rfl⟩)
          | succ n => exact ih (i + 1) (by omega)
        · simp only at h1
          subst h1
          exact Post.pure (.inl h2)
    exact hloop attempts 0 hpos t out t' hrun
  · intro hout
    suffices hr : Reach (subtreeCrossover inds.length attempts inds) out by
      obtain ⟨t, ht⟩ := hr (fun _ => 0)
      exact ⟨t, _, ht⟩
    rcases hout with ⟨tr, ps', ⟨rfl, rfl⟩, hch, rfl⟩ | ⟨hb, rfl⟩
    · obtain ⟨k, rfl⟩ : ∃ k, attempts = k + 1 := ⟨attempts - 1, by omega⟩
      unfold subtreeCrossover failableApply failableLoop
      refine Reach.bind (a := (true, _)) ?_ (Reach.pure _)
      unfold crossoverAttempt
      rw [if_neg (by simp)]
      refine Reach.bind (a := some (tr.map fun x => x.2.flatten)) ?_ ?_
      · cases tr with
        | nil => exact hch.elim
        | cons x tr =>
          cases h with
          | @cons ind _ inds _ hp hps =>
          obtain ⟨ht, hok, hfs⟩ := hp
          obtain ⟨h1, r, h2, h3⟩ := hch
          obtain ⟨m, l, hml⟩ := List.exists_cons_of_ne_nil x.2.flatten_ne_nil
          have hm : m = r := by rw [hml] at h2; simpa using h2
          subst hm
          unfold pickSubtrees
          simp only [ht]
          refine Reach.bind (a := some x.2.flatten) (randomSubtree_reach hok hfs h1) ?_
          rw [hml]
          simp only
          refine Reach.bind (a := tr.map fun x => some x.2.flatten) (Reach.mapL ?_) ?_
          · rw [List.forall₂_map_right_iff] at hps ⊢
            clear ht hok hfs h1 h2 hml hne
            induction hps with
            | nil => exact .nil
            | @cons ind y inds tr hp _ ih =>
              refine .cons ?_ (ih fun z hz => h3 z (by simp [hz]))
              obtain ⟨ht, hok, hfs⟩ := hp
              rw [ht]
              exact randomSubtree_reach hok hfs (h3 y (by simp))
          · rw [if_neg (by simp)]
            refine (Reach.pure _).of_eq ?_
            simp [hml, List.filterMap_map, Function.comp_def]
      · have htree := represents_map h
        rw [List.map_map] at htree
        simp only
        rw [swap_exchange htree (goodCuts h hch.each)]
        exact (Reach.ofExcept rfl).bind (Reach.pure _)
    · unfold subtreeCrossover failableApply
      clear hpos
      generalize 0 = i
      induction attempts generalizing i with
      | zero => exact Reach.pure _
      | succ n ih =>
        unfold failableLoop
        refine Reach.bind (a := (false, out)) ?_ (ih (i + 1))
        unfold crossoverAttempt
        rw [if_neg (by simp)]
        refine Reach.bind (a := none) ?_ (Reach.pure _)
        cases h with
        | nil => exact hb.elim
        | @cons ind p inds ps hp hps =>
          obtain ⟨ht, hok, hfs⟩ := hp
          unfold pickSubtrees
          simp only [ht]
          rcases hb with hb | ⟨c, q, r, rfl, hch, hhead, p', hp', hst⟩
          · refine (randomSubtree_stuck hok hfs hb).bind ?_
            exact Reach.pure _
          · obtain ⟨m, l, hml⟩ := List.exists_cons_of_ne_nil q.flatten_ne_nil
            have hm : m = r := by rw [hml] at hhead; simpa using hhead
            subst hm
            refine Reach.bind (a := some q.flatten) (randomSubtree_reach hok hfs hch) ?_
            rw [hml]
            simp only
            obtain ⟨others, ho, hn⟩ : ∃ others, Reach (mapL (fun ind => randomSubtree
                ind.cfg.functionSet ind.tree m.type) inds) others ∧ none ∈ others := by
              clear ih hne ht hok hfs hch hhead hml
              induction hps with
              | nil => simp at hp'
              | @cons ind p inds ps hp hps ih =>
                have hmap : ∀ {inds : List Ind} {ps : List Prog}, List.Forall₂ Represents inds ps →
                    ∃ others, Reach (mapL (fun ind => randomSubtree ind.cfg.functionSet ind.tree
                      m.type) inds) others := by
                  intro inds ps hps
                  induction hps with
                  | nil => exact ⟨[], Reach.pure _⟩
                  | @cons ind p inds ps hp _ ih =>
                    obtain ⟨others, ho⟩ := ih
                    obtain ⟨ht, hok, hfs⟩ := hp
                    by_cases hs : Stuck m.type p
                    · refine ⟨none :: others, ?_⟩
                      refine Reach.bind (a := none) ?_ (ho.bind (Reach.pure _))
                      dsimp only; rw [ht]; exact randomSubtree_stuck hok hfs hs
                    · unfold Stuck at hs
                      push Not at hs
                      obtain ⟨c, q, rfl, hch⟩ := hs
                      refine ⟨some q.flatten :: others, ?_⟩
                      refine Reach.bind (a := some q.flatten) ?_ (ho.bind (Reach.pure _))
                      dsimp only; rw [ht]; exact randomSubtree_reach hok hfs hch
                rcases List.mem_cons.1 hp' with rfl | hp'
                · obtain ⟨others, ho⟩ := hmap hps
                  obtain ⟨ht, hok, hfs⟩ := hp
                  refine ⟨none :: others, ?_, by simp⟩
                  refine Reach.bind (a := none) ?_ (ho.bind (Reach.pure _))
                  dsimp only; rw [ht]; exact randomSubtree_stuck hok hfs hst
                · obtain ⟨others, ho, hn⟩ := ih hp'
                  obtain ⟨o1, ho1⟩ := hmap (.cons hp .nil)
                  obtain ⟨ht, hok, hfs⟩ := hp
                  by_cases hs : Stuck m.type p
                  · refine ⟨none :: others, ?_, by simp⟩
                    refine Reach.bind (a := none) ?_ (ho.bind (Reach.pure _))
                    dsimp only; rw [ht]; exact randomSubtree_stuck hok hfs hs
                  · unfold Stuck at hs
                    push Not at hs
                    obtain ⟨c, q, rfl, hch⟩ := hs
                    refine ⟨some q.flatten :: others, ?_, by simp [hn]⟩
                    refine Reach.bind (a := some q.flatten) ?_ (ho.bind (Reach.pure _))
                    dsimp only; rw [ht]; exact randomSubtree_reach hok hfs hch
            refine ho.bind ?_
            rw [if_pos hn]
            exact Reach.pure _

/-- **C05, no match.** If the trees have no cuts that match - no sub-program of the first together with one
of the type of that in each of the others - all trees are left unchanged, whatever is drawn and however often
crossover is attempted. -/
theorem C05_crossover_unmatched (inds : List Ind) (ps : List Prog) (hne : inds ≠ [])
    (h : List.Forall₂ Represents inds ps)
    (hno : ∀ tr : List (Ctx × Prog), ps = tr.map (fun x => x.1.fill x.2) → ¬ ChoosableAll tr)
    (attempts : Nat) (tape : Tape) :
    ∃ tape', subtreeCrossover inds.length attempts inds tape = (.ok inds, tape') := by
  cases attempts with
  | zero => exact ⟨tape, rfl⟩
  | succ n =>
    have htot : Total (subtreeCrossover inds.length (n + 1) inds) := by
      unfold subtreeCrossover failableApply
      generalize 0 = i
      generalize n + 1 = k
      induction k generalizing i with
      | zero => exact Total.pure
      | succ n ih =>
        refine Total.bind (crossoverAttempt_total h hne i) (crossoverAttempt_post h inds.length i) fun r hr => ?_
        obtain ⟨b, out⟩ := r
        rcases hr with ⟨h1, h2⟩ | ⟨h1, -⟩
        · simp only at h1 h2; subst h1 h2; exact ih _
        · simp only at h1; subst h1; exact Total.pure
    obtain ⟨out, tape', hrun⟩ := htot tape
    rcases (C87_crossover_partial inds ps hne h (n + 1) (by omega) out).1 ⟨tape, tape', hrun⟩ with
      ⟨tr, ps', hex, hch, -⟩ | ⟨-, rfl⟩
    · exact absurd hch (hno tr hex.1)
    · exact ⟨tape', hrun⟩

/-- **C87, typed crossover.** If all nodes of the parents are typed, no crossover ever changes a root:
the first nodes of the offspring are the first nodes of the parents, whatever is drawn. -/
theorem C87_crossover_root_kept (inds : List Ind) (ps : List Prog) (hne : inds ≠ [])
    (h : List.Forall₂ Represents inds ps) (htyped : ∀ p ∈ ps, ∀ n ∈ p.flatten, n.type ≠ none)
    (attempts : Nat) (hpos : 0 < attempts) (tape tape' : Tape) (out : List Ind)
    (hrun : subtreeCrossover inds.length attempts inds tape = (.ok out, tape')) :
    out.map (·.tree.head?) = inds.map (·.tree.head?) := by
  rcases (C87_crossover_partial inds ps hne h attempts hpos out).1 ⟨tape, tape', hrun⟩ with
    ⟨tr, ps', ⟨rfl, rfl⟩, hch, rfl⟩ | ⟨-, rfl⟩
  · have hlen := h.length_eq
    simp only [List.length_map] at hlen
    have htree := represents_map h
    apply List.ext_getElem
    · simp [turn_length, hlen]
    · intro i h1 h2
      simp only [List.length_map] at h2
      have hi : i < tr.length := by omega
      obtain ⟨τ, hτ⟩ := hch.each tr[i] (List.getElem_mem hi)
      have e : inds[i].tree = (tr[i].1.fill tr[i].2).flatten := by
        have := congrArg (fun l => l[i]?) htree
        simpa [h2, hi] using this
      simp only [List.getElem_map, List.getElem_zipWith, e]
      exact hτ.root_kept (htyped _ (List.mem_map.2 ⟨tr[i], List.getElem_mem hi, rfl⟩))
  · rfl

/-! ### The counterexample -/

namespace Sample

/-- `add(x, x)` -/
def twin : Prog := .app add [.term x none, .term x none]
/-- the context `add(x, _)` -/
def twinCtx : Ctx := .app add [.term x none] .hole []

theorem twin_typed : twin.HasType none := by simp [twin, Prog.HasType, Prog.HaveTypes, add]

theorem twin_fns : ∀ f ∈ twin.fns, f ∈ cfg.functionSet ∧ f.Legal := by
  simp [twin, Prog.fns, Prog.fnsAll, cfg, Fn.Legal, add]

theorem y_growable : (Prog.term y none).Growable cfg none 0 0 := by
  refine ⟨?_, ⟨?_, ?_⟩, ?_, ?_⟩ <;>
    simp [Prog.HasType, Prog.fns, Prog.terms, Cfg.Leaf, cfg, Prog.termDepths, Prog.fnDepths]

end Sample

/-- **C87 is false of the code.** The claim would be that subtree mutation can exchange every
sub-program of a tree for everything the grow method can create.  In `add(x, x)` the second `x` is out
of reach: whatever is drawn, mutation never produces `add(x, y)`, although a single `y` is in the range
of the grow method. -/
theorem C87_refuted :
    ¬ ∀ (c : Cfg), DistinctKeys c.terminalSet → c.ErcProper → c.Untyped → ∀ (p : Prog),
      p.HasType none → (∀ f ∈ p.fns, f ∈ c.functionSet ∧ f.Legal) → ∀ (lo hi : Nat), lo ≤ hi →
      ∀ (ctx : Ctx) (q r : Prog), p = ctx.fill q → r.Growable c none lo hi →
      ∃ tape tape', subtreeMutation lo hi 1 [⟨c, p.flatten⟩] tape
        = (.ok [⟨c, (ctx.fill r).flatten⟩], tape') := by
  intro hall
  have hd : DistinctKeys Sample.cfg.terminalSet := by
    simp [DistinctKeys, Sample.cfg, Sample.x, Sample.y, Data.pyEq, Data.num?]
  have h := hall Sample.cfg hd Sample.cfg_ercProper Sample.cfg_untyped Sample.twin Sample.twin_typed
    Sample.twin_fns 0 0 le_rfl Sample.twinCtx (.term Sample.x none) (.term Sample.y none) rfl
    Sample.y_growable
  have h := (C87_mutation_partial Sample.cfg hd Sample.cfg_ercProper none Sample.cfg_requests
    Sample.twin Sample.twin_typed Sample.twin_fns 0 0 le_rfl 1 (by decide) _).1 h
  rcases h with ⟨ctx, q, r, σ, hp, -, hch, hr, ho⟩ | ⟨-, ho⟩
  · simp only [List.cons.injEq, and_true, Ind.mk.injEq, true_and] at ho
    have hterm : ∃ v ty, r = .term v ty := by
      cases r with
      | term v ty => exact ⟨v, ty, rfl⟩
      | app f args =>
        have := hr.fns 0 (by simp [Prog.fnDepths])
        omega
    obtain ⟨v, ty, rfl⟩ := hterm
    cases ctx with
    | hole => simp [Ctx.fill, Sample.twinCtx, Prog.flatten, Prog.flattenAll] at ho
    | app f l c rr =>
      simp only [Ctx.fill, Sample.twin, Prog.app.injEq] at hp
      obtain ⟨rfl, hp⟩ := hp
      cases l with
      | nil =>
        simp only [List.nil_append, List.cons_append, List.cons.injEq] at hp
        obtain ⟨hp, rfl⟩ := hp
        cases c with
        | app f l c rr => simp [Ctx.fill] at hp
        | hole =>
          simp [Ctx.fill, Sample.twinCtx, Prog.flatten, Prog.flattenAll, Sample.x, Sample.y] at ho
      | cons a l =>
        simp only [List.cons_append, List.cons.injEq] at hp
        obtain ⟨rfl, hp⟩ := hp
        cases l with
        | cons b l => simp at hp
        | nil =>
          simp only [List.nil_append, List.cons_append, List.cons.injEq] at hp
          obtain ⟨hp, -⟩ := hp
          cases c with
          | app f l c rr => simp [Ctx.fill] at hp
          | hole =>
            simp only [Ctx.fill] at hp
            subst hp
            obtain ⟨n, root, h1, -, -, h4⟩ := hch
            simp only [Prog.flatten, List.head?_cons, Option.some.injEq] at h1
            subst h1
            simp [Ctx.before, Prog.flattenAll, Prog.flatten] at h4
  · simp [Ctx.fill, Sample.twinCtx, Sample.twin, Prog.flatten, Prog.flattenAll, Sample.x,
      Sample.y] at ho

/-! ### Non-vacuity -/

namespace Sample

/-- The first `x` of `add(x, x)` can be chosen, the second cannot. -/
example : Choosable none (.app add [] .hole [.term x none]) (.term x none) ∧
    ¬ Choosable none twinCtx (.term x none) := by
  refine ⟨⟨.term x none, .func add, rfl, rfl, .inl rfl, ?_⟩, ?_⟩
  · simp [Ctx.before, Prog.flattenAll]
  · rintro ⟨n, root, h1, -, -, h4⟩
    simp only [Prog.flatten, List.head?_cons, Option.some.injEq] at h1
    subst h1
    simp [twinCtx, Ctx.before, Prog.flattenAll, Prog.flatten] at h4

/-- A run that does what the first part allows. -/
example : (subtreeMutation 0 0 1 [⟨cfg, twin.flatten⟩] (fun n => if n = 0 then 2 else 1)).1 =
    .ok [⟨cfg, (Prog.app add [.term y none, .term x none]).flatten⟩] := by rfl

/-- Typed programs: all nodes of `intAdd(n, 5)` are typed, and a block of it can be chosen. -/
example : (∀ n ∈ (Prog.app intAdd [.term ⟨7, .str "n"⟩ (some .int),
      .term ⟨8, .int 5⟩ (some .int)]).flatten, n.type ≠ none) ∧
    Choosable none (.app intAdd [] .hole [.term ⟨8, .int 5⟩ (some .int)])
      (.term ⟨7, .str "n"⟩ (some .int)) ∧
    Represents ⟨intCfg, (Prog.app intAdd [.term ⟨7, .str "n"⟩ (some .int),
      .term ⟨8, .int 5⟩ (some .int)]).flatten⟩ (Prog.app intAdd [.term ⟨7, .str "n"⟩ (some .int),
      .term ⟨8, .int 5⟩ (some .int)]) := by
  refine ⟨?_, ⟨_, .func intAdd, rfl, rfl, .inr ⟨by simp, .inl rfl⟩, ?_⟩, rfl, ?_, ?_⟩
  · intro n hn
    simp only [Prog.flatten, Prog.flattenAll, List.append_nil, List.cons_append, List.nil_append,
      List.mem_cons, List.not_mem_nil, or_false] at hn
    rcases hn with rfl | rfl | rfl <;> decide
  · simp [Ctx.before, Prog.flattenAll]
  · simp [Prog.Ok, Prog.OkAll, intAdd]
  · simp [Prog.fns, Prog.fnsAll, intCfg]

/-- `intAdd(n, 5)` and the single terminal `n` have no matching cuts: the terminal is the root. -/
example : ∀ tr : List (Ctx × Prog), [Prog.app intAdd [.term ⟨7, .str "n"⟩ (some .int),
      .term ⟨8, .int 5⟩ (some .int)], .term ⟨7, .str "n"⟩ (some .int)] = tr.map (fun x => x.1.fill x.2) →
    ¬ ChoosableAll tr := by
  intro tr htr hch
  have hlen : tr.length = 2 := by simpa using (congrArg List.length htr).symm
  obtain ⟨a, ⟨c, q⟩, rfl⟩ := List.length_eq_two.1 hlen
  · obtain ⟨-, r, -, h⟩ := hch
    obtain ⟨n, root, h1, h2, h3, -⟩ := h (c, q) (by simp)
    simp only [List.map_cons, List.map_nil, List.cons.injEq, and_true] at htr
    have hcq := htr.2
    cases c with
    | hole =>
      simp only [Ctx.fill] at hcq h2
      subst hcq
      rw [h1] at h2
      cases h2
      simp only [Prog.flatten, List.head?_cons, Option.some.injEq] at h1
      subst h1
      rcases h3 with h | h
      · simp [Node.type] at h
      · exact h.1 rfl
    | app f l c rr => simp [Ctx.fill] at hcq

end Sample
end Verif.GP
