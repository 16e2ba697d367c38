import Verif.Lemmas.Tree
import Verif.Spec.Exchange
import Mathlib.Tactic.Tauto

/-! # Picking and replacing subtrees -/

namespace Verif.GP
open PyM

theorem hints_annotated {f : Fn} (h1 : ∀ t ∈ f.params, t ≠ none) (h2 : f.ret ≠ none) :
    f.hints = f.params ++ [f.ret] := by
  unfold Fn.hints
  rw [List.filter_eq_self]
  intro a ha
  rw [Option.isSome_iff_ne_none]
  rcases List.mem_append.1 ha with ha | ha
  · exact h1 a ha
  · simp at ha; rw [ha]; exact h2

theorem hints_bare {f : Fn} (h1 : ∀ t ∈ f.params, t = none) (h2 : f.ret = none) :
    f.hints = [] := by
  unfold Fn.hints
  rw [List.filter_eq_nil_iff]
  intro a ha
  rcases List.mem_append.1 ha with ha | ha
  · simp [h1 a ha]
  · simp at ha; simp [ha, h2]

theorem getFuncTypes_legal {f : Fn} (h : f.Legal) : getFuncTypes f = f.params ++ [f.ret] := by
  unfold getFuncTypes
  rcases h with ⟨h1, h2⟩ | ⟨h1, h2⟩
  · rw [hints_annotated h1 h2]; simp
  · rw [hints_bare h1 h2, if_pos rfl, h2, List.replicate_succ', Fn.arity]
    congr 1
    exact (List.eq_replicate_iff.2 ⟨rfl, h1⟩).symm

theorem mkFunctionNode_ok {f : Fn} {n : Node} (h : mkFunctionNode f = .ok n) :
    n = .func f ∧ f.Legal := by
  unfold mkFunctionNode at h
  simp only at h
  split at h
  · simp at h
  · rename_i hc
    simp only [Except.ok.injEq] at h
    refine ⟨h.symm, ?_⟩
    by_cases hh : f.hints = []
    · right
      unfold Fn.hints at hh
      rw [List.filter_eq_nil_iff] at hh
      constructor
      · intro t ht; simpa using hh t (by simp [ht])
      · simpa using hh f.ret (by simp)
    · left
      have hlen : f.params.length + 1 ≤ f.hints.length := by
        have h0 : 0 < (getFuncTypes f).length := by
          unfold getFuncTypes; rw [if_neg hh]; exact List.length_pos_of_ne_nil hh
        have : ¬ (getFuncTypes f).length < f.arity + 1 := fun h => hc ⟨h0, h⟩
        unfold getFuncTypes at this
        rw [if_neg hh] at this
        unfold Fn.arity at this
        omega
      have hfull : f.hints = f.params ++ [f.ret] := by
        unfold Fn.hints at hlen ⊢
        refine List.filter_sublist.eq_of_length_le ?_
        simpa using hlen
      unfold Fn.hints at hfull
      rw [List.filter_eq_self] at hfull
      constructor
      · intro t ht
        exact Option.isSome_iff_ne_none.1 (hfull t (by simp [ht]))
      · exact Option.isSome_iff_ne_none.1 (hfull f.ret (by simp))

theorem node_type_legal {f : Fn} (h : f.Legal) : (Node.func f).type = f.ret := by
  simp [Node.type, getFuncTypes_legal h]

/-- The block found by `_get_subtree_by_root` is a sub-program, in the place where
`replace_subtree` will look for it. -/
theorem getSubtree_listing {fs : List Fn} {p : Prog} (hok : p.Ok) (hfs : ∀ f ∈ p.fns, f ∈ fs)
    {n : Node} (hn : n ∈ p.flatten) :
    ∃ (c : Ctx) (q : Prog), p = c.fill q ∧ getSubtreeByRoot fs p.flatten n = .ok q.flatten ∧
      q.flatten.head? = some n ∧
      ∀ r : Prog, replaceSubtree p.flatten q.flatten r.flatten = .ok (c.fill r).flatten := by
  have hlt : p.flatten.idxOf n < p.flatten.length := List.idxOf_lt_length_iff.2 hn
  obtain ⟨c, q, pre, post, hp, hlen, hfill⟩ := Ctx.exists_at p _ hlt
  have hflat : p.flatten = pre ++ q.flatten ++ post := by rw [hp]; exact hfill q
  have hhead : q.flatten.head? = some n := by
    have h1 : p.flatten[p.flatten.idxOf n]? = some n := by
      rw [List.getElem?_eq_getElem hlt]; simp
    rw [← hlen] at h1
    conv at h1 => lhs; rw [hflat]
    rw [List.append_assoc, List.getElem?_append_right (Nat.le_refl _), Nat.sub_self,
      List.getElem?_append_left (List.length_pos_of_ne_nil q.flatten_ne_nil)] at h1
    rw [List.head?_eq_getElem?]; exact h1
  have hqok : q.Ok := Ctx.ok_of_fill (hp ▸ hok)
  have hqfs : ∀ f ∈ q.fns, f ∈ fs := by
    intro f hf
    refine hfs f (Prog.mem_fns_iff.2 ?_)
    rw [hflat]; simp [Prog.mem_fns_iff.1 hf]
  refine ⟨c, q, hp, ?_, hhead, ?_⟩
  · unfold getSubtreeByRoot
    simp only
    rw [if_neg (Nat.ne_of_lt hlt)]
    split
    · rename_i h0
      have hpre : pre = [] := List.length_eq_zero_iff.1 (by rw [hlen, h0])
      -- the whole tree: the hole is at the root
      cases c with
      | hole => simp [hp, Ctx.fill]
      | app f l c r =>
        exfalso
        have := hfill (.term ⟨0, .int 0⟩ none)
        simp [Ctx.fill, Prog.flatten, hpre] at this
    · have := findEndAt_listing fs p.flatten (p.flatten.length + 1) q hqok hqfs
        (by rw [← Prog.length_flatten, hflat]; simp; omega) pre post hflat
      rw [hlen] at this
      rw [this]
      simp only [bind, Except.bind]
      have hsz := q.size_pos
      rw [show List.idxOf n p.flatten + q.size - 1 + 1 - List.idxOf n p.flatten = q.size by omega,
        ← hlen, hflat, List.append_assoc, List.drop_left, ← Prog.length_flatten, List.take_left]
  · intro r
    obtain ⟨m, l, hml⟩ := List.exists_cons_of_ne_nil q.flatten_ne_nil
    have hm : m = n := by rw [hml] at hhead; simpa using hhead
    subst hm
    rw [hml]
    unfold replaceSubtree
    simp only
    rw [if_neg (Nat.ne_of_lt hlt), hfill r, ← hlen, ← hml, ← List.drop_drop, hflat]
    simp only [List.append_assoc, List.take_left, List.drop_left]

/-- What `random_subtree` returns on the listing of a program. -/
theorem randomSubtree_listing {fs : List Fn} {p : Prog} (hok : p.Ok) (hfs : ∀ f ∈ p.fns, f ∈ fs)
    (τ : Option Ty) :
    Post (randomSubtree fs p.flatten τ) fun r =>
      match r with
      | none => relevantNodes p.flatten τ = []
      | some st => ∃ (c : Ctx) (q : Prog) (n : Node), p = c.fill q ∧ st = q.flatten ∧
          q.flatten.head? = some n ∧ n ∈ relevantNodes p.flatten τ ∧
          ∀ r : Prog, replaceSubtree p.flatten st r.flatten = .ok (c.fill r).flatten := by
  unfold randomSubtree
  refine Post.ite (fun h => Post.pure h) fun h => ?_
  refine Post.bind (Rand.choice_post _) fun n hn => ?_
  have hmem : n ∈ p.flatten := by
    unfold relevantNodes at hn
    exact (List.mem_filter.1 hn).1
  obtain ⟨c, q, hp, hget, hhead, hrep⟩ := getSubtree_listing hok hfs hmem
  refine Post.bind (Q := fun st => st = q.flatten) (Post.ofExcept fun a ha => ?_) fun st hst => ?_
  · rw [hget] at ha; simpa using ha.symm
  · subst hst
    exact Post.pure ⟨c, q, n, hp, rfl, hhead, hn, hrep⟩

/-- `random_subtree` never raises on the listing of a program. -/
theorem randomSubtree_total {fs : List Fn} {p : Prog} (hok : p.Ok) (hfs : ∀ f ∈ p.fns, f ∈ fs)
    (τ : Option Ty) : Total (randomSubtree fs p.flatten τ) := by
  unfold randomSubtree
  simp only
  split
  · exact Total.pure
  · rename_i h
    refine Total.bind (Rand.choice_total h) (Rand.choice_post _) fun n hn => ?_
    have hmem : n ∈ p.flatten := by
      unfold relevantNodes at hn
      exact (List.mem_filter.1 hn).1
    obtain ⟨c, q, hp, hget, -, -⟩ := getSubtree_listing hok hfs hmem
    rw [hget]
    exact Total.bind (Q := fun _ => True) (fun s => ⟨_, _, rfl⟩) Post.trivial fun _ _ => Total.pure

theorem head_type {q : Prog} {n : Node} (hl : ∀ f ∈ q.fns, f.Legal)
    (h : q.flatten.head? = some n) : n.type = q.rootType := by
  cases q with
  | term v ty => simp [Prog.flatten] at h; subst h; rfl
  | app f args =>
    simp [Prog.flatten] at h; subst h
    exact node_type_legal (hl f (by simp [Prog.fns]))

theorem HasType.rootType {q : Prog} {τ} (h : q.HasType τ) : τ = q.rootType := by
  cases q with
  | term v ty => exact h.symm
  | app f args => exact h.1.symm

theorem mem_relevantNodes {p : Prog} {τ : Option Ty} {n : Node} :
    n ∈ relevantNodes p.flatten τ ↔
      n ∈ p.flatten ∧ ∀ root, p.flatten.head? = some root → Qualifies τ root n := by
  obtain ⟨r, tl, hr⟩ := List.exists_cons_of_ne_nil p.flatten_ne_nil
  unfold relevantNodes Qualifies
  rw [List.mem_filter, hr]
  simp only [List.head?_cons, Option.some.injEq, Bool.or_eq_true, decide_eq_true_eq,
    Bool.and_eq_true, ne_eq, decide_not, Bool.not_eq_true', decide_eq_false_iff_not]
  constructor
  · rintro ⟨h1, h2⟩
    refine ⟨h1, ?_⟩
    rintro root rfl
    tauto
  · rintro ⟨h1, h2⟩
    refine ⟨h1, ?_⟩
    have := h2 r rfl
    tauto

end Verif.GP
