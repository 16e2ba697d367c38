import Verif.Lemmas.Typing
import Verif.Lemmas.Crossover
import Verif.Spec.Mutation

/-! # Subtree mutation and ERC mutation -/

namespace Verif.GP
open PyM

/-- The type required at the hole is the type of the whole or a parameter type of one of its
functions. -/
theorem Ctx.fill_hasType_param {c : Ctx} {p : Prog} {τ : Option Ty} (h : (c.fill p).HasType τ) :
    ∃ σ, p.HasType σ ∧ (σ = τ ∨ ∃ f ∈ (c.fill p).fns, σ ∈ f.params) ∧
      ∀ q : Prog, q.HasType σ → (c.fill q).HasType τ := by
  induction c generalizing τ with
  | hole => exact ⟨τ, h, .inl rfl, fun q hq => hq⟩
  | app f l c r ih =>
    have h' := h
    simp only [fill, Prog.HasType, Prog.haveTypes_forall₂] at h
    obtain ⟨hr, hargs⟩ := h
    have hlen := hargs.length_eq
    rw [List.append_assoc] at hargs
    have hsplit := List.forall₂_iff_get.1 hargs
    have hl : l.length < f.params.length := by
      rw [← hlen]; simp
    have hc : (c.fill p).HasType f.params[l.length] := by
      have := hsplit.2 l.length (by simp) hl
      simpa using this
    obtain ⟨σ, h1, h2, h3⟩ := ih hc
    refine ⟨σ, h1, .inr ?_, fun q hq => ?_⟩
    · rcases h2 with rfl | ⟨g, hg, hσ⟩
      · exact ⟨f, by simp [fill, Prog.fns], List.getElem_mem _⟩
      · refine ⟨g, ?_, hσ⟩
        simp only [fill, Prog.fns, List.mem_cons, Prog.mem_fnsAll]
        exact .inr ⟨c.fill p, by simp, hg⟩
    · have hq' := h3 q hq
      simp only [fill, Prog.HasType, Prog.haveTypes_forall₂]
      refine ⟨hr, List.forall₂_iff_get.2 ⟨by simpa using hlen, fun i hi1 hi2 => ?_⟩⟩
      have hi : i < (l ++ ([c.fill p] ++ r)).length := by simpa using hi1
      have := hsplit.2 i hi hi2
      simp only [List.get_eq_getElem, List.append_assoc] at this ⊢
      by_cases h1 : i < l.length
      · rw [List.getElem_append_left h1] at this ⊢; exact this
      · rw [List.getElem_append_right (by omega)] at this ⊢
        by_cases h2 : i = l.length
        · subst h2; simpa using hq'
        · rw [List.getElem_append_right (by simp; omega)] at this ⊢
          simpa using this

theorem Ctx.fill_builtFrom {c : Ctx} {cfg : Cfg} {p q : Prog} (h : (c.fill p).BuiltFrom cfg)
    (hq : q.BuiltFrom cfg) : (c.fill q).BuiltFrom cfg := by
  induction c with
  | hole => exact hq
  | app f l c r ih =>
    obtain ⟨h1, h2⟩ := h
    simp only [fill, Prog.fns, Prog.terms, List.mem_cons, Prog.mem_fnsAll, Prog.mem_termsAll,
      List.mem_append] at h1 h2
    have hc : (c.fill p).BuiltFrom cfg :=
      ⟨fun g hg => h1 g (.inr ⟨_, .inl (.inr (.inl rfl)), hg⟩),
       fun v hv => h2 v ⟨_, .inl (.inr (.inl rfl)), hv⟩⟩
    have hcq := ih hc
    constructor
    · intro g hg
      simp only [fill, Prog.fns, List.mem_cons, Prog.mem_fnsAll, List.mem_append] at hg
      rcases hg with rfl | ⟨a, (ha | ha | ha) | ha, hg⟩
      · exact h1 _ (.inl rfl)
      · exact h1 g (.inr ⟨a, .inl (.inl ha), hg⟩)
      · subst ha; exact hcq.1 g hg
      · simp at ha
      · exact h1 g (.inr ⟨a, .inr ha, hg⟩)
    · intro v hv
      simp only [fill, Prog.terms, List.mem_cons, Prog.mem_termsAll, List.mem_append] at hv
      rcases hv with ⟨a, (ha | ha | ha) | ha, hv⟩
      · exact h2 v ⟨a, .inl (.inl ha), hv⟩
      · subst ha; exact hcq.2 v hv
      · simp at ha
      · exact h2 v ⟨a, .inr ha, hv⟩

theorem Ctx.builtFrom_of_fill {c : Ctx} {cfg : Cfg} {p : Prog} (h : (c.fill p).BuiltFrom cfg) :
    p.BuiltFrom cfg := by
  induction c with
  | hole => exact h
  | app f l c r ih =>
    obtain ⟨h1, h2⟩ := h
    simp only [fill, Prog.fns, Prog.terms, List.mem_cons, Prog.mem_fnsAll, Prog.mem_termsAll,
      List.mem_append] at h1 h2
    exact ih ⟨fun g hg => h1 g (.inr ⟨_, .inl (.inr (.inl rfl)), hg⟩),
       fun v hv => h2 v ⟨_, .inl (.inr (.inl rfl)), hv⟩⟩

/-- What mutation did to one individual. -/
def Mutant (S : Cfg → Option Ty → Prop) (lo hi : Nat) (x : Ind × Ctx × Prog) (ind' : Ind) : Prop :=
  ∃ (r : Prog) (n : Node), x.2.2.flatten.head? = some n ∧
    ind' = { x.1 with tree := (x.2.1.fill r).flatten } ∧
    Created x.1.cfg (S x.1.cfg) lo hi r n.type

theorem mutateSubtrees_post (S : Cfg → Option Ty → Prop) (lo hi : Nat) {inds : List Ind}
    {tr : List (Ctx × Prog)}
    (h : List.Forall₂ (fun ind x => ind.tree = (Ctx.fill x.1 x.2).flatten) inds tr)
    (hgood : ∀ x ∈ tr, GoodCut x) :
    Post (mutateSubtrees lo hi (inds.zip (tr.map fun x => x.2.flatten))) fun out =>
      List.Forall₂ (Mutant S lo (max lo hi)) (inds.zip tr) out := by
  induction h with
  | nil => exact Post.pure .nil
  | @cons ind x inds tr hx hxs ih =>
    obtain ⟨n, l, hnl⟩ := List.exists_cons_of_ne_nil x.2.flatten_ne_nil
    simp only [List.map_cons, List.zip_cons_cons]
    unfold mutateSubtrees
    rw [hnl]
    simp only
    refine Post.bind (growTree_post ind.cfg (S ind.cfg) (1 / 2) _ lo hi n.type rfl) fun new hnew => ?_
    obtain ⟨r, rfl, hr⟩ := hnew
    refine Post.bind (Post.ofExcept (Q := fun t => t = (x.1.fill r).flatten) ?_) fun t ht => ?_
    · intro t ht
      rw [hx, ← hnl, hgood x (by simp) r] at ht
      exact (Except.ok.inj ht).symm
    · refine Post.bind (ih fun y hy => hgood y (by simp [hy])) fun rest hrest => Post.pure ?_
      exact .cons ⟨r, n, by simp [hnl], by rw [ht], hr⟩ hrest

theorem mutateSubtrees_raises (lo hi : Nat) {inds : List Ind} {tr : List (Ctx × Prog)}
    (h : List.Forall₂ (fun ind x => ind.tree = (Ctx.fill x.1 x.2).flatten) inds tr)
    (hgood : ∀ x ∈ tr, GoodCut x) :
    Raises (mutateSubtrees lo hi (inds.zip (tr.map fun x => x.2.flatten))) (· = .valueError) := by
  induction h with
  | nil => exact Raises.pure
  | @cons ind x inds tr hx hxs ih =>
    obtain ⟨n, l, hnl⟩ := List.exists_cons_of_ne_nil x.2.flatten_ne_nil
    simp only [List.map_cons, List.zip_cons_cons]
    unfold mutateSubtrees
    rw [hnl]
    simp only
    refine Raises.bind (growTree_raises ind.cfg (1 / 2) _ lo hi n.type)
      (growTree_post ind.cfg (fun _ => False) (1 / 2) _ lo hi n.type rfl) fun new hnew => ?_
    obtain ⟨r, rfl, hr⟩ := hnew
    refine Raises.bind ?_ Post.trivial fun _ _ =>
      Raises.bind (ih fun y hy => hgood y (by simp [hy])) Post.trivial fun _ _ => Raises.pure
    intro s e s' hrun
    rw [hx, ← hnl, hgood x (by simp) r] at hrun
    simp [PyM.ofExcept] at hrun

theorem represents_trees {inds : List Ind} {tr : List (Ctx × Prog)}
    (h : List.Forall₂ Represents inds (tr.map fun x => x.1.fill x.2)) :
    List.Forall₂ (fun ind x => ind.tree = (Ctx.fill x.1 x.2).flatten) inds tr := by
  rw [List.forall₂_map_right_iff] at h
  exact h.imp fun _ _ hr => hr.1

theorem mutationAttempt_post (S : Cfg → Option Ty → Prop) (lo hi : Nat) {inds : List Ind}
    {ps : List Prog} (h : List.Forall₂ Represents inds ps) (k : Nat) :
    Post (mutationAttempt lo hi inds k) fun r => (r.1 = false ∧ r.2 = inds) ∨
      (r.1 = true ∧ ∃ tr : List (Ctx × Prog), ps = tr.map (fun x => x.1.fill x.2) ∧
        (∀ x ∈ tr, Eligible none x) ∧
        List.Forall₂ (Mutant S lo (max lo hi)) (inds.zip tr) r.2) := by
  unfold mutationAttempt
  refine Post.bind (pick_rest none h) fun olds holds => ?_
  refine Post.ite (fun _ => Post.pure (.inl ⟨rfl, rfl⟩)) fun hn => ?_
  obtain ⟨tr, h1, h2, h3, h4⟩ := holds hn
  rw [h2]
  subst h1
  refine Post.bind (mutateSubtrees_post S lo hi (represents_trees h) h3) fun out hout =>
    Post.pure (.inr ⟨rfl, tr, rfl, h4, hout⟩)

theorem mutation_post (S : Cfg → Option Ty → Prop) (lo hi : Nat) {inds : List Ind}
    {ps : List Prog} (h : List.Forall₂ Represents inds ps) (attempts : Nat) :
    Post (subtreeMutation lo hi attempts inds) fun out => out = inds ∨
      ∃ tr : List (Ctx × Prog), ps = tr.map (fun x => x.1.fill x.2) ∧
        (∀ x ∈ tr, Eligible none x) ∧
        List.Forall₂ (Mutant S lo (max lo hi)) (inds.zip tr) out :=
  failableLoop_post (mutationAttempt_post S lo hi h) attempts 0

theorem mapL_total {σ α β : Type} {f : α → PyM σ β} (xs : List α) (h : ∀ x ∈ xs, Total (f x)) :
    Total (mapL f xs) := by
  induction xs with
  | nil => exact Total.pure
  | cons x xs ih =>
    exact Total.bind (h x (by simp)) Post.trivial fun _ _ =>
      Total.bind (ih fun y hy => h y (by simp [hy])) Post.trivial fun _ _ => Total.pure

theorem Total.raises {σ α : Type} {m : PyM σ α} (h : Total m) {E : Err → Prop} : Raises m E := by
  intro s e s' hrun
  obtain ⟨a, s1, h1⟩ := h s
  rw [h1] at hrun; simp at hrun

theorem pick_total (τ : Option Ty) {inds : List Ind} {ps : List Prog}
    (h : List.Forall₂ Represents inds ps) :
    Total (mapL (fun ind => randomSubtree ind.cfg.functionSet ind.tree τ) inds) := by
  refine mapL_total _ fun ind hi => ?_
  obtain ⟨k, hk, rfl⟩ := List.getElem_of_mem hi
  have hf := List.forall₂_iff_get.1 h
  obtain ⟨h1, h2, h3⟩ := hf.2 k hk (by rw [← hf.1]; exact hk)
  simp only [List.get_eq_getElem] at h1 h2 h3
  rw [h1]
  exact randomSubtree_total h2 h3 τ

theorem mutation_raises (lo hi : Nat) {inds : List Ind} {ps : List Prog}
    (h : List.Forall₂ Represents inds ps) (attempts : Nat) :
    Raises (subtreeMutation lo hi attempts inds) (· = .valueError) := by
  have hatt : ∀ k, Raises (mutationAttempt lo hi inds k) (· = .valueError) := by
    intro k
    unfold mutationAttempt
    refine Raises.bind (Total.raises (pick_total none h)) (pick_rest none h) fun olds holds => ?_
    refine Raises.ite' (fun _ => Raises.pure) fun hn => ?_
    obtain ⟨tr, h1, h2, h3, h4⟩ := holds hn
    rw [h2]
    subst h1
    exact Raises.bind (mutateSubtrees_raises lo hi (represents_trees h) h3) Post.trivial
      fun _ _ => Raises.pure
  unfold subtreeMutation failableApply
  generalize hi : 0 = i
  clear hi
  induction attempts generalizing i with
  | zero => exact Raises.pure
  | succ n ih =>
    refine Raises.bind (hatt i) (mutationAttempt_post (fun _ _ => False) lo hi h i) fun r hr => ?_
    obtain ⟨b, out⟩ := r
    rcases hr with ⟨h1, h2⟩ | ⟨h1, -⟩
    · simp only at h1 h2; subst h1 h2; exact ih _
    · simp only at h1; subst h1; exact Raises.pure

/-- Under a typing discipline `S` mutation replaces a sub-program by one of the same type. -/
theorem mutant_typed {S : Cfg → Option Ty → Prop} {lo hi : Nat} {ind ind' : Ind} {x : Ctx × Prog}
    (hm : Mutant S lo hi (ind, x) ind') (hb : (x.1.fill x.2).BuiltFrom ind.cfg) {τ : Option Ty}
    (hτ : (x.1.fill x.2).HasType τ) (hS : S ind.cfg τ)
    (hcl : ∀ f ∈ ind.cfg.functionSet, ∀ σ ∈ f.params, S ind.cfg σ)
    (hterm : ∀ σ, S ind.cfg σ → Post (randomTerminal ind.cfg σ) fun r =>
      ∀ v t, r = some (.term v t) → t = σ) :
    ∃ p' : Prog, ind' = { ind with tree := p'.flatten } ∧ p'.Ok ∧ p'.BuiltFrom ind.cfg ∧
      p'.HasType τ := by
  obtain ⟨r, n, hn, hind, hr⟩ := hm
  obtain ⟨σ, h1, h2, h3⟩ := Ctx.fill_hasType_param hτ
  have hty : n.type = σ := by
    rw [head_type (fun f hf => ((Ctx.builtFrom_of_fill hb).1 f hf).2) hn]
    exact (HasType.rootType h1).symm
  have hSσ : S ind.cfg σ := by
    rcases h2 with rfl | ⟨f, hf, hσ⟩
    · exact hS
    · exact hcl f (hb.1 f hf).1 σ hσ
  rw [hty] at hr
  exact ⟨x.1.fill r, hind, Ctx.fill_ok (h3 _ h1).ok hr.ok, Ctx.fill_builtFrom hb hr.built,
    h3 r (hr.typed hSσ hcl hterm)⟩

/-! ### ERC mutation -/

theorem numericPositions_spec {tree : List Node} {i : Nat} (h : i ∈ numericPositions tree) :
    ∃ v ty, tree[i]? = some (.term v ty) ∧ v.data.isNumber = true := by
  unfold numericPositions at h
  rw [List.mem_filter] at h
  obtain ⟨-, h⟩ := h
  cases hn : tree[i]? with
  | none => simp [hn] at h
  | some n =>
    cases n with
    | func f => simp [hn, Node.isNumericTerminal] at h
    | term v ty => exact ⟨v, ty, rfl, by simpa [hn, Node.isNumericTerminal] using h⟩

theorem randomNumericNode_post (tree : List Node) :
    Post (randomNumericNode tree) fun r => match r with
      | none => numericPositions tree = []
      | some i => i ∈ numericPositions tree := by
  unfold randomNumericNode
  refine Post.ite (fun h => Post.pure h) fun h => ?_
  exact Post.bind (Rand.choice_post _) fun i hi => Post.pure hi

theorem ctx_at_terminal {p : Prog} {i : Nat} {v : Val} {ty : Option Ty}
    (h : p.flatten[i]? = some (.term v ty)) :
    ∃ C : Ctx, p = C.fill (.term v ty) ∧
      ∀ w, (C.fill (.term w ty)).flatten = p.flatten.set i (.term w ty) := by
  have hi : i < p.flatten.length := by
    rw [List.getElem?_eq_some_iff] at h; exact h.1
  obtain ⟨C, q, pre, post, hp, hlen, hfill⟩ := Ctx.exists_at p i hi
  have hq : q = .term v ty := by
    rw [hp, hfill, List.append_assoc, List.getElem?_append_right (by omega), hlen,
      Nat.sub_self] at h
    obtain ⟨n, l, hnl⟩ := List.exists_cons_of_ne_nil q.flatten_ne_nil
    rw [hnl] at h
    simp only [List.cons_append, List.getElem?_cons_zero, Option.some.injEq] at h
    cases q with
    | term v' ty' =>
      simp only [Prog.flatten, List.cons.injEq] at hnl
      rw [h] at hnl
      simp only [Node.term.injEq] at hnl
      rw [hnl.1.1, hnl.1.2]
    | app f args =>
      simp only [Prog.flatten, List.cons.injEq] at hnl
      rw [h] at hnl; simp at hnl
  subst hq
  refine ⟨C, hp, fun w => ?_⟩
  rw [hp, hfill, hfill, ← hlen]
  simp [Prog.flatten]

theorem Prog.mem_terms_iff {p : Prog} {v : Val} {ty : Option Ty} :
    (v, ty) ∈ p.terms ↔ Node.term v ty ∈ p.flatten := by
  induction p using Prog.ind with
  | hterm w ty' => simp [Prog.terms, Prog.flatten]
  | happ g args ih =>
    simp only [Prog.terms, Prog.flatten, List.mem_cons, Prog.mem_termsAll, Prog.mem_flattenAll,
      reduceCtorEq, false_or]
    constructor
    · rintro ⟨p, hp, h⟩; exact ⟨p, hp, (ih p hp).1 h⟩
    · rintro ⟨p, hp, h⟩; exact ⟨p, hp, (ih p hp).2 h⟩

theorem numericPositions_nil {p : Prog} (h : numericPositions p.flatten = []) :
    ∀ vt ∈ p.terms, vt.1.data.isNumber = false := by
  rintro ⟨v, ty⟩ hvt
  rw [Prog.mem_terms_iff] at hvt
  obtain ⟨i, hi, hn⟩ := List.getElem_of_mem hvt
  unfold numericPositions at h
  rw [List.filter_eq_nil_iff] at h
  have := h i (by simpa using hi)
  rw [List.getElem?_eq_getElem hi, hn] at this
  simpa [Node.isNumericTerminal] using this

theorem numericPositions_has {p : Prog} {i : Nat} (h : i ∈ numericPositions p.flatten) :
    ∃ vt ∈ p.terms, vt.1.data.isNumber = true := by
  obtain ⟨v, ty, h1, h2⟩ := numericPositions_spec h
  exact ⟨(v, ty), Prog.mem_terms_iff.2 (List.mem_of_getElem? h1), h2⟩

theorem noiseLoop_post (mu sigma : ℚ) {inds : List Ind} {ps : List Prog} {is : List Nat}
    (h : List.Forall₂ Represents inds ps)
    (his : List.Forall₂ (fun p i => i ∈ numericPositions (Prog.flatten p)) ps is) :
    Post (noiseLoop mu sigma (inds.zip is)) fun out =>
      List.Forall₂ (fun x out => Perturbed x.1 x.2 out) (inds.zip ps) out := by
  induction h generalizing is with
  | nil => exact Post.pure .nil
  | @cons ind p inds ps hp hps ih =>
    cases his with
    | @cons _ i _ is hi his =>
      obtain ⟨v, ty, h1, h2⟩ := numericPositions_spec hi
      obtain ⟨C, hC, hset⟩ := ctx_at_terminal h1
      simp only [List.zip_cons_cons]
      unfold noiseLoop
      rw [hp.1, h1]
      simp only
      refine Post.bind Post.trivial fun g _ => Post.bind Post.trivial fun r _ => ?_
      refine Post.bind (Post.ofExcept (Q := fun v' => ∃ q, v.data.num? = some q ∧
        v'.data = .float (q + g)) ?_) fun v' hv' => ?_
      · intro a ha
        unfold addNoise at ha
        cases hq : v.data.num? with
        | none => simp [hq] at ha
        | some q =>
          simp only [hq, Except.ok.injEq] at ha
          exact ⟨q, rfl, by rw [← ha]⟩
      · refine Post.bind (ih his) fun rest hrest => Post.pure (.cons ?_ hrest)
        obtain ⟨q, hq1, hq2⟩ := hv'
        exact ⟨C, v, v', ty, q, g, hC, h2, hq1, hq2, by rw [hset]⟩

theorem noiseLoop_total (mu sigma : ℚ) {inds : List Ind} {ps : List Prog} {is : List Nat}
    (h : List.Forall₂ Represents inds ps)
    (his : List.Forall₂ (fun p i => i ∈ numericPositions (Prog.flatten p)) ps is)
    (hnum : ∀ p ∈ ps, ∀ vt ∈ Prog.terms p, vt.1.data.isNumber = true → vt.1.data.num? ≠ none) :
    Total (noiseLoop mu sigma (inds.zip is)) := by
  induction h generalizing is with
  | nil => exact Total.pure
  | @cons ind p inds ps hp hps ih =>
    cases his with
    | @cons _ i _ is hi his =>
      obtain ⟨v, ty, h1, h2⟩ := numericPositions_spec hi
      simp only [List.zip_cons_cons]
      unfold noiseLoop
      rw [hp.1, h1]
      simp only
      have hv : ∃ q, v.data.num? = some q := Option.ne_none_iff_exists'.1
        (hnum p (by simp) (v, ty) (Prog.mem_terms_iff.2 (List.mem_of_getElem? h1)) h2)
      obtain ⟨q, hq⟩ := hv
      refine Total.bind ?_ Post.trivial fun g _ => Total.bind next_total Post.trivial fun r _ => ?_
      · exact Total.bind next_total Post.trivial fun _ _ => Total.bind next_total Post.trivial
          fun _ _ => Total.bind next_total Post.trivial fun _ _ => Total.pure
      · refine Total.bind ?_ Post.trivial fun _ _ => Total.bind
          (ih his fun p hp => hnum p (by simp [hp])) Post.trivial fun _ _ => Total.pure
        intro s
        exact ⟨⟨r, .float (q + g)⟩, s, by simp [PyM.ofExcept, addNoise, hq]⟩

theorem pickNumeric_post {inds : List Ind} {ps : List Prog}
    (h : List.Forall₂ Represents inds ps) :
    Post (mapL (fun ind => randomNumericNode ind.tree) inds) fun leaves =>
      (none ∈ leaves → ∃ p ∈ ps, numericPositions p.flatten = []) ∧
      (none ∉ leaves → List.Forall₂ (fun p i => i ∈ numericPositions (Prog.flatten p)) ps
        (leaves.filterMap id)) := by
  induction h with
  | nil => exact Post.pure (by simp)
  | @cons ind p inds ps hp hps ih =>
    refine Post.bind (randomNumericNode_post ind.tree) fun r hr => Post.bind ih fun rs hrs =>
      Post.pure ⟨?_, ?_⟩
    · intro hmem
      rcases List.mem_cons.1 hmem with h | h
      · subst h
        exact ⟨p, by simp, by rw [← hp.1]; exact hr⟩
      · obtain ⟨q, hq, hq'⟩ := hrs.1 h
        exact ⟨q, by simp [hq], hq'⟩
    · intro hmem
      simp only [List.mem_cons, not_or] at hmem
      cases r with
      | none => exact absurd rfl hmem.1
      | some i =>
        simp only [List.filterMap_cons, id]
        exact .cons (by rw [← hp.1]; exact hr) (hrs.2 hmem.2)

end Verif.GP
