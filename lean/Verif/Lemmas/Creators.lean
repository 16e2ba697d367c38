import Verif.Lemmas.Subtree
import Verif.Spec.Creation

/-! # The tree creators -/

namespace Verif.GP
open PyM

theorem randomFunction_post (c : Cfg) (τ : Option Ty) :
    Post (randomFunction c τ) fun r => ∀ n, r = some n →
      ∃ f ∈ c.functionSet, n = .func f ∧ f.ret = τ ∧ f.Legal := by
  unfold randomFunction
  refine Post.ite (fun _ => Post.pure (by simp)) fun h => ?_
  refine Post.bind (Rand.choice_post _) fun f hf => ?_
  refine Post.bind (Post.ofExcept (Q := fun n => n = .func f ∧ f.Legal)
    fun a ha => mkFunctionNode_ok ha) fun n hn => Post.pure ?_
  intro m hm
  simp only [Option.some.injEq] at hm
  subst hm
  rw [List.mem_filter] at hf
  exact ⟨f, hf.1, hn.1, of_decide_eq_true hf.2, hn.2⟩

theorem drawErc_post (e : Erc) : Post (drawErc e) fun v =>
    ∃ q, v.data.num? = some q ∧ v.data.type = (if e.isFloat then .float else .int) ∧
      (e.lo ≤ e.hi → e.lo ≤ q ∧ q ≤ e.hi) := by
  unfold drawErc
  refine Post.ite (fun h => ?_) fun h => ?_
  · refine Post.bind (Q := fun q => e.lo ≤ e.hi → e.lo ≤ q ∧ q ≤ e.hi) ?_ fun q hq =>
      Post.bind Post.trivial fun r _ => Post.pure ⟨q, rfl, by simp [h, Data.type], hq⟩
    intro t a t' hrun hle
    exact Rand.uniform_post hle t a t' hrun
  · refine Post.bind Rand.randint_post fun z hz => Post.bind Post.trivial fun r _ => Post.pure
      ⟨z, rfl, by simp [h, Data.type], fun _ => hz⟩

theorem relevantTerminals_post (c : Cfg) (τ : Option Ty) :
    Post (relevantTerminals c τ) fun rel => ∀ v ∈ rel,
      ((v, τ) ∈ c.terminalSet) ∨ (ercApplies τ = true ∧ ∃ e, c.erc = some e ∧ ∃ q, v.data.num? = some q ∧
        v.data.type = (if e.isFloat then .float else .int) ∧
        (e.lo ≤ e.hi → e.lo ≤ q ∧ q ≤ e.hi)) := by
  have hbase : ∀ v ∈ (c.terminalSet.filter fun kv => decide (kv.2 = τ)).map (·.1),
      (v, τ) ∈ c.terminalSet := by
    intro v hv
    simp only [List.mem_map, List.mem_filter, decide_eq_true_eq] at hv
    obtain ⟨⟨a, b⟩, ⟨h1, h2⟩, rfl⟩ := hv
    simp only at h2
    subst h2
    exact h1
  unfold relevantTerminals
  simp only
  split
  · rename_i e he
    refine Post.ite (fun h => ?_) fun _ => Post.pure fun v hv => .inl (hbase v hv)
    refine Post.bind (drawErc_post e) fun v hv => Post.pure ?_
    intro w hw
    rcases List.mem_append.1 hw with hw | hw
    · exact .inl (hbase w hw)
    · simp only [List.mem_singleton] at hw
      subst hw
      exact .inr ⟨h, e, he, hv⟩
  · exact Post.pure fun v hv => .inl (hbase v hv)

theorem randomTerminal_post (c : Cfg) (τ : Option Ty) :
    Post (randomTerminal c τ) fun r => ∀ n, r = some n →
      ∃ v, n = .term v (terminalType c τ v) ∧ c.Offers v ∧
        (((v, τ) ∈ c.terminalSet) ∨ (ercApplies τ = true ∧ ∃ e, c.erc = some e ∧
          ∃ q, v.data.num? = some q ∧
          v.data.type = (if e.isFloat then .float else .int))) := by
  unfold randomTerminal
  refine Post.bind (relevantTerminals_post c τ) fun rel hrel => ?_
  refine Post.ite (fun _ => Post.pure (by simp)) fun h => ?_
  refine Post.bind (Rand.choice_post _) fun v hv => Post.pure ?_
  intro n hn
  simp only [Option.some.injEq] at hn
  subst hn
  refine ⟨v, rfl, ?_, ?_⟩
  · rcases hrel v hv with h | ⟨-, e, he, q, h1, h2, h3⟩
    · exact .inl ⟨_, h, rfl⟩
    · exact .inr ⟨e, he, q, h1, h3⟩
  · rcases hrel v hv with h | ⟨ha, e, he, q, h1, h2, h3⟩
    · exact .inl h
    · exact .inr ⟨ha, e, he, q, h1, h2⟩

theorem assertNode_post {n : Option Node} : Post (assertNode n) fun m => n = some m := by
  cases n with
  | none => exact Post.raise
  | some n => exact Post.pure rfl

theorem createArgs_post {create : Option Ty → Rand (List Node)} {R : Prog → Option Ty → Prop}
    (ts : List (Option Ty))
    (h : ∀ τ ∈ ts, Post (create τ) fun l => ∃ p : Prog, l = p.flatten ∧ R p τ) :
    Post (createArgs create ts) fun l =>
      ∃ ps : List Prog, l = Prog.flattenAll ps ∧ List.Forall₂ R ps ts := by
  induction ts with
  | nil => exact Post.pure ⟨[], by simp [Prog.flattenAll], .nil⟩
  | cons τ ts ih =>
    refine Post.bind (h τ (by simp)) fun l hl => ?_
    refine Post.bind (ih fun σ hσ => h σ (by simp [hσ])) fun ls hls => Post.pure ?_
    obtain ⟨p, rfl, hp⟩ := hl
    obtain ⟨ps, rfl, hps⟩ := hls
    exact ⟨p :: ps, by simp [Prog.flattenAll], .cons hp hps⟩

/-- What the creators guarantee for a created program `p`, requested type `τ` and depth window
`[lo, hi]`.  `S` is a set of types on which `random_terminal` is known to be type-correct. -/
structure Created (c : Cfg) (S : Option Ty → Prop) (lo hi : Nat) (p : Prog) (τ : Option Ty) :
    Prop where
  ok : p.Ok
  built : p.BuiltFrom c
  upper : ∀ d ∈ p.leafDepths, d ≤ hi
  lower : (∀ f ∈ c.functionSet, f.params ≠ []) → ∀ d ∈ p.leafDepths, lo ≤ d
  typed : S τ → (∀ f ∈ c.functionSet, ∀ σ ∈ f.params, S σ) →
    (∀ σ, S σ → Post (randomTerminal c σ) fun r => ∀ v t, r = some (.term v t) → t = σ) →
    p.HasType τ
  leaves : S τ → (∀ f ∈ c.functionSet, ∀ σ ∈ f.params, S σ) → ∀ L : Val → Option Ty → Prop,
    (∀ σ, S σ → Post (randomTerminal c σ) fun r => ∀ v t, r = some (.term v t) → L v t) →
    ∀ vt ∈ p.terms, L vt.1 vt.2

theorem created_app {c : Cfg} {S : Option Ty → Prop} {lo hi : Nat} {f : Fn} {τ : Option Ty}
    {ps : List Prog} (hf : f ∈ c.functionSet) (hr : f.ret = τ) (hl : f.Legal)
    (hps : List.Forall₂ (Created c S (lo - 1) hi) ps f.params) :
    Created c S lo (hi + 1) (.app f ps) τ := by
  have hmem : ∀ p ∈ ps, ∃ σ ∈ f.params, Created c S (lo - 1) hi p σ := by
    intro p hp
    obtain ⟨i, hi', rfl⟩ := List.getElem_of_mem hp
    have := List.forall₂_iff_get.1 hps
    exact ⟨f.params[i]'(by rw [← this.1]; exact hi'), List.getElem_mem _,
      this.2 i hi' (by rw [← this.1]; exact hi')⟩
  refine ⟨?_, ⟨?_, ?_⟩, ?_, ?_, ?_, ?_⟩
  · refine ⟨hps.length_eq, Prog.okAll_iff.2 fun p hp => ?_⟩
    obtain ⟨σ, -, h⟩ := hmem p hp
    exact h.ok
  · intro g hg
    simp only [Prog.fns, List.mem_cons, Prog.mem_fnsAll] at hg
    rcases hg with rfl | ⟨p, hp, hg⟩
    · exact ⟨hf, hl⟩
    · obtain ⟨σ, -, h⟩ := hmem p hp
      exact h.built.1 g hg
  · intro v hv
    simp only [Prog.terms, Prog.mem_termsAll] at hv
    obtain ⟨p, hp, hv⟩ := hv
    obtain ⟨σ, -, h⟩ := hmem p hp
    exact h.built.2 v hv
  · intro d hd
    simp only [Prog.leafDepths] at hd
    split at hd
    · simp at hd; omega
    · simp only [List.mem_map, Prog.mem_leafDepthsAll] at hd
      obtain ⟨e, ⟨p, hp, he⟩, rfl⟩ := hd
      obtain ⟨σ, -, h⟩ := hmem p hp
      have := h.upper e he
      omega
  · intro hnn d hd
    simp only [Prog.leafDepths] at hd
    split at hd
    · rename_i hnil
      exfalso
      apply hnn f hf
      have := hps.length_eq
      rw [hnil] at this
      exact List.length_eq_zero_iff.1 (by simpa using this.symm)
    · simp only [List.mem_map, Prog.mem_leafDepthsAll] at hd
      obtain ⟨e, ⟨p, hp, he⟩, rfl⟩ := hd
      obtain ⟨σ, -, h⟩ := hmem p hp
      have := h.lower hnn e he
      omega
  · intro hS hcl hterm
    refine ⟨hr, Prog.haveTypes_forall₂.2 ?_⟩
    refine List.forall₂_iff_get.2 ⟨hps.length_eq, fun i h1 h2 => ?_⟩
    exact ((List.forall₂_iff_get.1 hps).2 i h1 h2).typed
      (hcl f hf _ (List.getElem_mem _)) hcl hterm
  · intro hS hcl L hL v hv
    simp only [Prog.terms, Prog.mem_termsAll] at hv
    obtain ⟨p, hp, hv⟩ := hv
    obtain ⟨σ, hσ, h⟩ := hmem p hp
    exact h.leaves (hcl f hf σ hσ) hcl L hL v hv

/-- A created terminal. -/
theorem created_term {c : Cfg} {S : Option Ty → Prop} {hi : Nat} {τ : Option Ty} :
    Post (do
      let n ← randomTerminal c τ
      let n ← assertNode n
      pure [n]) fun l => ∃ p : Prog, l = p.flatten ∧ Created c S 0 hi p τ := by
  intro t l t' hrun
  obtain ⟨n, t1, h1, h2⟩ := bind_ok.1 hrun
  obtain ⟨m, t2, h3, h4⟩ := bind_ok.1 h2
  have hm := assertNode_post t1 m t2 h3
  obtain ⟨v, hv, hoff, -⟩ := randomTerminal_post c τ t n t1 h1 m hm
  rw [pure_run] at h4
  simp only [Prod.mk.injEq, Except.ok.injEq] at h4
  refine ⟨.term v (terminalType c τ v), by rw [← h4.1, hv]; rfl, ?_, ⟨?_, ?_⟩, ?_, ?_, ?_, ?_⟩
  · trivial
  · simp [Prog.fns]
  · simp [Prog.terms, hoff]
  · simp [Prog.leafDepths]
  · simp
  · intro hS _ hterm
    exact hterm τ hS t n t1 h1 v _ (by rw [hm, hv])
  · intro hS _ L hL vt hvt
    simp only [Prog.terms, List.mem_singleton] at hvt
    subst hvt
    exact hL τ hS t n t1 h1 v _ (by rw [hm, hv])

theorem Created.mono {c : Cfg} {S : Option Ty → Prop} {lo lo' hi hi' : Nat} {p : Prog}
    {τ : Option Ty} (h : Created c S lo hi p τ) (h1 : lo' ≤ lo) (h2 : hi ≤ hi') :
    Created c S lo' hi' p τ :=
  ⟨h.ok, h.built, fun d hd => le_trans (h.upper d hd) h2,
    fun hn d hd => le_trans h1 (h.lower hn d hd), h.typed, h.leaves⟩

theorem fullTree_post (c : Cfg) (S : Option Ty → Prop) (rem : Nat) : ∀ τ,
    Post (fullTree c rem τ) fun l => ∃ p : Prog, l = p.flatten ∧ Created c S rem rem p τ := by
  induction rem with
  | zero => intro τ; exact created_term
  | succ rem ih =>
    intro τ
    unfold fullTree
    refine Post.bind (randomFunction_post c τ) fun r hr => ?_
    refine Post.bind assertNode_post fun n hn => ?_
    obtain ⟨f, hf, rfl, hret, hl⟩ := hr n hn
    simp only
    have hty : (getFuncTypes f).dropLast = f.params := by
      rw [getFuncTypes_legal hl]; simp
    rw [hty]
    refine Post.bind (createArgs_post (R := Created c S rem rem) f.params fun σ _ => ih σ)
      fun l hls => Post.pure ?_
    obtain ⟨ps, rfl, hps⟩ := hls
    exact ⟨.app f ps, by simp [Prog.flatten], created_app hf hret hl hps⟩

theorem childTypes_legal {f : Fn} (hl : f.Legal) : childTypes f = f.params := by
  unfold childTypes
  rw [getFuncTypes_legal hl, Fn.arity, List.take_left]

theorem growTree_post (c : Cfg) (S : Option Ty → Prop) (pPrune : ℚ) (fuel : Nat) : ∀ need rem τ,
    fuel = max need rem →
    Post (growTree c pPrune fuel need rem τ) fun l =>
      ∃ p : Prog, l = p.flatten ∧ Created c S need (max need rem) p τ := by
  induction fuel with
  | zero =>
    intro need rem τ hfuel
    have h1 : need = 0 := by omega
    have h2 : rem = 0 := by omega
    subst h1 h2
    exact created_term
  | succ fuel ih =>
    intro need rem τ hfuel
    unfold growTree
    refine Post.bind (Q := fun b => b = false → need = 0) ?_ fun b hb => ?_
    · refine Post.ite (fun _ => Post.pure (by simp)) fun h => ?_
      have h0 : need = 0 := by omega
      refine Post.ite (fun _ => Post.pure fun _ => h0) fun _ =>
        Post.bind Post.trivial fun _ _ => Post.pure fun _ => h0
    · refine Post.ite (fun hbt => ?_) fun hbf => ?_
      · refine Post.bind (randomFunction_post c τ) fun r hr => ?_
        refine Post.bind assertNode_post fun n hn => ?_
        obtain ⟨f, hf, rfl, hret, hl⟩ := hr n hn
        simp only
        rw [childTypes_legal hl]
        refine Post.bind (createArgs_post (R := Created c S (need - 1) (max (need - 1) (rem - 1)))
          f.params fun σ _ => ih (need - 1) (rem - 1) σ (by omega)) fun l hls => Post.pure ?_
        obtain ⟨ps, rfl, hps⟩ := hls
        refine ⟨.app f ps, by simp [Prog.flatten],
          (created_app hf hret hl hps).mono (Nat.le_refl _) (by omega)⟩
      · have h0 := hb (by simpa using hbf)
        subst h0
        exact created_term

/-! ### Which exceptions the creators can raise -/

theorem choice_raises {α : Type} {xs : List α} (h : xs ≠ []) {E : Err → Prop} :
    Raises (Rand.choice xs) E := by
  intro s e s' hrun
  obtain ⟨a, s1, h1⟩ := Rand.choice_total h s
  rw [h1] at hrun; simp at hrun

theorem next_raises {E : Err → Prop} : Raises Rand.next E := by
  intro s e s' h; simp [Rand.next] at h

theorem random_raises {E : Err → Prop} : Raises Rand.random E := by
  unfold Rand.random
  exact Raises.bind next_raises Post.trivial fun _ _ =>
    Raises.bind next_raises Post.trivial fun _ _ => Raises.pure

theorem Raises.ite' {σ α : Type} {c : Prop} [Decidable c] {m₁ m₂ : PyM σ α} {E : Err → Prop}
    (h1 : c → Raises m₁ E) (h2 : ¬ c → Raises m₂ E) : Raises (if c then m₁ else m₂) E := by
  split
  · exact h1 ‹_›
  · exact h2 ‹_›

theorem drawErc_raises (e : Erc) : Raises (drawErc e) (· = .valueError) := by
  unfold drawErc
  refine Raises.ite' (fun _ => ?_) fun _ => ?_
  · unfold Rand.uniform
    refine Raises.bind (Raises.bind random_raises Post.trivial fun _ _ => Raises.pure) Post.trivial
      fun _ _ => Raises.bind next_raises Post.trivial fun _ _ => Raises.pure
  · refine Raises.bind ?_ Post.trivial fun _ _ =>
      Raises.bind next_raises Post.trivial fun _ _ => Raises.pure
    unfold Rand.randint
    refine Raises.ite' (fun _ => Raises.raise rfl) fun _ => Raises.ite' (fun _ => Raises.raise rfl)
      fun _ => Raises.bind next_raises Post.trivial fun _ _ => Raises.pure

theorem randomTerminal_raises (c : Cfg) (τ : Option Ty) :
    Raises (randomTerminal c τ) (· = .valueError) := by
  unfold randomTerminal
  refine Raises.bind ?_ Post.trivial fun rel _ => ?_
  · unfold relevantTerminals
    simp only
    split
    · exact Raises.ite' (fun _ => Raises.bind (drawErc_raises _) Post.trivial
        fun _ _ => Raises.pure) fun _ => Raises.pure
    · exact Raises.pure
  · exact Raises.ite' (fun _ => Raises.pure) fun h =>
      Raises.bind (choice_raises h) Post.trivial fun _ _ => Raises.pure

theorem randomFunction_raises (c : Cfg) (τ : Option Ty) :
    Raises (randomFunction c τ) (· = .valueError) := by
  unfold randomFunction
  refine Raises.ite' (fun _ => Raises.pure) fun h => ?_
  refine Raises.bind (choice_raises h) Post.trivial fun f _ => ?_
  refine Raises.bind ?_ Post.trivial fun _ _ => Raises.pure
  intro s e s' hrun
  simp only [PyM.ofExcept, mkFunctionNode, Prod.mk.injEq] at hrun
  have := hrun.1
  split at this <;> simp at this
  exact this.symm

theorem assertNode_raises (n : Option Node) : Raises (assertNode n) (· = .valueError) := by
  cases n with
  | none => exact Raises.raise rfl
  | some n => exact Raises.pure

theorem createArgs_raises {create : Option Ty → Rand (List Node)} (ts : List (Option Ty))
    (h : ∀ τ ∈ ts, Raises (create τ) (· = .valueError)) :
    Raises (createArgs create ts) (· = .valueError) := by
  induction ts with
  | nil => exact Raises.pure
  | cons τ ts ih =>
    exact Raises.bind (h τ (by simp)) Post.trivial fun _ _ =>
      Raises.bind (ih fun σ hσ => h σ (by simp [hσ])) Post.trivial fun _ _ => Raises.pure

theorem fullTree_raises (c : Cfg) (rem : Nat) : ∀ τ,
    Raises (fullTree c rem τ) (· = .valueError) := by
  induction rem with
  | zero =>
    intro τ
    exact Raises.bind (randomTerminal_raises c τ) Post.trivial fun n _ =>
      Raises.bind (assertNode_raises n) Post.trivial fun _ _ => Raises.pure
  | succ rem ih =>
    intro τ
    unfold fullTree
    refine Raises.bind (randomFunction_raises c τ) (randomFunction_post c τ) fun r hr => ?_
    refine Raises.bind (assertNode_raises _) assertNode_post fun n hn => ?_
    obtain ⟨f, hf, rfl, -, -⟩ := hr n hn
    exact Raises.bind (createArgs_raises _ fun σ _ => ih σ) Post.trivial fun _ _ => Raises.pure

theorem growTree_raises (c : Cfg) (pPrune : ℚ) (fuel : Nat) : ∀ need rem τ,
    Raises (growTree c pPrune fuel need rem τ) (· = .valueError) := by
  induction fuel with
  | zero =>
    intro need rem τ
    exact Raises.bind (randomTerminal_raises c τ) Post.trivial fun n _ =>
      Raises.bind (assertNode_raises n) Post.trivial fun _ _ => Raises.pure
  | succ fuel ih =>
    intro need rem τ
    unfold growTree
    refine Raises.bind ?_ Post.trivial fun b _ => Raises.ite' (fun _ => ?_) fun _ => ?_
    · exact Raises.ite' (fun _ => Raises.pure) fun _ => Raises.ite' (fun _ => Raises.pure) fun _ =>
        Raises.bind random_raises Post.trivial fun _ _ => Raises.pure
    · refine Raises.bind (randomFunction_raises c τ) (randomFunction_post c τ) fun r hr => ?_
      refine Raises.bind (assertNode_raises _) assertNode_post fun n hn => ?_
      obtain ⟨f, hf, rfl, -, -⟩ := hr n hn
      exact Raises.bind (createArgs_raises _ fun σ _ => ih _ _ σ) Post.trivial
        fun _ _ => Raises.pure
    · exact Raises.bind (randomTerminal_raises c τ) Post.trivial fun n _ =>
        Raises.bind (assertNode_raises n) Post.trivial fun _ _ => Raises.pure

end Verif.GP
