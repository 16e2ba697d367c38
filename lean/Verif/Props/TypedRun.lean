import Verif.Spec.TypedRun
import Verif.Lemmas.Descent
import Verif.Props.Legal
import Verif.Props.Positions

/-! # C88, C89: typed programs throughout a run -/

namespace Verif.GP
open PyM Verif.Evo
variable {κ : Type}

/-- What the typing of a configuration gives: `S` is the set of types asked for. -/
structure TypeFacts (c : GP.Cfg) (S : Option Ty → Prop) : Prop where
  root : S c.rootType
  params : ∀ f ∈ c.functionSet, ∀ σ ∈ f.params, S σ
  term : ∀ σ, S σ → Post (randomTerminal c σ) fun r => ∀ v t, r = some (.term v t) → t = σ
  uniform : (∀ σ, S σ → σ ≠ none) ∨ ∀ σ, S σ → σ = none
  legal : ∀ f ∈ c.functionSet, f.Legal

theorem AcceptedTyped.facts {fs kvs ρ erc c} (hacc : AcceptedTyped fs kvs ρ erc c)
    (hleg : ∀ f ∈ fs, f.Legal) (hs : c.ErcSafe) : TypeFacts c (Requested c) := by
  have hreq := requested_params hacc hleg
  obtain ⟨hc, h2, h3⟩ := handle_dict hacc.2
  have hd : DistinctKeys c.terminalSet := by rw [hc]; exact hacc.1
  have hroot : c.rootType = some ρ := by rw [hc]
  refine ⟨⟨⟨ρ, hroot⟩, .inl rfl⟩, hreq, fun σ hσ => randomTerminal_typed hd hs hσ.1 hσ.2,
    .inl fun σ hσ => ?_, ?_⟩
  · obtain ⟨t, rfl⟩ := hσ.1
    simp
  · rw [hc]; exact hleg

theorem Cfg.Untyped.facts {c : GP.Cfg} (hu : c.Untyped) (hroot : c.rootType = none) :
    TypeFacts c (· = none) where
  root := hroot
  params := fun f hf => (hu.1 f hf).1
  term := by rintro _ rfl; exact randomTerminal_untyped hu
  uniform := .inr fun _ h => h
  legal := fun f hf => .inr (hu.1 f hf)

variable {c : GP.Cfg} {S : Option Ty → Prop}

theorem TypeFacts.sub (h : TypeFacts c S) {C : Ctx} {q : Prog} {τ : Option Ty} (hτ : S τ)
    (hfs : ∀ f ∈ (C.fill q).fns, f ∈ c.functionSet) (hty : (C.fill q).HasType τ) :
    ∃ σ, S σ ∧ q.HasType σ ∧ (∀ n, q.flatten.head? = some n → n.type = σ) ∧
      ∀ r : Prog, r.HasType σ → (C.fill r).HasType τ := by
  obtain ⟨σ, h1, h2, h3⟩ := Ctx.fill_hasType_param hty
  refine ⟨σ, ?_, h1, fun n hn => ?_, h3⟩
  · rcases h2 with rfl | ⟨f, hf, hσ⟩
    · exact hτ
    · exact h.params f (hfs f hf) σ hσ
  · rw [head_type (fun f hf => ?_) hn]
    · exact (HasType.rootType h1).symm
    · refine h.legal f (hfs f ?_)
      obtain ⟨pre, post, hfill⟩ := C.flatten_fill
      rw [Prog.mem_fns_iff] at hf ⊢
      rw [hfill]
      simp [hf]

theorem TypeFacts.nodes (h : TypeFacts c S) {p : Prog} {τ : Option Ty} (hτ : S τ)
    (hfs : ∀ f ∈ p.fns, f ∈ c.functionSet) (hty : p.HasType τ) : ∀ n ∈ p.flatten, S n.type := by
  intro n hn
  obtain ⟨i, hi, rfl⟩ := List.getElem_of_mem hn
  obtain ⟨C, q, pre, post, hp, hlen, hf⟩ := Ctx.exists_at p i hi
  subst hp
  obtain ⟨σ, hσ, -, h2, -⟩ := h.sub hτ hfs hty
  rw [h2 _ ?_]
  · exact hσ
  · have h1 : (C.fill q).flatten[i]? = some ((C.fill q).flatten[i]) := List.getElem?_eq_getElem hi
    conv at h1 => lhs; rw [hf q]
    obtain ⟨m, l, hml⟩ := List.exists_cons_of_ne_nil q.flatten_ne_nil
    rw [hml] at h1 ⊢
    rw [List.append_assoc, List.getElem?_append_right (by omega), hlen] at h1
    simpa using h1

/-! ### Creators -/

theorem typed_creates (h : TypeFacts c S) {create : Option Ty → Rand (List Node)} {lo hi : Nat}
    (hp : Post (create c.rootType) fun l => ∃ p : Prog, l = p.flatten ∧ Created c S lo hi p c.rootType) :
    Post (do let t ← create c.rootType; pure (⟨c, t⟩ : GP.Ind)) (WellTyped c c.rootType) :=
  Post.bind hp fun _ ⟨p, hp, hc⟩ => Post.pure ⟨rfl, p,
    ⟨hp, hc.ok, fun f hf => (hc.built.1 f hf).1⟩, hc.typed h.root h.params h.term⟩

theorem full_makes_typed (h : TypeFacts c S) (maxDepth : Nat) (fit : Bool → Fit) (up : Bool) :
    Makes (WellTyped c c.rootType) (fullCreator c maxDepth fit up) :=
  createIndividuals_makes' _ _ _ (typed_creates h (fullTree_post c S maxDepth _))

theorem grow_makes_typed (h : TypeFacts c S) (pPrune : ℚ) (minDepth maxDepth : Nat) (fit : Bool → Fit)
    (up : Bool) : Makes (WellTyped c c.rootType) (growCreator c pPrune minDepth maxDepth fit up) :=
  createIndividuals_makes' _ _ _ (typed_creates h (growTree_post c S pPrune _ minDepth maxDepth _ rfl))

theorem LibCreator.makes_typed (h : TypeFacts c S) {m : Mode} {create : Nat → Bool → WM GP.Ind (List Nat)}
    (hl : LibCreator c m create) : Makes (WellTyped c c.rootType) create := by
  cases hl with
  | full d fit up => exact full_makes_typed h d fit up
  | grow q lo hi fit up => exact grow_makes_typed h q lo hi fit up
  | half q lo hi fit up =>
    exact halfCreate_makes (fun d => grow_makes_typed h q lo d fit up)
      (fun d => full_makes_typed h d fit up) _ _

/-! ### Operators -/

theorem typed_programs {τ : Option Ty} {inds : List GP.Ind} (h : ∀ i ∈ inds, WellTyped c τ i) :
    ∃ ps, List.Forall₂ (fun i p => i.cfg = c ∧ Represents i p ∧ p.HasType τ) inds ps := by
  induction inds with
  | nil => exact ⟨[], .nil⟩
  | cons i is ih =>
    obtain ⟨hc, p, hp⟩ := h i (by simp)
    obtain ⟨ps, hps⟩ := ih fun j hj => h j (by simp [hj])
    exact ⟨p :: ps, .cons ⟨hc, hp⟩ hps⟩

/-- The operator keeps the typing and, if the types are proper, produces no new root functions. -/
def Conserves (c : GP.Cfg) (S : Option Ty → Prop) (f : List GP.Ind → Rand (List GP.Ind)) : Prop :=
  ∀ inds, (∀ i ∈ inds, WellTyped c c.rootType i) → Post (f inds) fun out =>
    (∀ i ∈ out, WellTyped c c.rootType i) ∧
    ((∀ σ, S σ → σ ≠ none) → ∀ i ∈ out, ∃ j ∈ inds, i.rootFn = j.rootFn)

/-- A cut at a qualifying node of a typed tree is not at the root. -/
theorem Eligible.root_kept {τ : Option Ty} {x : Ctx × Prog} {r : Prog} (h : Eligible τ x)
    (hty : ∀ n ∈ (x.1.fill x.2).flatten, n.type ≠ none) :
    (x.1.fill r).flatten.head? = (x.1.fill x.2).flatten.head? := by
  obtain ⟨n, h1, h2⟩ := h
  obtain ⟨h3, h4⟩ := mem_relevantNodes.1 h2
  obtain ⟨C, q⟩ := x
  cases C with
  | hole =>
    rcases h4 n h1 with h | h
    · exact absurd h (hty n h3)
    · exact absurd rfl h.1
  | app f l c rr => simp [Ctx.fill, Prog.flatten]

theorem rootFn_congr {i j : GP.Ind} (h : i.tree.head? = j.tree.head?) : i.rootFn = j.rootFn := by
  unfold Ind.rootFn
  rw [h]

theorem crossover_conserves (h : TypeFacts c S) (arity attempts : Nat) :
    Conserves c S (subtreeCrossover arity attempts) := by
  intro inds hinds tape out tape' hrun
  obtain ⟨ps, hps⟩ := typed_programs hinds
  have hrep : List.Forall₂ Represents inds ps := hps.imp fun _ _ h => h.2.1
  have hps' := List.forall₂_iff_get.1 hps
  have hat : ∀ p ∈ ps, (∀ f ∈ p.fns, f ∈ c.functionSet) ∧ p.HasType c.rootType := by
    intro p hp
    obtain ⟨k, hk, rfl⟩ := List.getElem_of_mem hp
    have := hps'.2 k (by omega) hk
    simp only [List.get_eq_getElem] at this
    exact ⟨fun f hf => this.1 ▸ this.2.1.2.2 f hf, this.2.2⟩
  have hnodes : ∀ p ∈ ps, ∀ n ∈ p.flatten, S n.type := fun p hp =>
    h.nodes h.root (hat p hp).1 (hat p hp).2
  have hhom : Homogeneous ps := h.uniform.imp (fun hu p hp n hn => hu _ (hnodes p hp n hn))
    fun hu p hp n hn => hu _ (hnodes p hp n hn)
  have hty : List.Forall₂ Prog.HasType ps (ps.map fun _ => c.rootType) := by
    rw [List.forall₂_map_right_iff, List.forall₂_same]
    exact fun p hp => (hat p hp).2
  have hlegal : ∀ p ∈ ps, ∀ f ∈ p.fns, f.Legal := fun p hp f hf => h.legal f ((hat p hp).1 f hf)
  obtain ⟨qs, hq1, hq2⟩ := C05_crossover_typed inds ps _ hrep hty hhom hlegal arity attempts tape tape' out hrun
  obtain ⟨hcfg, qs', hq3⟩ := crossover_legal_post hrep (fun i hi j hj f hf => by
    rw [(hinds j hj).1]; rwa [(hinds i hi).1] at hf) arity attempts tape out tape' hrun
  constructor
  · intro i hi
    have hleg := legal_of_cfgs (cfg := c) (fun i hi => ⟨(hinds i hi).1, (hinds i hi).2.imp fun _ h => h.1⟩)
      hcfg hq3 i hi
    obtain ⟨h1, p, hp⟩ := hleg
    refine ⟨h1, p, hp, ?_⟩
    have hm : i.tree ∈ out.map (·.tree) := List.mem_map_of_mem hi
    rw [hq1] at hm
    obtain ⟨q, hq, he⟩ := List.mem_map.1 hm
    obtain ⟨k, hk, rfl⟩ := List.getElem_of_mem hq
    have hq2' := List.forall₂_iff_get.1 hq2
    have ht := hq2'.2 k hk (by omega)
    simp only [List.get_eq_getElem, List.getElem_map] at ht
    rw [hp.1] at he
    rwa [Prog.flatten_injective ht.ok hp.2.1 he] at ht
  · intro hproper i hi
    rcases crossover_post hrep arity attempts tape out tape' hrun with rfl |
      ⟨tr, x0, tl, ps', hex, htr, rfl, hel0, r0, hr0, hel⟩
    · exact ⟨i, hi, rfl⟩
    · obtain ⟨k, hk, rfl⟩ := List.getElem_of_mem hi
      simp only [List.length_zipWith] at hk
      refine ⟨inds[k], List.getElem_mem (by omega), ?_⟩
      simp only [List.getElem_zipWith]
      refine rootFn_congr ?_
      show (ps'[k]'(by omega)).flatten.head? = inds[k].tree.head?
      have hkp : k < ps.length := by rw [← hps'.1]; omega
      have hkt : k < tr.length := by have := hex.1; rw [this] at hkp; simpa using hkp
      have h1 := (hps'.2 k (by omega) hkp).2.1.1
      simp only [List.get_eq_getElem] at h1
      have hpk : ps[k] = tr[k].1.fill tr[k].2 := by simp [hex.1]
      have hcut : ∃ τ, Eligible τ tr[k] := by
        have hm : tr[k] ∈ x0 :: tl := htr ▸ List.getElem_mem hkt
        rcases List.mem_cons.1 hm with e | hm
        · exact ⟨none, e ▸ hel0⟩
        · exact ⟨_, hel _ hm⟩
      obtain ⟨τ, hcut⟩ := hcut
      rw [h1, hpk]
      have hp'k : ∃ q, ps'[k]'(by omega) = tr[k].1.fill q := by
        simp only [hex.2, List.getElem_zipWith]
        exact ⟨_, rfl⟩
      obtain ⟨q, hq⟩ := hp'k
      rw [hq]
      refine hcut.root_kept fun n hn => hproper _ ?_
      exact hnodes ps[k] (List.getElem_mem hkp) n (hpk ▸ hn)

theorem mutation_conserves (h : TypeFacts c S) (lo hi attempts : Nat) :
    Conserves c S (subtreeMutation lo hi attempts) := by
  intro inds hinds tape out tape' hrun
  obtain ⟨ps, hps⟩ := typed_programs hinds
  have hrep : List.Forall₂ Represents inds ps := hps.imp fun _ _ h => h.2.1
  rcases mutation_post (fun _ => S) lo hi hrep attempts tape out tape' hrun with rfl | ⟨tr, rfl, hel, hm⟩
  · exact ⟨hinds, fun _ i hi => ⟨i, hi, rfl⟩⟩
  · have hlen := hps.length_eq
    rw [List.length_map] at hlen
    have hm' := List.forall₂_iff_get.1 hm
    have hps' := List.forall₂_iff_get.1 hps
    have key : ∀ k (hk : k < out.length), WellTyped c c.rootType out[k] ∧
        ((∀ σ, S σ → σ ≠ none) → ∃ j ∈ inds, out[k].rootFn = j.rootFn) := by
      intro k hk
      have hkz : k < (inds.zip tr).length := by rw [hm'.1]; exact hk
      have hki : k < inds.length := by simp at hkz; omega
      have hkt : k < tr.length := by simp at hkz; omega
      have hmk := hm'.2 k hkz hk
      have hpk := hps'.2 k hki (by simpa using hkt)
      simp only [List.get_eq_getElem, List.getElem_zip, List.getElem_map] at hmk hpk
      obtain ⟨r, n, hn, ho, hr⟩ := hmk
      obtain ⟨hcfg, hrepk, hty⟩ := hpk
      simp only at hn ho hr
      have hfs : ∀ f ∈ (tr[k].1.fill tr[k].2).fns, f ∈ c.functionSet := fun f hf => hcfg ▸ hrepk.2.2 f hf
      obtain ⟨σ, h1, h2, h3, h4⟩ := h.sub h.root hfs hty
      rw [h3 n hn, hcfg] at hr
      refine ⟨?_, fun hproper => ⟨inds[k], List.getElem_mem hki, ?_⟩⟩
      · rw [ho]
        refine ⟨hcfg, tr[k].1.fill r, ⟨rfl, Ctx.fill_ok hrepk.2.1 hr.ok, ?_⟩, h4 r (hr.typed h1 h.params h.term)⟩
        intro f hf
        obtain ⟨pre, post, hfill⟩ := tr[k].1.flatten_fill
        show f ∈ inds[k].cfg.functionSet
        rw [hcfg]
        rw [Prog.mem_fns_iff, hfill, List.mem_append, List.mem_append] at hf
        rcases hf with (hf | hf) | hf
        · exact hfs f (Prog.mem_fns_iff.2 (by rw [hfill]; simp [hf]))
        · exact (hr.built.1 f (Prog.mem_fns_iff.2 hf)).1
        · exact hfs f (Prog.mem_fns_iff.2 (by rw [hfill]; simp [hf]))
      · rw [ho]
        refine rootFn_congr ?_
        show (tr[k].1.fill r).flatten.head? = inds[k].tree.head?
        rw [hrepk.1]
        refine (hel _ (List.getElem_mem hkt)).root_kept fun n hn => hproper _ ?_
        exact h.nodes h.root hfs hty n hn
    refine ⟨fun i hi => ?_, fun hproper i hi => ?_⟩
    · obtain ⟨k, hk, rfl⟩ := List.getElem_of_mem hi
      exact (key k hk).1
    · obtain ⟨k, hk, rfl⟩ := List.getElem_of_mem hi
      exact (key k hk).2 hproper

theorem erc_conserves (mu sigma : ℚ) : Conserves c S (ercMutation mu sigma) := by
  intro inds hinds tape out tape' hrun
  obtain ⟨ps, hps⟩ := typed_programs hinds
  have hrep : List.Forall₂ Represents inds ps := hps.imp fun _ _ h => h.2.1
  rcases erc_post hrep mu sigma tape out tape' hrun with rfl | hm
  · exact ⟨hinds, fun _ i hi => ⟨i, hi, rfl⟩⟩
  · have hm' := List.forall₂_iff_get.1 hm
    have hps' := List.forall₂_iff_get.1 hps
    have key : ∀ k (hk : k < out.length), WellTyped c c.rootType out[k] ∧
        ∃ j ∈ inds, out[k].rootFn = j.rootFn := by
      intro k hk
      have hkz : k < (inds.zip ps).length := by rw [hm'.1]; exact hk
      have hki : k < inds.length := by simp at hkz; omega
      have hkt : k < ps.length := by simp at hkz; omega
      have hmk := hm'.2 k hkz hk
      have hpk := hps'.2 k hki hkt
      simp only [List.get_eq_getElem, List.getElem_zip] at hmk hpk
      obtain ⟨C, v, v', ty, q, g, hp, -, -, -, ho⟩ := hmk
      obtain ⟨hcfg, hrepk, hty⟩ := hpk
      obtain ⟨pre, post, hfill⟩ := C.flatten_fill
      rw [hp] at hrepk hty
      rw [ho]
      refine ⟨⟨hcfg, C.fill (.term v' ty), ⟨rfl, Ctx.fill_ok hrepk.2.1 trivial, fun f hf => ?_⟩, ?_⟩,
        inds[k], List.getElem_mem hki, ?_⟩
      · refine hrepk.2.2 f ?_
        rw [Prog.mem_fns_iff, hfill] at hf ⊢
        simpa [Prog.flatten] using hf
      · obtain ⟨σ, hσ, hrepl⟩ := Ctx.fill_hasType hty
        exact hrepl _ hσ
      · unfold Ind.rootFn
        simp only [hrepk.1]
        cases C with
        | hole => simp [Ctx.fill, Prog.flatten]
        | app f l c rr => simp [Ctx.fill, Prog.flatten]
    refine ⟨fun i hi => ?_, fun _ i hi => ?_⟩
    · obtain ⟨k, hk, rfl⟩ := List.getElem_of_mem hi
      exact (key k hk).1
    · obtain ⟨k, hk, rfl⟩ := List.getElem_of_mem hi
      exact (key k hk).2

theorem Conserves.preserves {f : List GP.Ind → Rand (List GP.Ind)} (h : Conserves c S f)
    {P : GP.Ind → Prop} (hP : ∀ inds out : List GP.Ind, (∀ i ∈ inds, P i) →
      (∀ i ∈ out, WellTyped c c.rootType i) →
      ((∀ σ, S σ → σ ≠ none) → ∀ i ∈ out, ∃ j ∈ inds, i.rootFn = j.rootFn) → ∀ i ∈ out, P i)
    (hW : ∀ i, P i → WellTyped c c.rootType i) (name : String) (p : ℚ) (arity : Nat) :
    (Op.inPlace name p arity fun gs => do let out ← f gs; pure (some out)).Preserves P :=
  Op.inPlace_preserves _ _ _ fun gs hgs =>
    Post.bind (h gs fun i hi => hW i (hgs i hi)) fun out ho =>
      Post.pure (by rintro _ ⟨⟩; exact hP gs out hgs ho.1 ho.2)

theorem LibOp.conserves (h : TypeFacts c S) {o : Op GP.Ind} (ho : LibOp o) :
    ∃ name p arity f, o = (Op.inPlace name p arity fun gs => do let out ← f gs; pure (some out)) ∧
      Conserves c S f := by
  cases ho with
  | crossover p a n => exact ⟨_, _, _, _, rfl, crossover_conserves h a n⟩
  | mutation p lo hi n => exact ⟨_, _, _, _, rfl, mutation_conserves h lo hi n⟩
  | erc p a mu sigma => exact ⟨_, _, _, _, rfl, erc_conserves mu sigma⟩

theorem LibOp.preserves_typed (h : TypeFacts c S) {o : Op GP.Ind} (ho : LibOp o) :
    o.Preserves (WellTyped c c.rootType) := by
  obtain ⟨name, p, arity, f, rfl, hf⟩ := ho.conserves h
  exact hf.preserves (fun _ _ _ h _ => h) (fun _ h => h) _ _ _

theorem LibOp.preserves_root (h : TypeFacts c S) (hproper : ∀ σ, S σ → σ ≠ none) {o : Op GP.Ind}
    (ho : LibOp o) (R : Option Fn → Prop) :
    o.Preserves fun i => WellTyped c c.rootType i ∧ R i.rootFn := by
  obtain ⟨name, p, arity, f, rfl, hf⟩ := ho.conserves h
  refine hf.preserves (fun inds out h1 h2 h3 i hi => ⟨h2 i hi, ?_⟩) (fun _ h => h.1) _ _ _
  obtain ⟨j, hj, e⟩ := h3 hproper i hi
  rw [e]
  exact (h1 j hj).2

theorem typed_run (h : TypeFacts c S) {C : Evo.Cfg GP.Ind κ} {sub : SubCfg GP.Ind} {m : Mode}
    (hb : C.BuiltWith sub m (LibCreator c m) LibOp) {s : Run GP.Ind κ} (hr : s.Ready m)
    (hf : s.Starts (WellTyped c c.rootType)) (r : Except Err Unit) (s' : Run GP.Ind κ)
    (hrun : evolve C s = (r, s')) : ∀ e ∈ s'.log, e.AllHave (WellTyped c c.rootType) :=
  run_invariant hb (fun _ h => h.good) (fun _ hl => hl.makes_typed h) (fun _ h => h.good)
    (fun _ ho => ho.preserves_typed h) hr hf r s' hrun

/-- **C88, typed configurations (partial).** In a run put together from the library's tree creators and
tree operators over a typed configuration the constructor accepts, with completely annotated functions
and an ERC range that does not clash with the other numeric types (`ErcSafe`): every individual that can
be seen in any event is a well-typed program of the root type, however the run ends.
Missing: without `ErcSafe` the claim is false, see `C88_refuted`. -/
theorem C88_typed_partial {fs kvs ρ erc c} (hacc : AcceptedTyped fs kvs ρ erc c)
    (hleg : ∀ f ∈ fs, f.Legal) (hs : c.ErcSafe) {C : Evo.Cfg GP.Ind κ} {sub : SubCfg GP.Ind} {m : Mode}
    (hb : C.BuiltWith sub m (LibCreator c m) LibOp) {s : Run GP.Ind κ} (hr : s.Ready m)
    (hf : s.Starts (WellTyped c (some ρ))) (r : Except Err Unit) (s' : Run GP.Ind κ)
    (hrun : evolve C s = (r, s')) : ∀ e ∈ s'.log, e.AllHave (WellTyped c (some ρ)) := by
  have hroot : c.rootType = some ρ := by rw [(handle_dict hacc.2).1]
  rw [← hroot] at hf ⊢
  exact typed_run (hacc.facts hleg hs) hb hr hf r s' hrun

/-- **C88, untyped configurations.** The same without restriction for untyped configurations: no typed
node ever appears. -/
theorem C88_untyped {c : GP.Cfg} (hu : c.Untyped) (hroot : c.rootType = none) {C : Evo.Cfg GP.Ind κ}
    {sub : SubCfg GP.Ind} {m : Mode} (hb : C.BuiltWith sub m (LibCreator c m) LibOp) {s : Run GP.Ind κ}
    (hr : s.Ready m) (hf : s.Starts (WellTyped c none)) (r : Except Err Unit) (s' : Run GP.Ind κ)
    (hrun : evolve C s = (r, s')) : ∀ e ∈ s'.log, e.AllHave (WellTyped c none) := by
  rw [← hroot] at hf ⊢
  exact typed_run (hu.facts hroot) hb hr hf r s' hrun

/-- **C89, confinement.** In a run over a typed configuration as in `C88_typed_partial`, the function at
the root of every individual that can be seen in any event is the function at the root of some
individual of the initial population (and an individual that is a single terminal can be seen only if
there was one): evolution never changes roots, it only selects among them. -/
theorem C89_roots_confined {fs kvs ρ erc c} (hacc : AcceptedTyped fs kvs ρ erc c)
    (hleg : ∀ f ∈ fs, f.Legal) (hs : c.ErcSafe) {C : Evo.Cfg GP.Ind κ} {sub : SubCfg GP.Ind} {m : Mode}
    (hb : C.BuiltWith sub m (LibCreator c m) LibOp) {s : Run GP.Ind κ} (hr : s.Ready m)
    (hf : s.Starts (WellTyped c (some ρ))) (r : Except Err Unit) (s' : Run GP.Ind κ)
    (hrun : evolve C s = (r, s')) : Confined Ind.rootFn s'.log := by
  have hroot : c.rootType = some ρ := by rw [(handle_dict hacc.2).1]
  rw [← hroot] at hf
  have hfacts := hacc.facts hleg hs
  refine Desc.confined (P := WellTyped c c.rootType) (evolve_desc (hb.ordinary (fun _ h => h.good) fun _ h => h.good)
    (fun x hx n hib s => ((hb.creators x hx).makes_typed hfacts n hib s).mono fun _ _ h => h.2)
    Ind.rootFn (fun R o ho => (hb.ops o ho).preserves_root hfacts (fun σ hσ => ?_) R) hr hf r s' hrun)
  obtain ⟨t, rfl⟩ := hσ.1
  simp

namespace Typed

/-- `g(i: int, j: int) -> int` -/
def g : Fn := ⟨1, [some .int, some .int], some .int⟩
/-- `h(x: float, y: float) -> float` -/
def h : Fn := ⟨2, [some .float, some .float], some .float⟩
/-- Two functions of type float, one of type int, no ERC range. -/
def cfg2 : Cfg := ⟨[f, g, h], kvs, none, some .float⟩

theorem accepted2 : AcceptedTyped [f, g, h] kvs .float none cfg2 := by
  refine ⟨?_, by rfl⟩
  simp [DistinctKeys, kvs, i, x, Data.pyEq, Data.num?]

/-- Four trees of depth one or two, with crossover and subtree mutation; the fitness is the size. -/
def sub2 : SubCfg GP.Ind where
  creators := [halfCreator cfg2 (1 / 2) 1 2 (fun h => ⟨.none, false, h, false, true, none⟩) true]
  pick := pure 0
  ops := [crossoverOp 1 2 1, mutationOp 1 0 1 1]
  sels := [tournament (fun i => i.tree.length) 2 false]
  popSize := 4
  nElite := 1
  hib := true
  evaluate := fun i => pure i.tree.length

def run2Cfg : Evo.Cfg GP.Ind Unit where
  size := fun i => i.tree.length
  subs := [sub2]
  stream := fun seed n => seed + n * n
  maxGen := 2
  checker := .none
  sched := fun _ n => List.range n
  submit := false

theorem run2Cfg_built : run2Cfg.BuiltWith sub2 ⟨true, none⟩ (LibCreator cfg2 ⟨true, none⟩) LibOp where
  subs := rfl
  dir := rfl
  creators := by
    intro create h
    simp only [sub2, List.mem_singleton] at h
    subst h
    exact .half _ _ _ _ _ ⟨rfl, rfl⟩
  sels := ⟨_, _, rfl, tournament_good _ _, tournament_fills _ _⟩
  ops := by
    intro o ho
    simp only [sub2, List.mem_cons, List.not_mem_nil, or_false] at ho
    rcases ho with rfl | rfl
    · exact .crossover _ _ _
    · exact .mutation _ _ _ _
  sched := fun _ _ => List.Perm.refl _
  map := rfl

/-- The run returns after two generations. -/
theorem run2_ends : (evolve run2Cfg exLibRun).1 = .ok () ∧ (evolve run2Cfg exLibRun).2.genNum = 2 ∧
    (evolve run2Cfg exLibRun).2.log.length = 14 := by decide +kernel

theorem legal2 : ∀ k ∈ [f, g, h], k.Legal := by simp [f, g, h, Fn.Legal]

example := C88_typed_partial accepted2 legal2 (.inl rfl) run2Cfg_built (s := exLibRun) (.inl rfl)
  ⟨by simp [exLibRun], rfl, rfl, rfl⟩ (.ok ()) (evolve run2Cfg exLibRun).2 (ran run2_ends.1)

example := C89_roots_confined accepted2 legal2 (.inl rfl) run2Cfg_built (s := exLibRun) (.inl rfl)
  ⟨by simp [exLibRun], rfl, rfl, rfl⟩ (.ok ()) (evolve run2Cfg exLibRun).2 (ran run2_ends.1)

/-- The log is not empty and shows individuals with a function at the root. -/
example : ((evolve run2Cfg exLibRun).2.log.head?.map fun e =>
    e.snap.heap.map fun i => i.genome.rootFn.isSome) = some [true, true, true, true] := by decide +kernel

example := C88_untyped Sample.cfg_untyped rfl exLibCfg_built (s := exLibRun) (.inl rfl)
  ⟨by simp [exLibRun], rfl, rfl, rfl⟩ (.ok ()) (evolve exLibCfg exLibRun).2 (ran exLibRun_ends.1)

/-- Two trees of depth one over the configuration of `C08_refuted`. -/
def subBad : SubCfg GP.Ind where
  creators := [fullCreator cfg 1 (fun h => ⟨.none, false, h, false, true, none⟩) true]
  pick := pure 0
  ops := []
  sels := [tournament (fun i => i.tree.length) 2 false]
  popSize := 1
  nElite := 0
  hib := true
  evaluate := fun i => pure i.tree.length

def runBadCfg : Evo.Cfg GP.Ind Unit where
  size := fun i => i.tree.length
  subs := [subBad]
  stream := fun _ n => if n = 4 then 1 else 0
  maxGen := 0
  checker := .none
  sched := fun _ n => List.range n
  submit := false

theorem runBadCfg_built : runBadCfg.BuiltWith subBad ⟨true, none⟩ (LibCreator cfg ⟨true, none⟩) LibOp where
  subs := rfl
  dir := rfl
  creators := by
    intro create h
    simp only [subBad, List.mem_singleton] at h
    subst h
    exact .full _ _ _ ⟨rfl, rfl⟩
  sels := ⟨_, _, rfl, tournament_good _ _, tournament_fills _ _⟩
  ops := by simp [subBad]
  sched := fun _ _ => List.Perm.refl _
  map := rfl

end Typed

/-- The full form of C88 (without any restriction on the ERC range). -/
def C88_statement : Prop :=
  ∀ fs kvs ρ erc c, AcceptedTyped fs kvs ρ erc c → (∀ f ∈ fs, f.Legal) →
    ∀ (C : Evo.Cfg GP.Ind Unit) (sub : SubCfg GP.Ind) (m : Mode), C.BuiltWith sub m (LibCreator c m) LibOp →
    ∀ s : Run GP.Ind Unit, s.Ready m → s.Starts (WellTyped c (some ρ)) → ∀ r s', evolve C s = (r, s') →
      ∀ e ∈ s'.log, e.AllHave (WellTyped c (some ρ))

/-- **C88 is false in general.** A run over the configuration of `C08_refuted`, which the constructor
accepts, evolves an ill-typed program. -/
theorem C88_refuted : ¬ C88_statement := by
  intro h
  have hall := h _ _ _ _ _ Typed.accepted (by simp [Typed.f, Fn.Legal]) _ _ _ Typed.runBadCfg_built exLibRun
    (.inl rfl) ⟨by simp [exLibRun], rfl, rfl, rfl⟩ _ _ rfl
  have hlog : (evolve Typed.runBadCfg exLibRun).2.log.head?.map (fun e => (e.snap.inds,
      e.snap.heap.map fun i => i.genome.tree)) = some ([some [0]],
        [Prog.flatten (.app Typed.f [.term ⟨0, .float 0⟩ (some .float), .term Typed.x (some .float)])]) := by
    decide +kernel
  obtain ⟨e, he, hs⟩ := Option.map_eq_some_iff.1 hlog
  simp only [Prod.mk.injEq] at hs
  obtain ⟨i, hi, -, p, ⟨ht, hok, -⟩, hty⟩ := (hall e (List.mem_of_mem_head? he)).1 [0] (by rw [hs.1]; simp) 0 (by simp)
  have h0 : (e.snap.heap.map fun i => i.genome.tree)[0]? = some i.genome.tree := by simp [hi]
  rw [hs.2] at h0
  simp only [List.getElem?_cons_zero, Option.some.injEq] at h0
  rw [ht] at h0
  have hp := Prog.flatten_injective (by simp [Prog.Ok, Prog.OkAll, Typed.f]) hok h0
  rw [← hp] at hty
  simp [Prog.HasType, Prog.HaveTypes, Typed.f] at hty

end Verif.GP
