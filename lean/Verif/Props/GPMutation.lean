import Verif.Lemmas.Mutation
import Verif.Props.GPCreators
import Verif.Props.GPCrossover

/-!
# C07, C08, C09, C62: mutations of trees; typed evolution
-/

namespace Verif.GP
open PyM

/-! ## C07 -/

theorem mutation_legal_post {inds : List Ind} {ps : List Prog} (h : List.Forall₂ Represents inds ps)
    (lo hi attempts : Nat) :
    Post (subtreeMutation lo hi attempts inds) fun out => (out = inds ∨
        List.Forall₂ (fun x ind' => Replaced lo (max lo hi) x.1 x.2 ind') (inds.zip ps) out) ∧
      ∃ ps', List.Forall₂ Represents out ps' := by
  refine (mutation_post (fun _ _ => False) lo hi h attempts).mono ?_
  rintro out (rfl | ⟨tr, rfl, -, hm⟩)
  · exact ⟨.inl rfl, ps, h⟩
  · have hrep : List.Forall₂ (fun (x : Ind × Prog) ind' => Replaced lo (max lo hi) x.1 x.2 ind')
        (inds.zip (tr.map fun x => x.1.fill x.2)) out := by
      rw [List.zip_map_right, List.forall₂_map_left_iff]
      refine hm.imp ?_
      rintro ⟨ind, C, q⟩ ind' ⟨r, n, -, h2, h3⟩
      exact ⟨C, q, r, rfl, h2, h3.ok, h3.built, fun d hd => ⟨Nat.zero_le _, h3.upper d hd⟩,
        fun hn d hd => ⟨h3.lower hn d hd, h3.upper d hd⟩⟩
    refine ⟨.inr hrep, ?_⟩
    clear hm
    generalize tr.map (fun x => x.1.fill x.2) = ps at h hrep
    clear tr
    induction h generalizing out with
    | nil => cases hrep; exact ⟨[], .nil⟩
    | @cons ind p inds ps hp hps ih =>
      simp only [List.zip_cons_cons] at hrep
      cases hrep with
      | cons hr hrest =>
        obtain ⟨ps', hps'⟩ := ih _ hrest
        obtain ⟨C, q, r, rfl, rfl, hok, hb, -, -⟩ := hr
        refine ⟨C.fill r :: ps', .cons ⟨rfl, Ctx.fill_ok hp.2.1 hok, ?_⟩ hps'⟩
        intro f hf
        obtain ⟨pre, post, hfill⟩ := C.flatten_fill
        have hpf := hp.2.2
        rw [Prog.mem_fns_iff, hfill, List.mem_append, List.mem_append] at hf
        rcases hf with (hf | hf) | hf
        · exact hpf f (Prog.mem_fns_iff.2 (by rw [hfill]; simp [hf]))
        · exact (hb.1 f (Prog.mem_fns_iff.2 hf)).1
        · exact hpf f (Prog.mem_fns_iff.2 (by rw [hfill]; simp [hf]))

/-- **C07.** Subtree mutation of individuals holding legal programs, for every depth window, every
number of attempts and every draw: it raises `ValueError` (a needed function or terminal is
missing) or returns; then either nothing changed, or in every individual one complete sub-program
was replaced by a fresh legal program whose leaves lie in the window; in both cases every individual
again holds a legal program over its function set. -/
theorem C07_mutation_legal (inds : List Ind) (ps : List Prog) (h : List.Forall₂ Represents inds ps)
    (lo hi : Nat) (hle : lo ≤ hi) (attempts : Nat) (tape : Tape) :
    (∃ out tape', subtreeMutation lo hi attempts inds tape = (.ok out, tape') ∧
      (out = inds ∨
        List.Forall₂ (fun x ind' => Replaced lo hi x.1 x.2 ind') (inds.zip ps) out) ∧
      ∃ ps', List.Forall₂ Represents out ps') ∨
    ∃ e tape', subtreeMutation lo hi attempts inds tape = (.error e, tape') ∧ e = .valueError := by
  have := mutation_legal_post h lo hi attempts
  rw [max_eq_right hle] at this
  exact post_or_raises this (mutation_raises lo hi h attempts) tape

/-- A run that mutates: hypotheses of C07 hold, `mul(x, 2)` is replaced by a fresh `add(x, x)`. -/
example : List.Forall₂ Represents Sample.inds3 [Sample.prog, Sample.prog2, Sample.prog3] ∧
    (subtreeMutation 1 1 1 [⟨Sample.cfg, Sample.prog.flatten⟩]
      (fun n => if n = 0 then 1 else 0)).1 = .ok [⟨Sample.cfg,
        [.func Sample.add, .func Sample.add, .term Sample.x none, .term Sample.x none,
         .func Sample.neg, .term Sample.x none]⟩] := by
  refine ⟨Sample.inds3_represents, ?_⟩
  rfl

/-! ## C08 -/

/-- A typed configuration accepted by the constructor: the terminal set is a dictionary. -/
def AcceptedTyped (fs : List Fn) (kvs : List (Val × Option Ty)) (ρ : Ty) (erc : Option Erc)
    (c : Cfg) : Prop :=
  DistinctKeys kvs ∧ handleInputTypes (some fs) (some (.dict kvs)) (some ρ) erc = .ok c

/-- The individual holds a legal program, built from the configuration, of type `τ`. -/
def HoldsTyped (c : Cfg) (τ : Option Ty) (ind : Ind) : Prop :=
  ind.cfg = c ∧ ∃ p : Prog, ind.tree = p.flatten ∧ p.Ok ∧ p.BuiltFrom c ∧ p.HasType τ

/-- The full form of C08 (without any restriction on the ERC range) for creation. -/
def C08_statement : Prop :=
  ∀ fs kvs ρ erc c, AcceptedTyped fs kvs ρ erc c →
    ∀ maxDepth, 0 < maxDepth → ∀ tape l tape',
      fullCreate c maxDepth c.rootType tape = (.ok l, tape') →
      ∃ p : Prog, l = p.flatten ∧ p.Ok ∧ p.HasType c.rootType

/-- The requested types: the root type and the parameter types. -/
def Requested (c : Cfg) (σ : Option Ty) : Prop :=
  (∃ t, σ = some t) ∧ (σ = c.rootType ∨ ∃ f ∈ c.functionSet, σ ∈ f.params)

/-- The program fits: it is built over functions whose parameters are all annotated (typed case) or
is untyped. -/
theorem requested_params {fs kvs ρ erc c} (h : AcceptedTyped fs kvs ρ erc c)
    (hleg : ∀ f ∈ fs, f.Legal) : ∀ f ∈ c.functionSet, ∀ σ ∈ f.params, Requested c σ := by
  obtain ⟨rfl, h2, h3⟩ := handle_dict h.2
  intro f hf σ hσ
  refine ⟨Option.ne_none_iff_exists'.1 (h3 f hf σ ?_), .inr ⟨f, hf, hσ⟩⟩
  rw [getFuncTypes_legal (hleg f hf), List.dropLast_concat]; exact hσ

theorem created_typed {c : Cfg} (hd : DistinctKeys c.terminalSet) (hs : c.ErcSafe)
    (hp : ∀ f ∈ c.functionSet, ∀ σ ∈ f.params, Requested c σ) {lo hi : Nat} {p : Prog}
    {τ : Option Ty} (hτ : Requested c τ) (h : Created c (Requested c) lo hi p τ) : p.HasType τ :=
  h.typed hτ hp fun _ hσ => randomTerminal_typed hd hs hσ.1 hσ.2

/-- **C08, creation (partial).** In an accepted typed configuration whose functions are completely
annotated and whose ERC range does not clash with the other numeric types (`ErcSafe`), every tree
made by the full and the grow method is a well-typed program of the root type.
Missing: without `ErcSafe` the claim is false, see `C08_refuted`. -/
theorem C08_creation_typed_partial {fs kvs ρ erc c} (hacc : AcceptedTyped fs kvs ρ erc c)
    (hleg : ∀ f ∈ fs, f.Legal) (hs : c.ErcSafe) (tape tape' : Tape) (l : List Node) :
    (∀ maxDepth, fullCreate c maxDepth c.rootType tape = (.ok l, tape') →
      HoldsTyped c (some ρ) ⟨c, l⟩) ∧
    (∀ pPrune minDepth maxDepth, growCreate c pPrune minDepth maxDepth c.rootType tape = (.ok l, tape') →
      HoldsTyped c (some ρ) ⟨c, l⟩) := by
  have hreq := requested_params hacc hleg
  obtain ⟨hc, h2, h3⟩ := handle_dict hacc.2
  have hd : DistinctKeys c.terminalSet := by rw [hc]; exact hacc.1
  have hroot : c.rootType = some ρ := by rw [hc]
  have hrr : Requested c (some ρ) := ⟨⟨ρ, rfl⟩, .inl hroot.symm⟩
  rw [hroot]
  constructor
  · intro maxDepth hrun
    obtain ⟨p, hp, h⟩ := fullTree_post c (Requested c) maxDepth _ tape l tape' hrun
    exact ⟨rfl, p, hp, h.ok, h.built, created_typed hd hs hreq hrr h⟩
  · intro pPrune minDepth maxDepth hrun
    obtain ⟨p, hp, h⟩ := growTree_post c (Requested c) pPrune _ minDepth maxDepth _ rfl tape l tape' hrun
    exact ⟨rfl, p, hp, h.ok, h.built, created_typed hd hs hreq hrr h⟩

/-- **C08, mutation (partial).** Under the same conditions subtree mutation of individuals holding
well-typed programs of the root type yields such individuals again. -/
theorem C08_mutation_typed_partial {fs kvs ρ erc c} (hacc : AcceptedTyped fs kvs ρ erc c)
    (hleg : ∀ f ∈ fs, f.Legal) (hs : c.ErcSafe) (inds : List Ind)
    (hinds : ∀ i ∈ inds, HoldsTyped c (some ρ) i) (lo hi attempts : Nat) (tape tape' : Tape)
    (out : List Ind) (hrun : subtreeMutation lo hi attempts inds tape = (.ok out, tape')) :
    out.length = inds.length ∧ ∀ i ∈ out, HoldsTyped c (some ρ) i := by
  have hreq := requested_params hacc hleg
  obtain ⟨hc, h2, h3⟩ := handle_dict hacc.2
  have hd : DistinctKeys c.terminalSet := by rw [hc]; exact hacc.1
  have hroot : c.rootType = some ρ := by rw [hc]
  have hrr : Requested c (some ρ) := ⟨⟨ρ, rfl⟩, .inl hroot.symm⟩
  obtain ⟨ps, hps⟩ : ∃ ps, List.Forall₂ (fun i p => i.cfg = c ∧ i.tree = Prog.flatten p ∧
      p.Ok ∧ p.BuiltFrom c ∧ p.HasType (some ρ)) inds ps := by
    clear hrun
    induction inds with
    | nil => exact ⟨[], .nil⟩
    | cons i is ih =>
      obtain ⟨ps, hps⟩ := ih fun j hj => hinds j (by simp [hj])
      obtain ⟨h1, p, h2⟩ := hinds i (by simp)
      exact ⟨p :: ps, .cons ⟨h1, h2⟩ hps⟩
  have hrep : List.Forall₂ Represents inds ps := hps.imp fun i p h =>
    ⟨h.2.1, h.2.2.1, fun f hf => by rw [h.1]; exact (h.2.2.2.1.1 f hf).1⟩
  rcases mutation_post Requested lo hi hrep attempts tape out tape' hrun with rfl |
    ⟨tr, rfl, -, hm⟩
  · exact ⟨rfl, hinds⟩
  · have hlen := hps.length_eq
    rw [List.length_map] at hlen
    refine ⟨by rw [← hm.length_eq]; simp [hlen], ?_⟩
    intro i hi
    obtain ⟨k, hk, rfl⟩ := List.getElem_of_mem hi
    have hm' := List.forall₂_iff_get.1 hm
    have hps' := List.forall₂_iff_get.1 hps
    have hkz : k < (inds.zip tr).length := by rw [hm'.1]; exact hk
    have hki : k < inds.length := by simp at hkz; omega
    have hkt : k < tr.length := by simp at hkz; omega
    have hmk := hm'.2 k hkz hk
    have hpk := hps'.2 k hki (by simpa using hkt)
    simp only [List.get_eq_getElem, List.getElem_zip, List.getElem_map] at hmk hpk
    obtain ⟨hcfg, -, hok, hb, hty⟩ := hpk
    rw [← hcfg] at hb
    obtain ⟨p', h1, h2, h3, h4⟩ := mutant_typed hmk hb hty (by rw [hcfg]; exact hrr)
      (by rw [hcfg]; exact hreq) (by
        rw [hcfg]
        exact fun σ hσ => randomTerminal_typed hd hs hσ.1 hσ.2)
    rw [h1]
    exact ⟨hcfg, p', rfl, h2, by rw [← hcfg]; exact h3, h4⟩

/-- **C08, untyped form.** In an untyped configuration everything created is an untyped program, and
mutation keeps it so. -/
theorem C08_untyped (c : Cfg) (hu : c.Untyped) (tape tape' : Tape) :
    (∀ maxDepth l, fullCreate c maxDepth none tape = (.ok l, tape') →
      HoldsTyped c none ⟨c, l⟩) ∧
    (∀ pPrune minDepth maxDepth l, growCreate c pPrune minDepth maxDepth none tape = (.ok l, tape') →
      HoldsTyped c none ⟨c, l⟩) ∧
    (∀ (inds out : List Ind) lo hi attempts, (∀ i ∈ inds, HoldsTyped c none i) →
      subtreeMutation lo hi attempts inds tape = (.ok out, tape') →
      out.length = inds.length ∧ ∀ i ∈ out, HoldsTyped c none i) := by
  have hcl : ∀ f ∈ c.functionSet, ∀ σ ∈ f.params, σ = none := fun f hf => (hu.1 f hf).1
  have hterm : ∀ σ : Option Ty, σ = none → Post (randomTerminal c σ) fun r =>
      ∀ v t, r = some (.term v t) → t = σ := by
    rintro _ rfl; exact randomTerminal_untyped hu
  refine ⟨?_, ?_, ?_⟩
  · intro maxDepth l hrun
    obtain ⟨p, hp, h⟩ := fullTree_post c (· = none) maxDepth _ tape l tape' hrun
    exact ⟨rfl, p, hp, h.ok, h.built, h.typed rfl hcl hterm⟩
  · intro pPrune minDepth maxDepth l hrun
    obtain ⟨p, hp, h⟩ := growTree_post c (· = none) pPrune _ minDepth maxDepth _ rfl tape l tape' hrun
    exact ⟨rfl, p, hp, h.ok, h.built, h.typed rfl hcl hterm⟩
  · intro inds out lo hi attempts hinds hrun
    obtain ⟨ps, hps⟩ : ∃ ps, List.Forall₂ (fun i p => i.cfg = c ∧ i.tree = Prog.flatten p ∧
        p.Ok ∧ p.BuiltFrom c ∧ p.HasType none) inds ps := by
      clear hrun
      induction inds with
      | nil => exact ⟨[], .nil⟩
      | cons i is ih =>
        obtain ⟨ps, hps⟩ := ih fun j hj => hinds j (by simp [hj])
        obtain ⟨h1, p, h2⟩ := hinds i (by simp)
        exact ⟨p :: ps, .cons ⟨h1, h2⟩ hps⟩
    have hrep : List.Forall₂ Represents inds ps := hps.imp fun i p h =>
      ⟨h.2.1, h.2.2.1, fun f hf => by rw [h.1]; exact (h.2.2.2.1.1 f hf).1⟩
    rcases mutation_post (fun _ σ => σ = none) lo hi hrep attempts tape out tape' hrun with rfl |
      ⟨tr, rfl, -, hm⟩
    · exact ⟨rfl, hinds⟩
    · have hlen := hps.length_eq
      rw [List.length_map] at hlen
      refine ⟨by rw [← hm.length_eq]; simp [hlen], ?_⟩
      intro i hi
      obtain ⟨k, hk, rfl⟩ := List.getElem_of_mem hi
      have hm' := List.forall₂_iff_get.1 hm
      have hps' := List.forall₂_iff_get.1 hps
      have hkz : k < (inds.zip tr).length := by rw [hm'.1]; exact hk
      have hki : k < inds.length := by simp at hkz; omega
      have hkt : k < tr.length := by simp at hkz; omega
      have hmk := hm'.2 k hkz hk
      have hpk := hps'.2 k hki (by simpa using hkt)
      simp only [List.get_eq_getElem, List.getElem_zip, List.getElem_map] at hmk hpk
      obtain ⟨hcfg, -, hok, hb, hty⟩ := hpk
      rw [← hcfg] at hb
      obtain ⟨p', h1, h2, h3, h4⟩ := mutant_typed hmk hb hty rfl
        (by rw [hcfg]; exact hcl) (by rw [hcfg]; exact hterm)
      rw [h1]
      exact ⟨hcfg, p', rfl, h2, by rw [← hcfg]; exact h3, h4⟩

namespace Typed

/-- `f(i: int, x: float) -> float` -/
def f : Fn := ⟨0, [some .int, some .float], some .float⟩
def i : Val := ⟨0, .str "i"⟩
def x : Val := ⟨1, .str "x"⟩
def kvs : List (Val × Option Ty) := [(i, some .int), (x, some .float)]
/-- `erc_range=(0.0, 1.0)` -/
def erc : Erc := ⟨0, 1, true⟩
def cfg : Cfg := ⟨[f], kvs, some erc, some .float⟩
/-- the same without an ERC range -/
def cfg0 : Cfg := ⟨[f], kvs, none, some .float⟩

theorem accepted : AcceptedTyped [f] kvs .float (some erc) cfg := by
  refine ⟨?_, by rfl⟩
  simp [DistinctKeys, kvs, i, x, Data.pyEq, Data.num?]

theorem accepted0 : AcceptedTyped [f] kvs .float none cfg0 := by
  refine ⟨?_, by rfl⟩
  simp [DistinctKeys, kvs, i, x, Data.pyEq, Data.num?]

/-- The hypotheses of the typed theorems are met by `cfg0`, and a typed tree is created. -/
example : AcceptedTyped [f] kvs .float none cfg0 ∧ (∀ g ∈ [f], g.Legal) ∧ cfg0.ErcSafe ∧
    (fullCreate cfg0 2 (some .float) (fun _ => 0)).1 = .error .valueError ∧
    (fullCreate cfg0 1 (some .float) (fun _ => 0)).1 =
      .ok [.func f, .term i (some .int), .term x (some .float)] := by
  refine ⟨accepted0, ?_, .inl rfl, rfl, rfl⟩
  simp [f, Fn.Legal]

end Typed

/-- **C08 is false in general.** The constructor accepts `f(int, float) -> float` with terminals
`i : int`, `x : float` and a float ERC range; the full method then puts a float constant into the
`int` argument of `f`. -/
theorem C08_refuted : ¬ C08_statement := by
  intro h
  have hrun : (fullCreate Typed.cfg 1 Typed.cfg.rootType (fun n => if n = 4 then 1 else 0)).1 =
      .ok (Prog.flatten (.app Typed.f [.term ⟨0, .float 0⟩ (some .float),
        .term Typed.x (some .float)])) := by decide +kernel
  obtain ⟨p, h1, h2, h3⟩ := h _ _ _ _ _ Typed.accepted 1 (by omega) _ _ _ (Prod.ext hrun rfl)
  have hp := Prog.flatten_injective h2 (by simp [Prog.Ok, Prog.OkAll, Typed.f]) h1.symm
  rw [hp] at h3
  simp [Prog.HasType, Prog.HaveTypes, Typed.f] at h3

/-! ## C09 -/

theorem erc_post {inds : List Ind} {ps : List Prog} (h : List.Forall₂ Represents inds ps)
    (mu sigma : ℚ) : Post (ercMutation mu sigma inds) fun out => out = inds ∨
      List.Forall₂ (fun x ind' => Perturbed x.1 x.2 ind') (inds.zip ps) out := by
  have hatt : Post (ercAttempt mu sigma inds 0) fun r => r = (false, inds) ∨
      (r.1 = true ∧ List.Forall₂ (fun x ind' => Perturbed x.1 x.2 ind') (inds.zip ps) r.2) := by
    unfold ercAttempt
    refine Post.bind (pickNumeric_post h) fun leaves hl => ?_
    refine Post.ite (fun _ => Post.pure (.inl rfl)) fun hn => ?_
    exact Post.bind (noiseLoop_post mu sigma h (hl.2 hn)) fun out ho => Post.pure (.inr ⟨rfl, ho⟩)
  unfold ercMutation failableApply failableLoop
  refine Post.bind hatt fun r hr => ?_
  obtain ⟨b, out⟩ := r
  rcases hr with hr | ⟨hb, ho⟩
  · simp only [Prod.mk.injEq] at hr
    obtain ⟨rfl, rfl⟩ := hr
    exact Post.pure (.inl rfl)
  · simp only at hb
    subst hb
    exact Post.pure (.inr ho)

/-- **C09.** ERC mutation of individuals holding legal programs whose numeric terminals are ordinary
numbers never raises.  If some individual has no numeric terminal, nothing changes; otherwise in
every individual noise is added to exactly one numeric terminal and nothing else changes. -/
theorem C09_erc_mutation (inds : List Ind) (ps : List Prog) (h : List.Forall₂ Represents inds ps)
    (hnum : ∀ p ∈ ps, ∀ vt ∈ p.terms, vt.1.data.isNumber = true → vt.1.data.num? ≠ none)
    (mu sigma : ℚ) (tape : Tape) :
    ∃ out tape', ercMutation mu sigma inds tape = (.ok out, tape') ∧
      ((∃ p ∈ ps, ∀ vt ∈ p.terms, vt.1.data.isNumber = false) → out = inds) ∧
      ((∀ p ∈ ps, ∃ vt ∈ p.terms, vt.1.data.isNumber = true) →
        List.Forall₂ (fun x ind' => Perturbed x.1 x.2 ind') (inds.zip ps) out) := by
  have hatt : ∀ s, ∃ r s', ercAttempt mu sigma inds 0 s = (.ok r, s') ∧
      ((r = (false, inds) ∧ ∃ p ∈ ps, ∀ vt ∈ p.terms, vt.1.data.isNumber = false) ∨
       (r.1 = true ∧ (∀ p ∈ ps, ∃ vt ∈ p.terms, vt.1.data.isNumber = true) ∧
        List.Forall₂ (fun x ind' => Perturbed x.1 x.2 ind') (inds.zip ps) r.2)) := by
    intro s
    have htot : Total (mapL (fun ind => randomNumericNode ind.tree) inds) := by
      refine mapL_total _ fun ind _ => ?_
      unfold randomNumericNode
      simp only
      split
      · exact Total.pure
      · exact Total.bind (Rand.choice_total ‹_›) Post.trivial fun _ _ => Total.pure
    obtain ⟨leaves, s1, h1⟩ := htot s
    have hp := pickNumeric_post h s leaves s1 h1
    by_cases hn : none ∈ leaves
    · refine ⟨(false, inds), s1, ?_, .inl ⟨rfl, ?_⟩⟩
      · unfold ercAttempt
        rw [bind_ok]
        exact ⟨leaves, s1, h1, by rw [if_pos hn]; rfl⟩
      · obtain ⟨p, hp1, hp2⟩ := hp.1 hn
        exact ⟨p, hp1, numericPositions_nil hp2⟩
    · have his := hp.2 hn
      obtain ⟨out, s2, h2⟩ := noiseLoop_total mu sigma h his hnum s1
      refine ⟨(true, out), s2, ?_, .inr ⟨rfl, ?_, ?_⟩⟩
      · unfold ercAttempt
        rw [bind_ok]
        refine ⟨leaves, s1, h1, ?_⟩
        rw [if_neg hn, bind_ok]
        exact ⟨out, s2, h2, rfl⟩
      · intro p hp
        obtain ⟨k, hk, rfl⟩ := List.getElem_of_mem hp
        have := List.forall₂_iff_get.1 his
        exact numericPositions_has (this.2 k hk (by rw [← this.1]; exact hk))
      · exact noiseLoop_post mu sigma h his s1 out s2 h2
  obtain ⟨⟨b, out⟩, s', hrun, hcase⟩ := hatt tape
  have hfin : ercMutation mu sigma inds tape = (.ok out, s') := by
    unfold ercMutation failableApply failableLoop
    rw [bind_ok]
    refine ⟨(b, out), s', hrun, ?_⟩
    cases b <;> rfl
  refine ⟨out, s', hfin, ?_, ?_⟩
  · rintro ⟨p, hp, hno⟩
    rcases hcase with ⟨hr, -⟩ | ⟨-, hall, -⟩
    · simp only [Prod.mk.injEq] at hr; exact hr.2
    · obtain ⟨vt, h1, h2⟩ := hall p hp
      rw [hno vt h1] at h2; simp at h2
  · intro hall
    rcases hcase with ⟨-, p, hp, hno⟩ | ⟨-, -, hf⟩
    · obtain ⟨vt, h1, h2⟩ := hall p hp
      rw [hno vt h1] at h2; simp at h2
    · exact hf

/-- **C09, shape.** A perturbed individual has the same size, the same leaf depths, the same
functions in the same order, the same configuration, and its list of nodes differs in one place
only. -/
theorem C09_shape (ind ind' : Ind) (p : Prog) (hr : Represents ind p) (h : Perturbed ind p ind') :
    ∃ (p' : Prog) (i : Nat), ind'.cfg = ind.cfg ∧ Represents ind' p' ∧ p'.leafDepths = p.leafDepths ∧
      p'.size = p.size ∧ ind'.tree.length = ind.tree.length ∧
      (ind.tree[i]?.map Node.isNumericTerminal = some true) ∧
      ∀ j ≠ i, ind'.tree[j]? = ind.tree[j]? := by
  obtain ⟨C, v, v', ty, q, g, rfl, hnum, hq, hv', rfl⟩ := h
  obtain ⟨pre, post, hfill⟩ := C.flatten_fill
  have hlen : (C.fill (.term v' ty)).flatten.length = (C.fill (.term v ty)).flatten.length := by
    rw [hfill, hfill]; simp [Prog.flatten]
  refine ⟨C.fill (.term v' ty), pre.length, rfl,
    ⟨rfl, Ctx.fill_ok hr.2.1 trivial, ?_⟩, Ctx.leafDepths_fill C rfl, ?_, ?_, ?_, ?_⟩
  · intro f hf
    refine hr.2.2 f ?_
    rw [Prog.mem_fns_iff, hfill] at hf ⊢
    simpa [Prog.flatten] using hf
  · rw [← Prog.length_flatten, ← Prog.length_flatten, hlen]
  · show (C.fill (.term v' ty)).flatten.length = ind.tree.length
    rw [hr.1, hlen]
  · rw [hr.1, hfill]; simp [Prog.flatten, Node.isNumericTerminal, hnum]
  · intro j hj
    show (C.fill (.term v' ty)).flatten[j]? = ind.tree[j]?
    rw [hr.1, hfill, hfill]
    simp only [Prog.flatten, List.append_assoc, List.singleton_append]
    by_cases h1 : j < pre.length
    · rw [List.getElem?_append_left h1, List.getElem?_append_left h1]
    · rw [List.getElem?_append_right (by omega), List.getElem?_append_right (by omega)]
      obtain ⟨k, hk⟩ : ∃ k, j - pre.length = k + 1 := ⟨j - pre.length - 1, by omega⟩
      rw [hk]; rfl

/-- The hypotheses of C09 hold for the sample tree `add(mul(x, 2), neg(x))`, and the run adds noise
to the constant `2`. -/
example : List.Forall₂ Represents [⟨Sample.cfg, Sample.prog.flatten⟩] [Sample.prog] ∧
    (∀ vt ∈ Sample.prog.terms, vt.1.data.isNumber = true → vt.1.data.num? ≠ none) ∧
    (∃ vt ∈ Sample.prog.terms, vt.1.data.isNumber = true) := by
  refine ⟨?_, ?_, ?_⟩
  · have := Sample.inds3_represents
    cases this with
    | cons h _ => exact .cons h .nil
  · simp [Sample.prog, Prog.terms, Prog.termsAll, Sample.x, Sample.two, Data.isNumber, Data.type,
      Ty.isNumber, Data.num?]
  · simp [Sample.prog, Prog.terms, Prog.termsAll, Sample.x, Sample.two, Data.isNumber, Data.type,
      Ty.isNumber]

/-! ## C62 -/

/-- The statement of C62: ERC mutation keeps the Python type of every typed constant. -/
def C62_statement : Prop :=
  ∀ (inds out : List Ind) (ps : List Prog) mu sigma tape tape',
    List.Forall₂ Represents inds ps →
    (∀ p ∈ ps, ∀ vt ∈ p.terms, vt.1.data.isNumber = true → vt.2 = some vt.1.data.type) →
    ercMutation mu sigma inds tape = (.ok out, tape') →
    ∀ ind ∈ out, ∀ v ty, Node.term v ty ∈ ind.tree → v.data.isNumber = true → ty = some v.data.type

/-- **C62 is false.** An integer constant annotated `int` becomes a float that is still annotated
`int`. -/
theorem C62_refuted : ¬ C62_statement := by
  intro h
  let p : Prog := .term ⟨0, .int 3⟩ (some .int)
  have hrun : (ercMutation 0 1 [⟨Typed.cfg, p.flatten⟩] (fun _ => 0)).1 =
      .ok [⟨Typed.cfg, [.term ⟨0, .float 3⟩ (some .int)]⟩] := by
    have h1 : ((3 : ℤ) : ℚ) + (0 + (if 0 % 2 = 0 then ((0 : ℕ) : ℚ) / ((0 + 1 : ℕ) : ℚ)
      else -(((0 : ℕ) : ℚ) / ((0 + 1 : ℕ) : ℚ))) * 1) = 3 := by norm_num
    show Except.ok [(⟨Typed.cfg, [.term ⟨0, .float (((3 : ℤ) : ℚ) + (0 + (if 0 % 2 = 0 then ((0 : ℕ) : ℚ) / ((0 + 1 : ℕ) : ℚ)
      else -(((0 : ℕ) : ℚ) / ((0 + 1 : ℕ) : ℚ))) * 1))⟩ (some .int)]⟩ : Ind)] = _
    rw [h1]
  have := h [⟨Typed.cfg, p.flatten⟩] _ [p] 0 1 _ _
    (.cons ⟨rfl, by simp [p, Prog.Ok], by simp [p, Prog.fns]⟩ .nil)
    (by simp [p, Prog.terms, Data.type]) (Prod.ext hrun rfl)
    ⟨Typed.cfg, [.term ⟨0, .float 3⟩ (some .int)]⟩ (by simp) ⟨0, .float 3⟩ (some .int)
    (by simp) rfl
  simp [Data.type] at this

/-- **C62, what holds (partial).** If every numeric constant is a float annotated `float` (or the
mode is untyped), it stays so. -/
theorem C62_float_constants_partial (ind ind' : Ind) (p : Prog) (hr : Represents ind p)
    (hty : ∀ n ∈ ind.tree, ∀ v ty, n = Node.term v ty → v.data.isNumber = true →
      v.data.type = .float ∧ ty = some .float)
    (h : Perturbed ind p ind') :
    ∀ n ∈ ind'.tree, ∀ v ty, n = Node.term v ty → v.data.isNumber = true →
      v.data.type = .float ∧ ty = some .float := by
  obtain ⟨C, v, v', ty, q, g, rfl, hnum, hq, hv', rfl⟩ := h
  obtain ⟨pre, post, hfill⟩ := C.flatten_fill
  rw [hr.1, hfill] at hty
  simp only [Prog.flatten, List.append_assoc, List.singleton_append, List.mem_append,
    List.mem_cons] at hty
  intro n hn w ty' hnw hw
  simp only [hfill, Prog.flatten, List.append_assoc, List.singleton_append, List.mem_append,
    List.mem_cons] at hn
  rcases hn with hn | hn | hn
  · exact hty n (.inl hn) w ty' hnw hw
  · rw [hn] at hnw
    simp only [Node.term.injEq] at hnw
    obtain ⟨rfl, rfl⟩ := hnw
    exact ⟨by rw [hv']; rfl, (hty _ (.inr (.inl rfl)) v _ rfl hnum).2⟩
  · exact hty n (.inr (.inr hn)) w ty' hnw hw

end Verif.GP
