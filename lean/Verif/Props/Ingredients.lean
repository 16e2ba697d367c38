import Verif.Spec.Ingredients
import Verif.Props.TypedRun
import Verif.Props.Complete

/-! # C90: programs are made of what the configuration offers -/

namespace Verif.GP
open PyM Verif.Evo
variable {κ : Type} {c : GP.Cfg}

/-- The types asked for. -/
def Asked (c : GP.Cfg) (τ : Option Ty) : Prop := c.Requests τ ∧ (τ = none ↔ c.rootType = none)

theorem asked_facts (hd : DistinctKeys c.terminalSet) (herc : c.ErcProper) (hreq : c.Requests c.rootType)
    (hleg : ∀ f ∈ c.functionSet, f.Legal) : TypeFacts c (Asked c) where
  root := ⟨hreq, Iff.rfl⟩
  params := by
    intro f hf σ hσ
    refine ⟨hreq.param hf hσ, ?_⟩
    rcases hreq with ⟨hu, h⟩ | ⟨h1, -, h3, -⟩
    · simp [h, (hu.1 f hf).1 σ hσ]
    · simp [h3, h1 f hf σ hσ]
  term := fun σ hσ => (randomTerminal_leaf hd herc hσ.1).mono fun r hr v t e => by
    obtain ⟨w, hw, -⟩ := hr _ e
    cases hw
    rfl
  uniform := by
    by_cases h : c.rootType = none
    · exact .inr fun σ hσ => hσ.2.2 h
    · exact .inl fun σ hσ e => h (hσ.2.1 e)
  legal := hleg

theorem asked_leaf (hd : DistinctKeys c.terminalSet) (herc : c.ErcProper) (σ : Option Ty) (hσ : Asked c σ) :
    Post (randomTerminal c σ) fun r => ∀ v t, r = some (.term v t) → c.Leaf v t :=
  (randomTerminal_leaf hd herc hσ.1).mono fun r hr v t e => by
    obtain ⟨w, hw, hl⟩ := hr _ e
    cases hw
    exact hl

/-- `MadeOf` in terms of the nodes. -/
theorem madeOf_iff (hleg : ∀ f ∈ c.functionSet, f.Legal) {i : GP.Ind} :
    MadeOf c i ↔ WellTyped c c.rootType i ∧ ∀ v t, Node.term v t ∈ i.tree → c.Leaf v t := by
  constructor
  · rintro ⟨h1, p, h2, h3, h4⟩
    refine ⟨⟨h1, p, h2, h3⟩, fun v t ht => ?_⟩
    rw [h2.1] at ht
    exact h4.2 (v, t) (Prog.mem_terms_iff.2 ht)
  · rintro ⟨⟨h1, p, h2, h3⟩, h4⟩
    refine ⟨h1, p, h2, h3, fun f hf => ?_, fun vt hvt => ?_⟩
    · have := h2.2.2 f hf
      rw [h1] at this
      exact ⟨this, hleg f this⟩
    · refine h4 vt.1 vt.2 ?_
      rw [h2.1]
      exact Prog.mem_terms_iff.1 hvt

/-- The terminals of the tree satisfy `L`. -/
def LeavesOf (c : GP.Cfg) (L : Val → Option Ty → Prop) (i : GP.Ind) : Prop :=
  WellTyped c c.rootType i ∧ ∀ v t, Node.term v t ∈ i.tree → L v t

variable (hd : DistinctKeys c.terminalSet) (herc : c.ErcProper) (hreq : c.Requests c.rootType)
  (hleg : ∀ f ∈ c.functionSet, f.Legal) {L : Val → Option Ty → Prop} (hL : ∀ v t, c.Leaf v t → L v t)
include hd herc hreq hleg hL

theorem created_leaves {lo hi : Nat} {p : Prog} (h : Created c (Asked c) lo hi p c.rootType) :
    LeavesOf c L ⟨c, p.flatten⟩ := by
  have hf := asked_facts hd herc hreq hleg
  refine ⟨⟨rfl, p, ⟨rfl, h.ok, fun f hf => (h.built.1 f hf).1⟩, h.typed hf.root hf.params hf.term⟩, ?_⟩
  exact fun v t hvt => hL v t (h.leaves hf.root hf.params c.Leaf (asked_leaf hd herc) (v, t) (Prog.mem_terms_iff.2 hvt))

theorem full_makes_leaves (maxDepth : Nat) (fit : Bool → Fit) (up : Bool) :
    Makes (LeavesOf c L) (fullCreator c maxDepth fit up) :=
  createIndividuals_makes' _ _ _ (Post.bind (fullTree_post c (Asked c) maxDepth _) fun _ ⟨_, hp, h⟩ =>
    Post.pure (hp ▸ created_leaves hd herc hreq hleg hL h))

theorem grow_makes_leaves (pPrune : ℚ) (minDepth maxDepth : Nat) (fit : Bool → Fit) (up : Bool) :
    Makes (LeavesOf c L) (growCreator c pPrune minDepth maxDepth fit up) :=
  createIndividuals_makes' _ _ _ (Post.bind (growTree_post c (Asked c) pPrune _ minDepth maxDepth _ rfl)
    fun _ ⟨_, hp, h⟩ => Post.pure (hp ▸ created_leaves hd herc hreq hleg hL h))

theorem LibCreator.makes_leaves {m : Mode} {create : Nat → Bool → WM GP.Ind (List Nat)}
    (hl : LibCreator c m create) : Makes (LeavesOf c L) create := by
  cases hl with
  | full d fit up => exact full_makes_leaves hd herc hreq hleg hL d fit up
  | grow q lo hi fit up => exact grow_makes_leaves hd herc hreq hleg hL q lo hi fit up
  | half q lo hi fit up =>
    exact halfCreate_makes (fun d => grow_makes_leaves hd herc hreq hleg hL q lo d fit up)
      (fun d => full_makes_leaves hd herc hreq hleg hL d fit up) _ _

omit hL in
theorem crossover_leaves (arity attempts : Nat) (inds : List GP.Ind) (hinds : ∀ i ∈ inds, LeavesOf c L i) :
    Post (subtreeCrossover arity attempts inds) fun out => ∀ i ∈ out, LeavesOf c L i := by
  intro tape out tape' hrun
  have hty : ∀ i ∈ inds, WellTyped c c.rootType i := fun i hi => (hinds i hi).1
  have h1 := (crossover_conserves (asked_facts hd herc hreq hleg) arity attempts inds hty tape out tape' hrun).1
  obtain ⟨ps, hps⟩ := typed_programs hty
  have h2 := (C06_crossover_conserves inds ps (hps.imp fun _ _ h => h.2.1) arity attempts tape tape' out hrun).2
  intro i hi
  refine ⟨h1 i hi, fun v t hvt => ?_⟩
  have := h2.mem_iff.1 (List.mem_flatMap.2 ⟨i, hi, hvt⟩)
  obtain ⟨j, hj, hjt⟩ := List.mem_flatMap.1 this
  exact (hinds j hj).2 v t hjt

theorem mutation_leaves (lo hi attempts : Nat) (inds : List GP.Ind) (hinds : ∀ i ∈ inds, LeavesOf c L i) :
    Post (subtreeMutation lo hi attempts inds) fun out => ∀ i ∈ out, LeavesOf c L i := by
  intro tape out tape' hrun
  have hf := asked_facts hd herc hreq hleg
  have hty : ∀ i ∈ inds, WellTyped c c.rootType i := fun i hi => (hinds i hi).1
  have h1 := (mutation_conserves hf lo hi attempts inds hty tape out tape' hrun).1
  obtain ⟨ps, hps⟩ := typed_programs hty
  rcases mutation_post (fun _ => Asked c) lo hi (hps.imp fun _ _ h => h.2.1) attempts tape out tape' hrun with
    rfl | ⟨tr, rfl, -, hm⟩
  · exact hinds
  · intro i hi
    refine ⟨h1 i hi, fun v t hvt => ?_⟩
    obtain ⟨k, hk, rfl⟩ := List.getElem_of_mem hi
    have hm' := List.forall₂_iff_get.1 hm
    have hps' := List.forall₂_iff_get.1 hps
    have hkz : k < (inds.zip tr).length := by rw [hm'.1]; exact hk
    have hki : k < inds.length := by simp at hkz; omega
    have hkt : k < tr.length := by simp at hkz; omega
    have hmk := hm'.2 k hkz hk
    have hpk := hps'.2 k hki (by simpa using hkt)
    simp only [List.get_eq_getElem, List.getElem_zip, List.getElem_map] at hmk hpk
    obtain ⟨r, n, hn, ho, hr⟩ := hmk
    obtain ⟨hcfg, hrepk, htyk⟩ := hpk
    simp only at hn ho hr
    have hfs : ∀ f ∈ (tr[k].1.fill tr[k].2).fns, f ∈ c.functionSet := fun f hf => hcfg ▸ hrepk.2.2 f hf
    obtain ⟨σ, g1, g2, g3, g4⟩ := hf.sub hf.root hfs htyk
    rw [g3 n hn, hcfg] at hr
    rw [ho] at hvt
    obtain ⟨pre, post, hfill⟩ := tr[k].1.flatten_fill
    have hold : Node.term v t ∈ inds[k].tree → L v t := (hinds _ (List.getElem_mem hki)).2 v t
    rw [hrepk.1, hfill] at hold
    rw [show ({ inds[k] with tree := (tr[k].1.fill r).flatten } : GP.Ind).tree = (tr[k].1.fill r).flatten from rfl,
      hfill, List.mem_append, List.mem_append] at hvt
    rcases hvt with (h | h) | h
    · exact hold (by simp [h])
    · exact hL v t (hr.leaves g1 hf.params c.Leaf (asked_leaf hd herc) (v, t) (Prog.mem_terms_iff.2 h))
    · exact hold (by simp [h])

omit hd herc hreq hleg hL in
theorem erc_leaves (hN : ∀ v v' t q, L v t → v.data.isNumber = true → v'.data = .float q → L v' t)
    (mu sigma : ℚ) (inds : List GP.Ind) (hinds : ∀ i ∈ inds, LeavesOf c L i) :
    Post (ercMutation mu sigma inds) fun out => ∀ i ∈ out, LeavesOf c L i := by
  intro tape out tape' hrun
  have hty : ∀ i ∈ inds, WellTyped c c.rootType i := fun i hi => (hinds i hi).1
  have h1 := (erc_conserves (S := fun _ => True) mu sigma inds hty tape out tape' hrun).1
  obtain ⟨ps, hps⟩ := typed_programs hty
  rcases erc_post (hps.imp fun _ _ h => h.2.1) mu sigma tape out tape' hrun with rfl | hm
  · exact hinds
  · intro i hi
    refine ⟨h1 i hi, fun v t hvt => ?_⟩
    obtain ⟨k, hk, rfl⟩ := List.getElem_of_mem hi
    have hm' := List.forall₂_iff_get.1 hm
    have hps' := List.forall₂_iff_get.1 hps
    have hkz : k < (inds.zip ps).length := by rw [hm'.1]; exact hk
    have hki : k < inds.length := by simp at hkz; omega
    have hkt : k < ps.length := by simp at hkz; omega
    have hmk := hm'.2 k hkz hk
    have hpk := hps'.2 k hki hkt
    simp only [List.get_eq_getElem, List.getElem_zip] at hmk hpk
    obtain ⟨C, w, w', ty, q, g, hp, hnum, -, hw', ho⟩ := hmk
    obtain ⟨hcfg, hrepk, htyk⟩ := hpk
    obtain ⟨pre, post, hfill⟩ := C.flatten_fill
    rw [hp] at hrepk
    have hold : ∀ v t, Node.term v t ∈ inds[k].tree → L v t := (hinds _ (List.getElem_mem hki)).2
    rw [hrepk.1, hfill] at hold
    rw [ho, show ({ inds[k] with tree := (C.fill (.term w' ty)).flatten } : GP.Ind).tree
      = (C.fill (.term w' ty)).flatten from rfl, hfill, List.mem_append, List.mem_append] at hvt
    rcases hvt with (h | h) | h
    · exact hold v t (by simp [h])
    · simp only [Prog.flatten, List.mem_singleton, Node.term.injEq] at h
      obtain ⟨rfl, rfl⟩ := h
      exact hN w v t (q + g) (hold w t (by simp [Prog.flatten])) hnum hw'
    · exact hold v t (by simp [h])

theorem SubtreeOp.preserves {o : Op GP.Ind} (ho : SubtreeOp o) : o.Preserves (LeavesOf c L) := by
  cases ho with
  | crossover p a n =>
    refine Op.inPlace_preserves _ _ _ fun gs hgs => ?_
    exact Post.bind (crossover_leaves hd herc hreq hleg a n gs hgs) fun out ho =>
      Post.pure (by rintro _ ⟨⟩; exact ho)
  | mutation p lo hi n =>
    refine Op.inPlace_preserves _ _ _ fun gs hgs => ?_
    exact Post.bind (mutation_leaves hd herc hreq hleg hL lo hi n gs hgs) fun out ho =>
      Post.pure (by rintro _ ⟨⟩; exact ho)

theorem LibOp.preserves_leaves
    (hN : ∀ v v' t q, L v t → v.data.isNumber = true → v'.data = .float q → L v' t)
    {o : Op GP.Ind} (ho : LibOp o) : o.Preserves (LeavesOf c L) := by
  cases ho with
  | crossover p a n => exact SubtreeOp.preserves hd herc hreq hleg hL (.crossover p a n)
  | mutation p lo hi n => exact SubtreeOp.preserves hd herc hreq hleg hL (.mutation p lo hi n)
  | erc p a mu sigma =>
    refine Op.inPlace_preserves _ _ _ fun gs hgs => ?_
    exact Post.bind (erc_leaves hN mu sigma gs hgs) fun out ho => Post.pure (by rintro _ ⟨⟩; exact ho)

omit hd herc hreq hleg hL

theorem SubtreeOp.lib {o : Op GP.Ind} (ho : SubtreeOp o) : LibOp o := by
  cases ho
  · exact .crossover _ _ _
  · exact .mutation _ _ _ _

/-- **C90 (partial).** In a run put together from the library's tree creators, subtree crossover and
subtree mutation, over untyped or properly typed sets (dictionary keys different, ERC range not empty):
every individual that can be seen in any event is a program made of the functions of the function set,
the entries of the terminal set and constants in the ERC range, each with its type.
Missing: ERC mutation, with which the claim is false, see `C90_refuted`. -/
theorem C90_ingredients_partial (hd : DistinctKeys c.terminalSet) (herc : c.ErcProper)
    (hreq : c.Requests c.rootType) (hleg : ∀ f ∈ c.functionSet, f.Legal)
    {C : Evo.Cfg GP.Ind κ} {sub : SubCfg GP.Ind} {m : Mode}
    (hb : C.BuiltWith sub m (LibCreator c m) SubtreeOp) {s : Run GP.Ind κ} (hr : s.Ready m)
    (hf : s.Starts (MadeOf c)) (r : Except Err Unit) (s' : Run GP.Ind κ)
    (hrun : evolve C s = (r, s')) : ∀ e ∈ s'.log, e.AllHave (MadeOf c) := by
  have heq : MadeOf c = LeavesOf c c.Leaf := funext fun i => propext (madeOf_iff hleg)
  rw [heq] at hf ⊢
  exact run_invariant hb (fun _ h => h.good) (fun _ hl => hl.makes_leaves hd herc hreq hleg fun _ _ h => h)
    (fun _ ho => ho.lib.good) (fun _ ho => ho.preserves hd herc hreq hleg fun _ _ h => h) hr hf r s' hrun

/-- **C90, with ERC mutation (partial).** If ERC mutation is used too, every individual that can be seen
in any event is still a well-typed program over the function set, and each of its terminals is offered
by the configuration or is a float that has taken the place of an offered constant: terminals that are
not numbers are never altered.
Missing: that the float lies in the ERC range and is of the type of the node; both are false, see
`C90_refuted`. -/
theorem C90_noise_partial (hd : DistinctKeys c.terminalSet) (herc : c.ErcProper)
    (hreq : c.Requests c.rootType) (hleg : ∀ f ∈ c.functionSet, f.Legal)
    {C : Evo.Cfg GP.Ind κ} {sub : SubCfg GP.Ind} {m : Mode}
    (hb : C.BuiltWith sub m (LibCreator c m) LibOp) {s : Run GP.Ind κ} (hr : s.Ready m)
    (hf : s.Starts (MadeOf c)) (r : Except Err Unit) (s' : Run GP.Ind κ) (hrun : evolve C s = (r, s')) :
    ∀ e ∈ s'.log, e.AllHave fun i => WellTyped c c.rootType i ∧
      ∀ v ty, Node.term v ty ∈ i.tree → c.LeafOrNoise v ty := by
  refine run_invariant (P := LeavesOf c c.LeafOrNoise) hb (fun _ h => h.good)
    (fun _ hl => hl.makes_leaves hd herc hreq hleg fun _ _ h => .inl h) (fun _ ho => ho.good)
    (fun _ ho => ho.preserves_leaves hd herc hreq hleg (fun _ _ h => .inl h) ?_) hr
    ⟨fun is hi r hr => ?_, hf.bestOfRun, hf.bestOfGen, hf.log⟩ r s' hrun
  · intro v v' t q h hn hv'
    rcases h with h | ⟨-, w, hw, hwn⟩
    · exact .inr ⟨⟨q, hv'⟩, v, h, hn⟩
    · exact .inr ⟨⟨q, hv'⟩, w, hw, hwn⟩
  · obtain ⟨i, h1, h2⟩ := hf.pop is hi r hr
    have := (madeOf_iff hleg).1 h2
    exact ⟨i, h1, this.1, fun v t h => .inl (this.2 v t h)⟩

namespace Typed

/-- `g(i: int, j: int) -> int`, a terminal `i : int` and `erc_range=(0, 3)` -/
def cfgInt : Cfg := ⟨[g], [(i, some .int)], some ⟨0, 3, false⟩, some .int⟩

def subInt : SubCfg GP.Ind where
  creators := [fullCreator cfgInt 1 (fun h => ⟨.none, false, h, false, true, none⟩) true]
  pick := pure 0
  ops := [ercOp 1 1 0 1]
  sels := [tournament (fun i => i.tree.length) 1 false]
  popSize := 1
  nElite := 0
  hib := true
  evaluate := fun i => pure i.tree.length

def runIntCfg : Evo.Cfg GP.Ind Unit where
  size := fun i => i.tree.length
  subs := [subInt]
  stream := fun _ _ => 1
  maxGen := 1
  checker := .none
  sched := fun _ n => List.range n
  submit := false

theorem runIntCfg_built : runIntCfg.BuiltWith subInt ⟨true, none⟩ (LibCreator cfgInt ⟨true, none⟩) LibOp where
  subs := rfl
  dir := rfl
  creators := by
    intro create h
    simp only [subInt, List.mem_singleton] at h
    subst h
    exact .full _ _ _ ⟨rfl, rfl⟩
  sels := ⟨_, _, rfl, tournament_good _ _, tournament_fills _ _⟩
  ops := by
    intro o ho
    simp only [subInt, List.mem_singleton] at ho
    subst ho
    exact .erc _ _ _ _
  sched := fun _ _ => List.Perm.refl _
  map := rfl

theorem cfgInt_distinct : DistinctKeys cfgInt.terminalSet := by simp [DistinctKeys, cfgInt]

theorem cfgInt_proper : cfgInt.ErcProper := by
  rintro e he
  simp only [cfgInt, Option.some.injEq] at he
  subst he
  exact ⟨by norm_num, .inr ⟨rfl, rfl, by norm_num⟩⟩

theorem cfgInt_requests : cfgInt.Requests cfgInt.rootType := by
  refine .inr ⟨by simp [cfgInt, g], .inr ⟨?_, ?_⟩, by simp [cfgInt], .inl rfl⟩
  · intro t ht h
    simp only [cfgInt, g, List.mem_singleton, exists_eq_left, List.mem_cons, List.not_mem_nil, or_false] at h
    simp_all [Cfg.ercType, cfgInt]
  · simp [cfgInt, i, Data.num?]

theorem cfgInt_legal : ∀ f ∈ cfgInt.functionSet, f.Legal := by simp [cfgInt, g, Fn.Legal]

/-- The configuration is one the constructor accepts. -/
example : AcceptedTyped [g] [(i, some .int)] .int (some ⟨0, 3, false⟩) cfgInt :=
  ⟨by simp [DistinctKeys], rfl⟩

/-- The run ends normally with `g(1, 0.5)` in the population. -/
theorem runInt_ends : (evolve runIntCfg exLibRun).1 = .ok () ∧
    (evolve runIntCfg exLibRun).2.log.getLast?.map (fun e => (e.snap.inds,
      e.snap.heap.map fun i => i.genome.tree)) = some ([some [1]],
        [[.func g, .term ⟨1, .int 1⟩ (some .int), .term ⟨1, .int 1⟩ (some .int)],
         [.func g, .term ⟨1, .int 1⟩ (some .int), .term ⟨1, .float (1 / 2)⟩ (some .int)]]) := by
  decide +kernel

example := C90_noise_partial cfgInt_distinct cfgInt_proper cfgInt_requests cfgInt_legal runIntCfg_built
  (s := exLibRun) (.inl rfl) ⟨by simp [exLibRun], rfl, rfl, rfl⟩ (.ok ()) (evolve runIntCfg exLibRun).2
  (ran runInt_ends.1)

theorem run2Cfg_subtree : run2Cfg.BuiltWith sub2 ⟨true, none⟩ (LibCreator cfg2 ⟨true, none⟩) SubtreeOp :=
  { run2Cfg_built with
    ops := by
      intro o ho
      simp only [sub2, List.mem_cons, List.not_mem_nil, or_false] at ho
      rcases ho with rfl | rfl
      · exact .crossover _ _ _
      · exact .mutation _ _ _ _ }

example := C90_ingredients_partial (c := cfg2) accepted2.1 (by rintro e ⟨⟩)
  (.inr ⟨by simp [cfg2, f, g, h], .inl rfl, by simp [cfg2], .inl rfl⟩) legal2 run2Cfg_subtree
  (s := exLibRun) (.inl rfl) ⟨by simp [exLibRun], rfl, rfl, rfl⟩ (.ok ()) (evolve run2Cfg exLibRun).2 (ran run2_ends.1)

end Typed

/-- The full form of C90: with all operators of the library. -/
def C90_statement : Prop :=
  ∀ c : GP.Cfg, DistinctKeys c.terminalSet → c.ErcProper → c.Requests c.rootType →
    (∀ f ∈ c.functionSet, f.Legal) → ∀ (C : Evo.Cfg GP.Ind Unit) (sub : SubCfg GP.Ind) (m : Mode),
    C.BuiltWith sub m (LibCreator c m) LibOp → ∀ s : Run GP.Ind Unit, s.Ready m → s.Starts (MadeOf c) →
    ∀ r s', evolve C s = (r, s') → ∀ e ∈ s'.log, e.AllHave (MadeOf c)

/-- **C90 is false of the code.** With `erc_range=(0, 3)` and terminals of type `int`, ERC mutation puts
the float `0.5` into an argument of type `int` (and nothing keeps constants in the range either). -/
theorem C90_refuted : ¬ C90_statement := by
  intro h
  have hall := h _ Typed.cfgInt_distinct Typed.cfgInt_proper Typed.cfgInt_requests Typed.cfgInt_legal _ _ _
    Typed.runIntCfg_built exLibRun (.inl rfl) ⟨by simp [exLibRun], rfl, rfl, rfl⟩
    (.ok ()) (evolve Typed.runIntCfg exLibRun).2 (ran Typed.runInt_ends.1)
  have hlast := Typed.runInt_ends.2
  generalize (evolve Typed.runIntCfg exLibRun).2.log = log at hall hlast
  obtain ⟨e, he, hs⟩ := Option.map_eq_some_iff.1 hlast
  simp only [Prod.mk.injEq] at hs
  obtain ⟨i, hi, hm⟩ := (hall e (List.mem_of_getLast? he)).1 [1] (by rw [hs.1]; simp) 1 (by simp)
  have h0 : (e.snap.heap.map fun i => i.genome.tree)[1]? = some i.genome.tree := by simp [hi]
  rw [hs.2] at h0
  simp only [List.getElem?_cons_succ, List.getElem?_cons_zero, Option.some.injEq] at h0
  have hl := ((madeOf_iff Typed.cfgInt_legal).1 hm).2 ⟨1, .float (1 / 2)⟩ (some .int) (by rw [← h0]; simp)
  rcases hl with hl | ⟨er, h1, h2, -⟩
  · simp [Typed.cfgInt, Typed.i] at hl
  · simp only [Typed.cfgInt, Option.some.injEq] at h1
    subst h1
    simp [Erc.Draws] at h2

end Verif.GP
