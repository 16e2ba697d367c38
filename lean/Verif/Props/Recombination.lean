import Verif.Lemmas.Descent
import Verif.Props.Legal

/-! # C101: recombination alone creates nothing new -/

namespace Verif.GP
open PyM Verif.Evo
variable {κ : Type}

/-- Subtree crossover objects, with any arguments. -/
inductive CrossoverOnly : Op GP.Ind → Prop
  | mk (p : ℚ) (arity attempts : Nat) : CrossoverOnly (crossoverOp p arity attempts)

/-- Subtree crossover and ERC mutation objects, with any arguments. -/
inductive NoSubtreeMutation : Op GP.Ind → Prop
  | crossover (p : ℚ) (arity attempts : Nat) : NoSubtreeMutation (crossoverOp p arity attempts)
  | erc (p : ℚ) (arity : Nat) (mu sigma : ℚ) : NoSubtreeMutation (ercOp p arity mu sigma)

theorem CrossoverOnly.lib {o : Op GP.Ind} (h : CrossoverOnly o) : LibOp o := by
  cases h
  exact .crossover _ _ _

theorem NoSubtreeMutation.lib {o : Op GP.Ind} (h : NoSubtreeMutation o) : LibOp o := by
  cases h with
  | crossover => exact .crossover _ _ _
  | erc => exact .erc _ _ _ _

theorem crossover_nodes_from {cfg : GP.Cfg} (arity attempts : Nat) {inds : List GP.Ind}
    (h : ∀ i ∈ inds, Legal cfg i) {R : Node → Prop} (hR : ∀ i ∈ inds, ∀ n ∈ i.tree, R n) :
    Post (subtreeCrossover arity attempts inds) fun out => ∀ i ∈ out, ∀ n ∈ i.tree, R n := by
  obtain ⟨ps, hps⟩ := legal_programs h
  intro tape out tape' hrun i hi n hn
  have hp := (C06_crossover_conserves inds ps hps arity attempts tape tape' out hrun).2
  have : n ∈ inds.flatMap (·.tree) := hp.mem_iff.1 (List.mem_flatMap.2 ⟨i, hi, hn⟩)
  obtain ⟨j, hj, hnj⟩ := List.mem_flatMap.1 this
  exact hR j hj n hnj

theorem erc_functions_from {cfg : GP.Cfg} (mu sigma : ℚ) {inds : List GP.Ind}
    (h : ∀ i ∈ inds, Legal cfg i) {R : Fn → Prop} (hR : ∀ i ∈ inds, ∀ f, Node.func f ∈ i.tree → R f) :
    Post (ercMutation mu sigma inds) fun out => ∀ i ∈ out, ∀ f, Node.func f ∈ i.tree → R f := by
  obtain ⟨ps, hps⟩ := legal_programs h
  refine (erc_post hps mu sigma).mono fun out h1 => ?_
  rcases h1 with rfl | hm
  · exact hR
  · intro i hi f hf
    obtain ⟨k, hk, rfl⟩ := List.getElem_of_mem hi
    have hm' := List.forall₂_iff_get.1 hm
    have hps' := List.forall₂_iff_get.1 hps
    have hkz : k < (inds.zip ps).length := by rw [hm'.1]; exact hk
    have hki : k < inds.length := by simp at hkz; omega
    have hkt : k < ps.length := by simp at hkz; omega
    have hmk := hm'.2 k hkz hk
    have hpk := hps'.2 k hki hkt
    simp only [List.get_eq_getElem, List.getElem_zip] at hmk hpk
    obtain ⟨C, v, v', ty, q, g, hp, -, -, -, ho⟩ := hmk
    obtain ⟨pre, post, hfill⟩ := C.flatten_fill
    refine hR _ (List.getElem_mem hki) f ?_
    rw [hpk.1, hp, hfill]
    rw [ho, show ({ inds[k] with tree := (C.fill (.term v' ty)).flatten } : GP.Ind).tree
      = (C.fill (.term v' ty)).flatten from rfl, hfill] at hf
    simpa [Prog.flatten] using hf

theorem CrossoverOnly.preserves {cfg : GP.Cfg} {o : Op GP.Ind} (h : CrossoverOnly o) (R : Node → Prop) :
    o.Preserves fun i => Legal cfg i ∧ ∀ n, n ∈ i.tree → R n := by
  cases h with
  | mk p a n =>
    refine Op.inPlace_preserves _ _ _ fun gs hgs => ?_
    refine Post.bind ((crossover_keeps_legal a n fun i hi => (hgs i hi).1).and
      (crossover_nodes_from a n (fun i hi => (hgs i hi).1) fun i hi => (hgs i hi).2)) fun out ho => Post.pure ?_
    rintro _ ⟨⟩ i hi
    exact ⟨ho.1 i hi, ho.2 i hi⟩

theorem NoSubtreeMutation.preserves {cfg : GP.Cfg} {o : Op GP.Ind} (h : NoSubtreeMutation o)
    (R : Fn → Prop) : o.Preserves fun i => Legal cfg i ∧ ∀ f, Node.func f ∈ i.tree → R f := by
  cases h with
  | crossover p a n =>
    refine Op.inPlace_preserves _ _ _ fun gs hgs => ?_
    refine Post.bind ((crossover_keeps_legal a n fun i hi => (hgs i hi).1).and
      (crossover_nodes_from a n (fun i hi => (hgs i hi).1) (R := fun x => ∀ f, x = .func f → R f)
        fun i hi x hx f e => (hgs i hi).2 f (e ▸ hx))) fun out ho => Post.pure ?_
    rintro _ ⟨⟩ i hi
    exact ⟨ho.1 i hi, fun f hf => ho.2 i hi _ hf f rfl⟩
  | erc p a mu sigma =>
    refine Op.inPlace_preserves _ _ _ fun gs hgs => ?_
    refine Post.bind ((erc_keeps_legal mu sigma fun i hi => (hgs i hi).1).and
      (erc_functions_from mu sigma (fun i hi => (hgs i hi).1) fun i hi => (hgs i hi).2)) fun out ho => Post.pure ?_
    rintro _ ⟨⟩ i hi
    exact ⟨ho.1 i hi, ho.2 i hi⟩

/-- **C101, trees.** In a run put together from the library's tree creators and subtree crossover alone
(any arities, numbers of attempts and probabilities, any evaluator, selection, checkers and schedule):
every node of every tree that can be seen in any event — function or terminal, with its value, so every
ephemeral constant too — is a node of some tree of the initial population, however the run ends. -/
theorem C101_nodes {cfg : GP.Cfg} {c : Evo.Cfg GP.Ind κ} {sub : SubCfg GP.Ind} {m : Mode}
    (hb : c.BuiltWith sub m (LibCreator cfg m) CrossoverOnly) {s : Run GP.Ind κ} (hr : s.Ready m)
    (hf : s.Starts (Legal cfg)) (r : Except Err Unit) (s' : Run GP.Ind κ) (hrun : evolve c s = (r, s')) :
    Recombined (fun (i : GP.Ind) n => n ∈ i.tree) s'.log :=
  evolve_recombined (P := Legal cfg) (hb.ordinary (fun _ h => h.good) fun _ h => h.lib.good)
    (fun x hx n hib s => ((hb.creators x hx).makes n hib s).mono fun _ _ h => h.2) _
    (fun R o ho => (hb.ops o ho).preserves R) hr hf r s' hrun

/-- **C101, functions.** If ERC mutation is used besides crossover, the constants change, but every function
that occurs in a tree that can be seen occurs in some tree of the initial population. -/
theorem C101_functions {cfg : GP.Cfg} {c : Evo.Cfg GP.Ind κ} {sub : SubCfg GP.Ind} {m : Mode}
    (hb : c.BuiltWith sub m (LibCreator cfg m) NoSubtreeMutation) {s : Run GP.Ind κ} (hr : s.Ready m)
    (hf : s.Starts (Legal cfg)) (r : Except Err Unit) (s' : Run GP.Ind κ) (hrun : evolve c s = (r, s')) :
    Recombined (fun (i : GP.Ind) f => Node.func f ∈ i.tree) s'.log :=
  evolve_recombined (P := Legal cfg) (hb.ordinary (fun _ h => h.good) fun _ h => h.lib.good)
    (fun x hx n hib s => ((hb.creators x hx).makes n hib s).mono fun _ _ h => h.2) _
    (fun R o ho => (hb.ops o ho).preserves R) hr hf r s' hrun

/-- The example run of C75 without subtree mutation. -/
def exRecSub (ops : List (Op GP.Ind)) : SubCfg GP.Ind :=
  ⟨exLibSub.creators, exLibSub.pick, ops, exLibSub.sels, 4, 1, true, exLibSub.evaluate⟩

def exRecCfg (ops : List (Op GP.Ind)) : Evo.Cfg GP.Ind Unit :=
  ⟨exLibCfg.size, [exRecSub ops], exLibCfg.stream, 2, .none, exLibCfg.sched, false⟩

theorem exRecCfg_built {ops : List (Op GP.Ind)} {OP : Op GP.Ind → Prop} (h : ∀ o ∈ ops, OP o) :
    (exRecCfg ops).BuiltWith (exRecSub ops) ⟨true, none⟩ (LibCreator Sample.cfg ⟨true, none⟩) OP where
  subs := rfl
  dir := rfl
  creators := exLibCfg_built.creators
  sels := exLibCfg_built.sels
  ops := h
  sched := exLibCfg_built.sched
  map := rfl

theorem exRecRun_ends : (evolve (exRecCfg [crossoverOp 1 2 1]) exLibRun).1 = .ok () ∧
    (evolve (exRecCfg [crossoverOp 1 2 1, ercOp 1 1 0 1]) exLibRun).1 = .ok () := by decide +kernel

example := C101_nodes (exRecCfg_built (OP := CrossoverOnly) (ops := [crossoverOp 1 2 1]) (by
    intro o ho
    simp only [List.mem_singleton] at ho
    subst ho
    exact .mk _ _ _)) (s := exLibRun) (.inl rfl) ⟨by simp [exLibRun], rfl, rfl, rfl⟩ (.ok ()) _
  (ran exRecRun_ends.1)

example := C101_functions (exRecCfg_built (OP := NoSubtreeMutation) (ops := [crossoverOp 1 2 1, ercOp 1 1 0 1]) (by
    intro o ho
    simp only [List.mem_cons, List.not_mem_nil, or_false] at ho
    rcases ho with rfl | rfl
    · exact .crossover _ _ _
    · exact .erc _ _ _ _)) (s := exLibRun) (.inl rfl) ⟨by simp [exLibRun], rfl, rfl, rfl⟩ (.ok ()) _
  (ran exRecRun_ends.2)

end Verif.GP

namespace Verif.GA
open PyM Verif.Evo
variable {κ : Type} {kind : Kind} {bounds : Bounds} {length : Nat} {m : Mode}

/-- k-point crossover objects with fewer cut points than cells. -/
inductive CrossoverOnly (length : Nat) : Op Vec → Prop
  | mk (p : ℚ) (arity k : Nat) (hk : k < length) : CrossoverOnly length (crossoverOp p arity k)

/-- The value `x.2` is in cell `x.1` of the vector. -/
def Vec.HasGene (v : Vec) (x : Nat × ℚ) : Prop := v.vector[x.1]? = some x.2

theorem CrossoverOnly.lib {o : Op Vec} (h : CrossoverOnly length o) : LibOp kind length o := by
  cases h with
  | mk p a k hk => exact .crossover p a k hk

theorem crossover_genes_from {k : Nat} (hk : k < length) {inds : List Vec}
    (h : ∀ v ∈ inds, Legal kind bounds length v) {R : Nat × ℚ → Prop}
    (hR : ∀ v ∈ inds, ∀ x, v.HasGene x → R x) :
    Post (kPointApply k inds) fun out => ∀ v ∈ out, ∀ x, v.HasGene x → R x := by
  match inds, h, hR with
  | [], _, _ => exact Post.raise
  | [a], _, _ =>
    unfold kPointApply
    exact Post.bind Post.trivial fun _ _ => Post.raise
  | a :: b :: others, h, hR =>
    obtain ⟨a1, a2, a3, a4, a5⟩ := h a (by simp)
    obtain ⟨b1, b2, b3, b4, b5⟩ := h b (by simp)
    have hs : a.size = b.size := by unfold Vec.size; omega
    have hka : k < a.size := by unfold Vec.size; omega
    refine (C16_genes_conserved k a b others hs hka).post.mono ?_
    rintro out ⟨w1, w2, rfl, -, -, hg⟩ v hv x hx
    have ha := hR a (by simp) x
    have hb := hR b (by simp) x
    unfold Vec.HasGene at ha hb hx
    simp only [List.mem_cons] at hv
    rcases hv with rfl | rfl | hv
    · rcases hg x.1 with g | g
      · exact ha (g.1 ▸ hx)
      · exact hb (g.1 ▸ hx)
    · rcases hg x.1 with g | g
      · exact hb (g.2 ▸ hx)
      · exact ha (g.2 ▸ hx)
    · exact hR v (by simp [hv]) x hx

theorem CrossoverOnly.preserves {o : Op Vec} (h : CrossoverOnly length o) (R : Nat × ℚ → Prop) :
    o.Preserves fun v => Legal kind bounds length v ∧ ∀ x, v.HasGene x → R x := by
  cases h with
  | mk p a k hk =>
    refine Op.inPlace_preserves _ _ _ fun gs hgs => ?_
    refine Post.bind ((crossover_keeps hk fun i hi => (hgs i hi).1).and
      (crossover_genes_from hk (fun i hi => (hgs i hi).1) fun i hi => (hgs i hi).2)) fun out ho => Post.pure ?_
    rintro _ ⟨⟩ i hi
    exact ⟨ho.1 i hi, ho.2 i hi⟩

/-- **C101, vectors.** In a run put together from a vector creator of the library and k-point crossovers with
fewer cut points than cells (any arities and probabilities, any evaluator, selection, checkers and
schedule): the value in any cell of any vector that can be seen in any event is the value some vector of
the initial population had in the same cell, however the run ends. -/
theorem C101_genes (hb : bounds.Proper kind length) {c : Evo.Cfg Vec κ} {sub : SubCfg Vec}
    (h : c.BuiltWith sub m (LibCreator kind bounds length m) (CrossoverOnly length)) {s : Run Vec κ}
    (hr : s.Ready m) (hf : s.Starts (Legal kind bounds length)) (r : Except Err Unit) (s' : Run Vec κ)
    (hrun : evolve c s = (r, s')) : Recombined Vec.HasGene s'.log :=
  evolve_recombined (P := Legal kind bounds length)
    (h.ordinary (fun _ h => h.good hb) fun _ h => (h.lib (kind := kind)).good)
    (fun x hx n hib s => ((h.creators x hx).makes hb n hib s).mono fun _ _ h => h.2) _
    (fun R o ho => (h.ops o ho).preserves R) hr hf r s' hrun

/-- The example run of C76 without the mutation. -/
def exRecSub : SubCfg Vec :=
  ⟨exLibSub.creators, exLibSub.pick, [crossoverOp 1 2 2], exLibSub.sels, 4, 1, true, exLibSub.evaluate⟩

def exRecCfg : Evo.Cfg Vec Unit :=
  ⟨exLibCfg.size, [exRecSub], exLibCfg.stream, 2, .none, exLibCfg.sched, false⟩

theorem exRecCfg_built : exRecCfg.BuiltWith exRecSub ⟨true, none⟩
    (LibCreator .float (.tup [0, 1]) 3 ⟨true, none⟩) (CrossoverOnly 3) where
  subs := rfl
  dir := rfl
  creators := exLibCfg_built.creators
  sels := exLibCfg_built.sels
  ops := by
    intro o ho
    simp only [exRecSub, List.mem_singleton] at ho
    subst ho
    exact .mk _ _ _ (by omega)
  sched := exLibCfg_built.sched
  map := rfl

theorem exRecRun_ends : (evolve exRecCfg exLibRun).1 = .ok () := by decide +kernel

example := C101_genes exLib_proper exRecCfg_built (s := exLibRun) (.inl rfl)
  ⟨by simp [exLibRun], rfl, rfl, rfl⟩ (.ok ()) _ (ran exRecRun_ends)

end Verif.GA
