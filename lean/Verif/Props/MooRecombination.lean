import Verif.Props.MooTotal
import Verif.Props.Recombination

/-! # C135: in NSGA-II, too, recombination alone creates nothing new -/

namespace Verif.Moo
open PyM
variable {G X : Type} {P : G → Prop} {n m : Nat} {ds : List Bool}

/-- The world in which the initial population is created: the generators have been seeded. -/
def MRun.seeded (c : MCfg G) (s : MRun G) : MWorld G := { s.w with tape := c.stream s.randomSeed }

/-- The run with the initial population given. -/
def MCfg.given (c : MCfg G) (is : List Nat) (w : MWorld G) : MCfg G :=
  { c with sub := { c.sub with create := fun _ => (.ok is, w) } }

theorem given_loop (c : MCfg G) (is : List Nat) (w : MWorld G) (k gen : Nat) : mloop (c.given is w) k gen = mloop c k gen := by
  induction k generalizing gen with
  | zero => rfl
  | succ k ih =>
    unfold mloop
    simp only [ih]
    rfl

theorem given_after (c : MCfg G) (is : List Nat) (w : MWorld G) : mafterInit (c.given is w) = mafterInit c := by
  unfold mafterInit
  show (PyM.get >>= fun s => _) = _
  have := given_loop c is w c.maxGen 1
  rw [show (c.given is w).maxGen = c.maxGen from rfl, this]
  rfl

theorem mevolve_given {c : MCfg G} {s : MRun G} (hi : s.inds = none) {is : List Nat} {w : MWorld G}
    (hw : c.sub.create (s.seeded c) = (.ok is, w)) : mevolve (c.given is w) s = mevolve c s := by
  have h1 : minit (c.given is w) s = minit c s := by
    obtain ⟨w₀, i, a, b, d, e, f, g, h⟩ := s
    obtain rfl : i = none := hi
    have hm : mcreate (c.given is w) ⟨MRun.seeded c ⟨w₀, none, a, b, d, e, f, g, h⟩, none, a, b, d, e, f, g, h⟩ =
        mcreate c ⟨MRun.seeded c ⟨w₀, none, a, b, d, e, f, g, h⟩, none, a, b, d, e, f, g, h⟩ := by
      unfold mcreate
      simp only [bind_run, PyM.get, mworld, PyM.zoom, hw, MCfg.given]
    unfold minit
    simp only [bind_run, PyM.get, msetSeed, PyM.modify]
    simp only [MRun.seeded] at hm
    have hs : (c.given is w).stream = c.stream := rfl
    simp only [hs, hm]
    rfl
  unfold mevolve
  rw [bind_run, bind_run, h1, given_after]

/-- `F g x`: the genome `g` has the feature `x`.  The operators keep `P` and bring in no new feature. -/
def Recombines (P : G → Prop) (F : G → X → Prop) (o : MOp G) : Prop :=
  ∀ R : X → Prop, o.WorksOn fun g => P g ∧ ∀ x, F g x → R x

/-- The run starts with the individuals `is`, whose genomes are those of `w`, and ends with a population all of whose features were
in theirs. -/
def MRecombined (F : G → X → Prop) (c : MCfg G) (s : MRun G) (n m : Nat) : Prop :=
  ∃ is w s' final, c.sub.create (s.seeded c) = (.ok is, w) ∧ is.length = n ∧ mevolve c s = (.ok (), s') ∧ MCompleted (fun _ => True) n m s' ∧
    s'.inds = some final ∧ ∀ r ∈ final, ∀ x, F (s'.w.genome r) x → ∃ r₀ ∈ is, F (w.genome r₀) x

theorem C135_features {c : MCfg G} (hc : c.Sound P n m ds) (hsel : ∃ arity k replace, c.sub.sels = [⟨arity, tournamentM k replace⟩] ∧
      (replace = true ∨ k ≤ n)) {fit : Fit} (hcr : CreatesM P fit n c.sub.create) {F : G → X → Prop}
    (hop : ∀ o ∈ c.sub.ops, Recombines P F o) {s : MRun G} (hf : s.Fresh m ds) (h0 : s.w.next = 0) : MRecombined F c s n m := by
  obtain ⟨is, w, hw, rfl, hn, -, hnew⟩ := hcr (s.seeded c)
  have hd : AllDir m ds (s.seeded c) := hf.dirs
  have h00 : (s.seeded c).next = 0 := h0
  rw [h00] at hn hnew
  have hgood := hc.creates _ hd _ _ hw
  have hobj : ∀ r ∈ List.range' (s.seeded c).next n, (w.fits r).objs = none := by
    obtain ⟨l, w', hw', -, h2⟩ := hc.create _ hd (fun r hr => absurd hr (by rw [h00]; exact Nat.not_lt_zero r))
    rw [hw] at hw'
    cases hw'
    exact h2
  have hP : AllHave (fun g => P g ∧ ∀ x, F g x → ∃ r₀ ∈ List.range' (s.seeded c).next n, F (w.genome r₀) x) w := by
    intro r hr
    refine ⟨(hnew r (Nat.zero_le _) (by omega)).2, fun x hx => ⟨r, ?_, hx⟩⟩
    rw [List.mem_range'_1, h00]
    omega
  have hs : (c.given (List.range' (s.seeded c).next n) w).Sound
      (fun g => P g ∧ ∀ x, F g x → ∃ r₀ ∈ List.range' (s.seeded c).next n, F (w.genome r₀) x) n m ds :=
    { creates := fun w' _ l w'' h => by cases h; exact hgood
      ops := hc.ops
      sels := hc.sels
      evaluates := hc.evaluates
      directions := hc.directions
      order := hc.order
      breeder := hc.breeder
      size := hc.size
      create := fun w' _ _ => ⟨_, _, rfl, hP, hobj⟩
      arities := hc.arities
      operate := fun o ho => hop o ho _
      select := by
        obtain ⟨a, k, rep, he, hk⟩ := hsel
        exact ⟨_, [], he, tournamentM_worksOn hk⟩
      evaluate := fun g hg => hc.evaluate g hg.1
      sched := hc.sched
      calm := hc.calm }
  obtain ⟨s', h1, ⟨l, b, v, k1, k2, k3, k4, k5⟩, -⟩ := C82_completes hs hf fun r hr => absurd hr (by rw [h0]; exact Nat.not_lt_zero r)
  rw [mevolve_given hf.inds hw] at h1
  exact ⟨_, w, s', l, hw, by simp, h1, ⟨l, b, v, k1, k2, k3, fun r hr => ⟨trivial, (k4 r hr).2⟩, k5⟩, k1,
    fun r hr x hx => (k4 r hr).1.2 x hx⟩

/-! ## Programs -/

section programs
open GP
variable {cfg : GP.Cfg}

/-- Subtree crossover objects, with any arguments. -/
inductive TreeCrossoverOnly : MOp GP.Ind → Prop
  | mk (p : ℚ) (arity attempts : Nat) : TreeCrossoverOnly (treeCrossover p arity attempts)

/-- Subtree crossover and ERC mutation objects, with any arguments. -/
inductive NoTreeMutation : MOp GP.Ind → Prop
  | crossover (p : ℚ) (arity attempts : Nat) : NoTreeMutation (treeCrossover p arity attempts)
  | erc (p : ℚ) (arity : Nat) (mu sigma : ℚ) : NoTreeMutation (ercMutationM p arity mu sigma)

theorem recombines_aux {f : Rand (List GP.Ind)} {R : GP.Ind → Prop} (hf : Total f) (hq : Post f (fun out => ∀ i ∈ out, PlainLegal cfg i))
    (hr : Post f fun out => ∀ i ∈ out, R i) :
    Ensures (do let out ← f; PyM.pure (some out)) fun res => ∃ out, res = some out ∧ ∀ i ∈ out, PlainLegal cfg i ∧ R i :=
  Ensures.bind (Ensures.of hf (hq.and hr)) fun out ho => Ensures.pure ⟨out, rfl, fun i hi => ⟨ho.1 i hi, ho.2 i hi⟩⟩

theorem TreeCrossoverOnly.recombines {o : MOp GP.Ind} (h : TreeCrossoverOnly o) (ha : o.arity ≠ 0) :
    Recombines (PlainLegal cfg) (fun (i : GP.Ind) x => x ∈ i.tree) o := by
  cases h with
  | mk p a k =>
    intro R
    exact onGenomes_worksOn fun gs hl hgs => recombines_aux
      (crossover_total (fun i hi => (hgs i hi).1) (by rintro rfl; exact ha hl.symm) hl k) (crossover_keeps_plain a k fun i hi => (hgs i hi).1)
      (crossover_nodes_from a k (fun i hi => (hgs i hi).1.1) fun i hi => (hgs i hi).2)

theorem NoTreeMutation.recombines {o : MOp GP.Ind} (h : NoTreeMutation o) (ha : o.arity ≠ 0) :
    Recombines (PlainLegal cfg) (fun (i : GP.Ind) f => Node.func f ∈ i.tree) o := by
  cases h with
  | crossover p a k =>
    intro R
    refine onGenomes_worksOn fun gs hl hgs => recombines_aux
      (crossover_total (fun i hi => (hgs i hi).1) (by rintro rfl; exact ha hl.symm) hl k) (crossover_keeps_plain a k fun i hi => (hgs i hi).1) ?_
    refine (crossover_nodes_from a k (fun i hi => (hgs i hi).1.1) (R := fun x => ∀ f, x = .func f → R f)
      fun i hi x hx f e => (hgs i hi).2 f (by subst e; exact hx)).mono fun out ho i hi f hf => ho i hi _ hf f rfl
  | erc p a mu sigma =>
    intro R
    exact onGenomes_worksOn fun gs _ hgs => recombines_aux
      (erc_total mu sigma fun i hi => (hgs i hi).1) (erc_keeps_plain mu sigma fun i hi => (hgs i hi).1)
      (erc_functions_from mu sigma (fun i hi => (hgs i hi).1.1) fun i hi => (hgs i hi).2)

/-- **C135, trees.** In a run of `NSGA2Evolution` with `NSGA2Breeder` whose only operators are subtree crossovers, every node of every
tree of the final population — function or terminal, with its value — is a node of some tree of the initial population. -/
theorem C135_nodes (hp : cfg.Plain) {c : MCfg GP.Ind}
    (h : c.Assembled (PlainLegal cfg) (TreeCreator cfg n m ds) TreeCrossoverOnly n m ds) {s : MRun GP.Ind} (hf : s.Fresh m ds)
    (h0 : s.w.next = 0) : MRecombined (fun (i : GP.Ind) x => x ∈ i.tree) c s n m := by
  obtain ⟨fit, -, hcr⟩ := h.creator.creates hp
  have hl : ∀ o, TreeCrossoverOnly o → TreeOp o := fun o h => by cases h; exact .crossover _ _ _
  exact C135_features (h.sound (fun _ h => h.creates hp) (fun o ho => (hl o ho).good) fun o ho ha => (hl o ho).worksOn hp ha) h.sels hcr
    (fun o ho => (h.ops o ho).recombines (h.arities o ho).1) hf h0

/-- **C135, functions.** With ERC mutation besides, the constants change, but every function that occurs in a tree of the final
population occurs in some tree of the initial population. -/
theorem C135_functions (hp : cfg.Plain) {c : MCfg GP.Ind}
    (h : c.Assembled (PlainLegal cfg) (TreeCreator cfg n m ds) NoTreeMutation n m ds) {s : MRun GP.Ind} (hf : s.Fresh m ds)
    (h0 : s.w.next = 0) : MRecombined (fun (i : GP.Ind) f => Node.func f ∈ i.tree) c s n m := by
  obtain ⟨fit, -, hcr⟩ := h.creator.creates hp
  have hl : ∀ o, NoTreeMutation o → TreeOp o := fun o h => by
    cases h
    · exact .crossover _ _ _
    · exact .erc _ _ _ _
  exact C135_features (h.sound (fun _ h => h.creates hp) (fun o ho => (hl o ho).good) fun o ho ha => (hl o ho).worksOn hp ha) h.sels hcr
    (fun o ho => (h.ops o ho).recombines (h.arities o ho).1) hf h0

end programs

/-! ## Vectors -/

section vectors
open GA
variable {kind : Kind} {bounds : Bounds} {length : Nat}

/-- k-point crossover of at least two parents with fewer cut points than cells. -/
inductive VecCrossoverOnly (length : Nat) : MOp Vec → Prop
  | mk (p : ℚ) (arity k : Nat) (hk : k < length) (ha : 2 ≤ arity) : VecCrossoverOnly length (vecCrossover p arity k)

theorem VecCrossoverOnly.op {o : MOp Vec} (h : VecCrossoverOnly length o) : VecOp kind length o := by
  cases h with
  | mk p a k hk ha => exact .crossover p a k hk ha

theorem VecCrossoverOnly.recombines {o : MOp Vec} (h : VecCrossoverOnly length o) :
    Recombines (Legal kind bounds length) Vec.HasGene o := by
  cases h with
  | mk p a k hk ha =>
    intro R
    refine onGenomes_worksOn fun gs hl hgs => ?_
    have hleg : ∀ v ∈ gs, Legal kind bounds length v := fun v hv => (hgs v hv).1
    have hto : Total (kPointApply k gs) := by
      match gs, hl, hgs with
      | [], hl, _ => simp at hl; omega
      | [_], hl, _ => simp at hl; omega
      | u :: v :: others, _, hgs =>
        obtain ⟨-, -, -, a4, -⟩ := (hgs u (by simp)).1
        obtain ⟨-, -, -, b4, -⟩ := (hgs v (by simp)).1
        exact (C16_genes_conserved k u v others (by unfold Vec.size; omega) (by unfold Vec.size; omega)).total
    exact Ensures.bind (Ensures.of hto ((crossover_keeps hk hleg).and (crossover_genes_from hk hleg fun v hv => (hgs v hv).2)))
      fun out ho => Ensures.pure ⟨out, rfl, fun v hv => ⟨ho.1 v hv, ho.2 v hv⟩⟩

/-- **C135, vectors.** In a run of `NSGA2Evolution` with `NSGA2Breeder` whose only operators are k-point crossovers with fewer cut
points than cells, the value in any cell of any vector of the final population is the value some vector of the initial population
had in the same cell. -/
theorem C135_genes (hb : bounds.Proper kind length) {c : MCfg Vec}
    (h : c.Assembled (Legal kind bounds length) (VecCreator kind bounds length n m ds) (VecCrossoverOnly length) n m ds) {s : MRun Vec}
    (hf : s.Fresh m ds) (h0 : s.w.next = 0) : MRecombined Vec.HasGene c s n m := by
  obtain ⟨fit, -, hcr⟩ := h.creator.creates hb
  exact C135_features (h.sound (fun _ h => h.creates hb) (fun o ho => (ho.op (kind := kind)).good) fun o ho _ => (ho.op (kind := kind)).worksOn hb)
    h.sels hcr (fun o ho => (h.ops o ho).recombines) hf h0

end vectors

/-! ## Non-vacuity -/

theorem MCfg.Assembled.withOps {Creator : MM G (List Nat) → Prop} {Ops Ops' : MOp G → Prop} {c : MCfg G}
    (h : c.Assembled P Creator Ops n m ds) {ops : List (MOp G)} (ho : ∀ o ∈ ops, Ops' o ∧ o.arity ≠ 0 ∧ o.arity ∣ n) :
    MCfg.Assembled P Creator Ops' { c with sub := { c.sub with ops := ops } } n m ds :=
  { breeder := h.breeder, size := h.size, directions := h.directions, creator := h.creator, ops := fun o h' => (ho o h').1,
    arities := fun o h' => (ho o h').2, sels := h.sels, evaluates := h.evaluates, evaluate := h.evaluate, order := h.order,
    sched := h.sched, calm := h.calm }

example := C135_nodes GP.exPlain (exProg_assembled.withOps (Ops' := TreeCrossoverOnly) (ops := [treeCrossover 1 2 1]) (by
    intro o ho
    simp only [List.mem_singleton] at ho
    subst ho
    exact ⟨.mk _ _ _, show (2 : Nat) ≠ 0 by decide, show 2 ∣ 4 by decide⟩)) (s := exProgRun)
  ⟨rfl, fun r hr => absurd hr (Nat.not_lt_zero r), rfl, rfl⟩ rfl

example := C135_functions GP.exPlain (exProg_assembled.withOps (Ops' := NoTreeMutation) (ops := [treeCrossover 1 2 1, ercMutationM 1 1 0 1]) (by
    intro o ho
    simp only [List.mem_cons, List.not_mem_nil, or_false] at ho
    rcases ho with rfl | rfl
    · exact ⟨.crossover _ _ _, show (2 : Nat) ≠ 0 by decide, show 2 ∣ 4 by decide⟩
    · exact ⟨.erc _ _ _ _, show (1 : Nat) ≠ 0 by decide, show 1 ∣ 4 by decide⟩)) (s := exProgRun)
  ⟨rfl, fun r hr => absurd hr (Nat.not_lt_zero r), rfl, rfl⟩ rfl

example := C135_genes GA.exLib_proper (exVector_assembled.withOps (Ops' := VecCrossoverOnly 3) (ops := [vecCrossover 1 2 2]) (by
    intro o ho
    simp only [List.mem_singleton] at ho
    subst ho
    exact ⟨.mk _ _ _ (by decide) (by decide), show (2 : Nat) ≠ 0 by decide, show 2 ∣ 4 by decide⟩)) (s := exVectorRun)
  ⟨rfl, fun r hr => absurd hr (Nat.not_lt_zero r), rfl, rfl⟩ rfl

end Verif.Moo
