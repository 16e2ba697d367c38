import Verif.Spec.Library
import Verif.Lemmas.Legal
import Verif.Lemmas.Operator
import Verif.Props.GPMutation
import Verif.Props.GPCrossover
import Verif.Props.GPExec
import Verif.Props.GAMutation
import Verif.Props.GACrossover
import Verif.Props.Run

/-! # C75, C76: legality of all individuals throughout a run -/

namespace Verif.Evo
open PyM
variable {G κ : Type} {P : G → Prop}

theorem Cfg.BuiltWith.ordinary {c : Cfg G κ} {sub : SubCfg G} {m : Mode}
    {CR : (Nat → Bool → WM G (List Nat)) → Prop} {OP : Op G → Prop} (h : c.BuiltWith sub m CR OP)
    (hcr : ∀ create, CR create → CreatorGood m create) (hop : ∀ o, OP o → o.Good) : c.Ordinary sub m where
  subs := h.subs
  dir := h.dir
  creators := fun x hx => hcr x (h.creators x hx)
  sels := h.sels
  ops := fun o ho => hop o (h.ops o ho)
  sched := h.sched
  map := h.map

theorem Ext.carry {s s' : World G} {a : List Nat} (hb : Ext (fun _ => False) s s')
    (ha : Carry P s.heap a) : Carry P s'.heap a := by
  refine carry_of_genomes ha fun r hr => ?_
  unfold genomeAt
  rw [hb.same r (ha.lt r hr) (by simp)]

/-- The creator modifies nothing that exists and makes individuals satisfying `P`. -/
def Makes (P : G → Prop) (create : Nat → Bool → WM G (List Nat)) : Prop :=
  ∀ n h s, wlp (create n h) (fun res s' => Ext (fun _ => False) s s' ∧ Carry P s'.heap res) s

theorem createIndividuals_makes' (empty : G) {genome : Rand G} (fit : Bool → Fit) (up : Bool)
    (hg : Post genome P) : Makes P (createIndividuals empty genome fit up) := fun n h s =>
  ((createIndividuals_wlp empty genome fit up n h s).and
    (createIndividuals_makes empty fit up hg n h s)).mono fun _ _ h => ⟨h.1.1.ext, h.2⟩

theorem halfGroups_makes {grow full : Nat → Nat → Bool → WM G (List Nat)} (k : Nat) (h : Bool) (ds : List Nat)
    (hg : ∀ d ∈ ds, Makes P (grow d)) (hf : ∀ d ∈ ds, Makes P (full d)) (s : World G) : wlp (halfGroups grow full k h ds) (fun res s' =>
      Ext (fun _ => False) s s' ∧ Carry P s'.heap res) s := by
  induction ds generalizing s with
  | nil => unfold halfGroups; rw [wlp_pure]; exact ⟨Ext.refl _ _, by simp [Carry]⟩
  | cons d ds ih =>
    unfold halfGroups
    rw [wlp_bind]
    refine (hg d (by simp) k h s).mono fun a s₁ h1 => ?_
    rw [wlp_bind]
    refine (hf d (by simp) k h s₁).mono fun b s₂ h2 => ?_
    rw [wlp_bind]
    refine (ih (fun d hd => hg d (by simp [hd])) (fun d hd => hf d (by simp [hd])) s₂).mono fun rest s₃ h3 => ?_
    rw [wlp_pure]
    exact ⟨((h1.1.trans h2.1).trans h3.1).mono (by simp),
      carry_append (h3.1.carry (carry_append (h2.1.carry h1.2) h2.2)) h3.2⟩

/-- What is true of the trees of every depth in the range is true of all trees the half creator makes. -/
theorem halfCreate_makes_range {grow full : Nat → Nat → Bool → WM G (List Nat)} (minDepth depths : Nat)
    (hg : ∀ d < minDepth + depths, Makes P (grow d)) (hf : ∀ d < minDepth + depths, Makes P (full d)) :
    Makes P (halfCreate grow full minDepth depths) := by
  intro n h s
  unfold halfCreate
  rw [wlp_ite]
  refine ⟨fun _ => by simp, fun h0 => ?_⟩
  have hpos : 0 < depths := by
    rcases Nat.eq_zero_or_pos depths with e | e
    · exact absurd (by simp [e]) h0
    · exact e
  rw [wlp_bind]
  refine (halfGroups_makes _ h _ (fun d hd => hg d (by simp at hd; omega)) (fun d hd => hf d (by simp at hd; omega))
    s).mono fun inds s₁ h1 => ?_
  rw [wlp_ite]
  refine ⟨fun _ => ?_, fun _ => by rw [wlp_pure]; exact h1⟩
  rw [wlp_bind]
  refine (hf _ (by omega) _ h s₁).mono fun more s₂ h2 => ?_
  rw [wlp_pure]
  exact ⟨(h1.1.trans h2.1).mono (by simp), carry_append (h2.1.carry h1.2) h2.2⟩

theorem halfCreate_makes {grow full : Nat → Nat → Bool → WM G (List Nat)}
    (hg : ∀ d, Makes P (grow d)) (hf : ∀ d, Makes P (full d)) (minDepth depths : Nat) :
    Makes P (halfCreate grow full minDepth depths) :=
  halfCreate_makes_range minDepth depths (fun d _ => hg d) fun d _ => hf d

/-- The general principle behind C75 and C76: what the creators establish and the operators preserve
holds of every individual visible in any event of any run, and at its end. -/
theorem run_invariant {c : Cfg G κ} {sub : SubCfg G} {m : Mode}
    {CR : (Nat → Bool → WM G (List Nat)) → Prop} {OP : Op G → Prop} (h : c.BuiltWith sub m CR OP)
    (hcg : ∀ create, CR create → CreatorGood m create) (hcm : ∀ create, CR create → Makes P create)
    (hog : ∀ o, OP o → o.Good) (hop : ∀ o, OP o → o.Preserves P) {s : Run G κ} (hr : s.Ready m)
    (hf : s.Starts P) (r : Except Err Unit) (s' : Run G κ) (hrun : evolve c s = (r, s')) :
    ∀ e ∈ s'.log, e.AllHave P := by
  have := evolve_lawful (h.ordinary hcg hog)
    (fun x hx n hib s => (hcm x (h.creators x hx) n hib s).mono fun _ _ h => h.2)
    (fun o ho => hop o (h.ops o ho)) hr hf r s' hrun
  cases r with
  | ok _ => exact this.log
  | error _ => exact this

end Verif.Evo

/-! ## C75: tree GP -/

namespace Verif.GP
open PyM Verif.Evo
variable {κ : Type}

theorem legal_programs {cfg : GP.Cfg} {inds : List GP.Ind} (h : ∀ i ∈ inds, Legal cfg i) :
    ∃ ps, List.Forall₂ Represents inds ps := by
  induction inds with
  | nil => exact ⟨[], .nil⟩
  | cons i is ih =>
    obtain ⟨-, p, hp⟩ := h i (by simp)
    obtain ⟨ps, hps⟩ := ih fun j hj => h j (by simp [hj])
    exact ⟨p :: ps, .cons hp hps⟩

theorem legal_of_cfgs {cfg : GP.Cfg} {inds out : List GP.Ind} (h : ∀ i ∈ inds, Legal cfg i)
    (hc : out.map (·.cfg) = inds.map (·.cfg)) {ps : List Prog} (hr : List.Forall₂ Represents out ps) :
    ∀ i ∈ out, Legal cfg i := by
  intro i hi
  have : i.cfg ∈ inds.map (·.cfg) := hc ▸ List.mem_map_of_mem hi
  obtain ⟨j, hj, e⟩ := List.mem_map.1 this
  refine ⟨e.symm.trans (h j hj).1, ?_⟩
  obtain ⟨k, hk, rfl⟩ := List.getElem_of_mem hi
  exact ⟨_, (List.forall₂_iff_get.1 hr).2 k hk (hr.length_eq ▸ hk)⟩

theorem legal_creates {cfg : GP.Cfg} {create : Option Ty → Rand (List Node)} {τ : Option Ty}
    (h : Post (create τ) fun l => ∃ p : Prog, l = p.flatten ∧ p.Ok ∧ p.BuiltFrom cfg) :
    Post (do let t ← create τ; pure (⟨cfg, t⟩ : GP.Ind)) (Legal cfg) :=
  Post.bind h fun _ ⟨p, hp, hok, hb⟩ => Post.pure ⟨rfl, p, hp, hok, fun f hf => (hb.1 f hf).1⟩

theorem full_makes (cfg : GP.Cfg) (maxDepth : Nat) (fit : Bool → Fit) (up : Bool) :
    Makes (Legal cfg) (fullCreator cfg maxDepth fit up) :=
  createIndividuals_makes' _ _ _ (legal_creates ((fullTree_post cfg (fun _ => False) maxDepth _).mono
    fun _ ⟨p, hp, h⟩ => ⟨p, hp, h.ok, h.built⟩))

theorem grow_makes (cfg : GP.Cfg) (pPrune : ℚ) (minDepth maxDepth : Nat) (fit : Bool → Fit) (up : Bool) :
    Makes (Legal cfg) (growCreator cfg pPrune minDepth maxDepth fit up) :=
  createIndividuals_makes' _ _ _ (legal_creates
    ((growTree_post cfg (fun _ => False) pPrune _ minDepth maxDepth _ rfl).mono
      fun _ ⟨p, hp, h⟩ => ⟨p, hp, h.ok, h.built⟩))

theorem LibCreator.good {cfg : GP.Cfg} {m : Mode} {create : Nat → Bool → WM GP.Ind (List Nat)}
    (h : LibCreator cfg m create) : CreatorGood m create := by
  cases h with
  | full _ _ _ hf => exact createIndividuals_good _ _ _ _ hf
  | grow _ _ _ _ _ hf => exact createIndividuals_good _ _ _ _ hf
  | half _ _ _ _ _ hf =>
    exact halfCreate_good (fun _ => createIndividuals_good _ _ _ _ hf)
      (fun _ => createIndividuals_good _ _ _ _ hf) _ _

theorem LibCreator.makes {cfg : GP.Cfg} {m : Mode} {create : Nat → Bool → WM GP.Ind (List Nat)}
    (h : LibCreator cfg m create) : Makes (Legal cfg) create := by
  cases h with
  | full d fit up => exact full_makes cfg d fit up
  | grow q lo hi fit up => exact grow_makes cfg q lo hi fit up
  | half q lo hi fit up =>
    exact halfCreate_makes (fun d => grow_makes cfg q lo d fit up) (fun d => full_makes cfg d fit up) _ _

theorem LibOp.good {o : Op GP.Ind} (h : LibOp o) : o.Good := by
  cases h <;> exact Op.inPlace_good _ _ _ _

theorem crossover_keeps_legal {cfg : GP.Cfg} (arity attempts : Nat) {inds : List GP.Ind}
    (h : ∀ i ∈ inds, Legal cfg i) :
    Post (subtreeCrossover arity attempts inds) fun out => ∀ i ∈ out, Legal cfg i := by
  obtain ⟨ps, hps⟩ := legal_programs h
  refine (crossover_legal_post hps (fun i hi j hj f hf => ?_) arity attempts).mono
    fun out ⟨h1, ps', h2⟩ => legal_of_cfgs h h1 h2
  rw [(h j hj).1]
  rwa [(h i hi).1] at hf

theorem cfgs_of_forall₂ {R : GP.Ind × Prog → GP.Ind → Prop} {inds : List GP.Ind} {ps : List Prog}
    {out : List GP.Ind} (hl : inds.length = ps.length) (hR : ∀ x ind', R x ind' → ind'.cfg = x.1.cfg)
    (h : List.Forall₂ R (inds.zip ps) out) : out.map (·.cfg) = inds.map (·.cfg) := by
  induction inds generalizing ps out with
  | nil => cases h; rfl
  | cons i is ih =>
    cases ps with
    | nil => simp at hl
    | cons p ps =>
      simp only [List.zip_cons_cons] at h
      cases h with
      | cons h1 h2 => simp [hR _ _ h1, ih (by simpa using hl) h2]

theorem mutation_keeps_legal {cfg : GP.Cfg} (lo hi attempts : Nat) {inds : List GP.Ind}
    (h : ∀ i ∈ inds, Legal cfg i) :
    Post (subtreeMutation lo hi attempts inds) fun out => ∀ i ∈ out, Legal cfg i := by
  obtain ⟨ps, hps⟩ := legal_programs h
  refine (mutation_legal_post hps lo hi attempts).mono fun out ⟨h1, ps', h2⟩ => ?_
  rcases h1 with rfl | h1
  · exact h
  · refine legal_of_cfgs h (cfgs_of_forall₂ hps.length_eq ?_ h1) h2
    rintro x ind' ⟨C, q, r, -, rfl, -⟩
    rfl

theorem erc_keeps_legal {cfg : GP.Cfg} (mu sigma : ℚ) {inds : List GP.Ind}
    (h : ∀ i ∈ inds, Legal cfg i) :
    Post (ercMutation mu sigma inds) fun out => ∀ i ∈ out, Legal cfg i := by
  obtain ⟨ps, hps⟩ := legal_programs h
  refine (erc_post hps mu sigma).mono fun out h1 => ?_
  rcases h1 with rfl | h1
  · exact h
  · have : ∃ ps', List.Forall₂ Represents out ps' := by
      clear h
      induction hps generalizing out with
      | nil => cases h1; exact ⟨[], .nil⟩
      | @cons ind p inds ps hp hps ih =>
        simp only [List.zip_cons_cons] at h1
        cases h1 with
        | cons hr hrest =>
          obtain ⟨ps', hps'⟩ := ih _ hrest
          obtain ⟨p', -, -, hrep, -⟩ := C09_shape _ _ _ hp hr
          exact ⟨p' :: ps', .cons hrep hps'⟩
    obtain ⟨ps', h2⟩ := this
    refine legal_of_cfgs h (cfgs_of_forall₂ hps.length_eq ?_ h1) h2
    rintro x ind' ⟨C, v, v', ty, q, g, -, -, -, -, rfl⟩
    rfl

theorem LibOp.preserves {cfg : GP.Cfg} {o : Op GP.Ind} (h : LibOp o) : o.Preserves (Legal cfg) := by
  have aux : ∀ (f : List GP.Ind → Rand (List GP.Ind)),
      (∀ gs, (∀ g ∈ gs, Legal cfg g) → Post (f gs) fun out => ∀ i ∈ out, Legal cfg i) →
      ∀ gs, (∀ g ∈ gs, Legal cfg g) → Post (do let out ← f gs; pure (some out)) fun res =>
        ∀ gs', res = some gs' → ∀ g ∈ gs', Legal cfg g := by
    intro f hf gs hgs
    exact Post.bind (hf gs hgs) fun out ho => Post.pure (by rintro _ ⟨⟩; exact ho)
  cases h with
  | crossover p a n => exact Op.inPlace_preserves _ _ _ (aux _ fun _ => crossover_keeps_legal a n)
  | mutation p lo hi n => exact Op.inPlace_preserves _ _ _ (aux _ fun _ => mutation_keeps_legal lo hi n)
  | erc p a mu sigma => exact Op.inPlace_preserves _ _ _ (aux _ fun _ => erc_keeps_legal mu sigma)

/-- **C75.** In a run put together from the library's tree creators and tree operators, with any
arguments, any evaluator (it may raise), selection meeting its contract, any checkers and any schedule:
every individual an observer can see in any event — in the population, as best of the run, as best of the
generation — is a well-formed program over the function set, however the run ends. -/
theorem C75_programs_legal {cfg : GP.Cfg} {c : Evo.Cfg GP.Ind κ} {sub : SubCfg GP.Ind} {m : Mode}
    (h : c.BuiltWith sub m (LibCreator cfg m) LibOp) {s : Run GP.Ind κ} (hr : s.Ready m)
    (hf : s.Starts (Legal cfg)) (r : Except Err Unit) (s' : Run GP.Ind κ) (hrun : evolve c s = (r, s')) :
    ∀ e ∈ s'.log, e.AllHave (Legal cfg) :=
  run_invariant h (fun _ h => h.good) (fun _ h => h.makes) (fun _ h => h.good) (fun _ h => h.preserves)
    hr hf r s' hrun

/-- A sub-population of four trees made by the half creator, with crossover, subtree mutation and ERC
mutation; the fitness is the number of nodes. -/
def exLibSub : SubCfg GP.Ind where
  creators := [halfCreator Sample.cfg (1 / 2) 1 2 (fun h => ⟨.none, false, h, false, true, none⟩) true]
  pick := pure 0
  ops := [crossoverOp 1 2 1, mutationOp 1 0 1 1, ercOp 1 1 0 1]
  sels := [tournament (fun i => i.tree.length) 2 false]
  popSize := 4
  nElite := 1
  hib := true
  evaluate := fun i => pure i.tree.length

def exLibCfg : Evo.Cfg GP.Ind Unit where
  size := fun i => i.tree.length
  subs := [exLibSub]
  stream := fun seed n => seed + n * n
  maxGen := 2
  checker := .none
  sched := fun _ n => List.range n
  submit := false

theorem exLibCfg_built : exLibCfg.BuiltWith exLibSub ⟨true, none⟩ (LibCreator Sample.cfg ⟨true, none⟩) LibOp where
  subs := rfl
  dir := rfl
  creators := by
    intro create h
    simp only [exLibSub, List.mem_singleton] at h
    subst h
    exact .half _ _ _ _ _ ⟨rfl, rfl⟩
  sels := ⟨_, _, rfl, tournament_good _ _, tournament_fills _ _⟩
  ops := by
    intro o ho
    simp only [exLibSub, List.mem_cons, List.not_mem_nil, or_false] at ho
    rcases ho with rfl | rfl | rfl
    · exact .crossover _ _ _
    · exact .mutation _ _ _ _
    · exact .erc _ _ _ _
  sched := fun _ _ => List.Perm.refl _
  map := rfl

def exLibRun : Run GP.Ind Unit :=
  ⟨⟨[], 1, fun n => n⟩, [none], none, none, none, 0, 42, 42, none, [], false, []⟩

/-- The run returns after two generations. -/
theorem exLibRun_ends : (evolve exLibCfg exLibRun).1 = .ok () ∧ (evolve exLibCfg exLibRun).2.genNum = 2 ∧
    (evolve exLibCfg exLibRun).2.log.length = 14 := by decide +kernel

example := C75_programs_legal exLibCfg_built (s := exLibRun) (.inl rfl) ⟨by simp [exLibRun], rfl, rfl, rfl⟩
  (.ok ()) (evolve exLibCfg exLibRun).2 (ran exLibRun_ends.1)

end Verif.GP

/-! ## C76: vectors -/

namespace Verif.GA
open PyM Verif.Evo
variable {κ : Type} {kind : Kind} {bounds : Bounds} {length : Nat} {m : Mode}

theorem Bounds.Proper.accepted (h : bounds.Proper kind length) : bounds.accepted length = true := by
  have := h.legal.1
  cases bounds with
  | tup xs => simpa [Bounds.accepted] using this
  | lst bs => simpa [Bounds.accepted] using this

theorem LibCreator.good (hb : bounds.Proper kind length) {create : Nat → Bool → WM Vec (List Nat)}
    (h : LibCreator kind bounds length m create) : CreatorGood m create := by
  cases h with
  | mk fit up hf =>
    have := createIndividuals_good (⟨kind, bounds, length, []⟩ : Vec)
      (createVector length defaultGeneCreator ⟨kind, bounds, length, []⟩) fit up hf
    intro n s
    unfold vectorCreator
    rw [hb.accepted, Bool.not_true, Bool.and_false, if_neg (by simp)]
    exact this n s

theorem LibCreator.makes (hb : bounds.Proper kind length) {create : Nat → Bool → WM Vec (List Nat)}
    (h : LibCreator kind bounds length m create) : Makes (Legal kind bounds length) create := by
  cases h with
  | mk fit up hf =>
    have := createIndividuals_makes' (⟨kind, bounds, length, []⟩ : Vec) fit up
      (createVector_ensures hb.legal hb.integral hb.pair).post
    intro n h s
    unfold vectorCreator
    rw [hb.accepted, Bool.not_true, Bool.and_false, if_neg (by simp)]
    exact this n h s

/-- The operator object of a mutation class is an in-place operator, or for the Gaussian classes one that hands over
to the uniform class with as many mutation points. -/
theorem MutationClass.asOp_eq (c : MutationClass) (p : ℚ) (arity : Nat) :
    (∃ name, c.asOp p arity = mutationOp name p arity (c.op p)) ∨
    ∃ name, ∃ d : MutationClass, d.kind = c.kind ∧ d.points = c.points ∧ c.kind = .float ∧
      ∃ n mu sigma a, c.points = some n ∧ c.op p = gaussNPoint n p mu sigma a ∧
      ∃ name', d.asOp p arity = mutationOp name' p arity (d.op p) ∧
      c.asOp p arity = Op.withFallback name p arity (npTry (c.op p)) (d.asOp p arity) := by
  cases c with
  | floatGaussOne mu sigma a =>
    exact .inr ⟨_, .floatUniformOne, rfl, rfl, rfl, _, _, _, _, rfl, rfl, _, rfl, rfl⟩
  | floatGaussN n mu sigma a =>
    exact .inr ⟨_, .floatUniformN n, rfl, rfl, rfl, _, _, _, _, rfl, rfl, _, rfl, rfl⟩
  | _ => exact .inl ⟨_, rfl⟩

theorem LibOp.good {o : Op Vec} (h : LibOp kind length o) : o.Good := by
  cases h with
  | crossover => exact Op.inPlace_good _ _ _ _
  | mutation c p a =>
    rcases c.asOp_eq p a with ⟨name, e⟩ | ⟨name, d, -, -, -, -, -, -, -, -, -, name', e', e⟩
    · rw [e]
      exact Op.inPlace_good _ _ _ _
    · rw [e, e']
      exact Op.withFallback_good _ _ _ _ (Op.inPlace_good _ _ _ _)

theorem crossover_keeps (hk : k < length) {inds : List Vec}
    (h : ∀ v ∈ inds, Legal kind bounds length v) :
    Post (kPointApply k inds) fun out => ∀ v ∈ out, Legal kind bounds length v := by
  match inds, h with
  | [], _ => exact Post.raise
  | [a], _ => 
    unfold kPointApply
    exact Post.bind Post.trivial fun _ _ => Post.raise
  | a :: b :: others, h =>
    obtain ⟨a1, a2, a3, a4, a5⟩ := h a (by simp)
    obtain ⟨b1, b2, b3, b4, b5⟩ := h b (by simp)
    have hs : a.size = b.size := by unfold Vec.size; omega
    have hka : k < a.size := by unfold Vec.size; omega
    refine ((C16_genes_conserved k a b others hs hka).post.and
      (C16_bounds_preserved k a b others hs hka (a2.trans b2.symm) a5 b5).post).mono ?_
    rintro out ⟨⟨w1, w2, rfl, l1, l2, -⟩, a', b', e, hia, hib⟩
    simp only [List.cons.injEq] at e
    obtain ⟨rfl, rfl, -⟩ := e
    intro v hv
    simp only [List.mem_cons] at hv
    rcases hv with rfl | rfl | hv
    · exact ⟨a1, a2, a3, l1.trans a4, hia⟩
    · exact ⟨b1, b2, b3, l2.trans b4, hib⟩
    · exact h v (by simp [hv])

theorem Legal.suits {c : MutationClass} (hb : bounds.Proper kind length) (hc : c.kind = kind)
    (hn : ∀ n, c.points = some n → n ≤ length) {v : Vec} (h : Legal kind bounds length v) :
    c.Suits v ∧ v.InBounds ∧ ¬ v.bounds.TwoPairs := by
  obtain ⟨h1, h2, h3, h4, h5⟩ := h
  refine ⟨⟨h1.trans hc.symm, h3.trans h4.symm, fun hk => ?_, fun hk => ?_, fun n h => ?_⟩, h5, ?_⟩
  · rw [h2]; exact hb.integral (by rw [← h1, hk]; simp)
  · rw [h2]; exact hb.pair (by rw [← h1, hk])
  · rw [h4]; exact hn n h
  · rw [h2]; exact hb.notTwo

theorem Legal.of_keeps {inds out : List Vec} (h : ∀ v ∈ inds, Legal kind bounds length v)
    (hk : Keeps inds out) : ∀ v ∈ out, Legal kind bounds length v := by
  refine forall_of_keeps hk fun v hv w hs hw => ?_
  obtain ⟨h1, h2, h3, h4, -⟩ := h v hv
  exact ⟨hs.1.trans h1, hs.2.1.trans h2, hs.2.2.1.trans h3, hs.2.2.2.trans h4, hw⟩

theorem LibOp.preserves (hb : bounds.Proper kind length) {o : Op Vec} (h : LibOp kind length o) :
    o.Preserves (Legal kind bounds length) := by
  cases h with
  | crossover p a k hk =>
    refine Op.inPlace_preserves _ _ _ fun gs hgs => ?_
    exact Post.bind (crossover_keeps hk hgs) fun out ho => Post.pure (by rintro _ ⟨⟩; exact ho)
  | mutation c p a hc hn =>
    have key : ∀ (d : MutationClass) (name : String), d.kind = kind → (∀ n, d.points = some n → n ≤ length) →
        (mutationOp name p a (d.op p)).Preserves (Legal kind bounds length) := by
      intro d name hc hn
      refine Op.inPlace_preserves _ _ _ fun gs hgs => ?_
      refine (d.op_keeps p fun v hv => (hgs v hv).suits hb hc hn).post.mono ?_
      rintro _ ⟨out, rfl, hk⟩ _ ⟨⟩
      exact Legal.of_keeps hgs hk
    rcases c.asOp_eq p a with ⟨name, e⟩ | ⟨name, d, hd, hpt, hfl, n, mu, sigma, at', hpn, hop, name', e', e⟩
    · rw [e]
      exact key c name hc hn
    · rw [e, e']
      refine Op.withFallback_preserves _ _ _ (fun gs hgs => ?_) (key d name' (hd.trans hc) (by rw [hpt]; exact hn))
      rw [hop]
      refine (gauss_tries fun v hv => ?_).post.mono fun r hr => Legal.of_keeps hgs hr
      obtain ⟨h1, h2, h3⟩ := (hgs v hv).suits hb hc hn
      exact ⟨h1.length, h2, h3, h1.kind.trans hfl, h1.enough n hpn⟩

/-- **C76.** In a run put together from a vector creator of the library, its crossover and the mutations
of the vector class, with proper bounds, any evaluator (it may raise), selection meeting its contract, any
checkers and any schedule: every individual an observer can see in any event — in the population, as best
of the run, as best of the generation — has the class, the bounds and the length the creator was given,
and every cell in bounds, however the run ends. -/
theorem C76_vectors_legal (hb : bounds.Proper kind length) {c : Evo.Cfg Vec κ} {sub : SubCfg Vec}
    (h : c.BuiltWith sub m (LibCreator kind bounds length m) (LibOp kind length)) {s : Run Vec κ}
    (hr : s.Ready m) (hf : s.Starts (Legal kind bounds length)) (r : Except Err Unit) (s' : Run Vec κ)
    (hrun : evolve c s = (r, s')) : ∀ e ∈ s'.log, e.AllHave (Legal kind bounds length) :=
  run_invariant h (fun _ h => h.good hb) (fun _ h => h.makes hb) (fun _ h => h.good)
    (fun _ h => h.preserves hb) hr hf r s' hrun

/-- Four float vectors of length three, with two-point crossover and a Gaussian two-point mutation; the
fitness is the first cell. -/
def exLibSub : SubCfg Vec where
  creators := [vectorCreator .float 3 (.tup [0, 1]) (fun h => ⟨.none, false, h, false, true, none⟩) true]
  pick := pure 0
  ops := [crossoverOp 1 2 2, (MutationClass.floatGaussN 2 0 1 3).asOp 1 1]
  sels := [tournament (fun v => v.vector.length) 2 false]
  popSize := 4
  nElite := 1
  hib := true
  evaluate := fun v => pure (v.vector.headD 0)

def exLibCfg : Evo.Cfg Vec Unit where
  size := fun v => v.vector.length
  subs := [exLibSub]
  stream := fun seed n => seed + n * n
  maxGen := 2
  checker := .none
  sched := fun _ n => List.range n
  submit := false

theorem exLib_proper : (Bounds.tup [0, 1]).Proper .float 3 where
  legal := by
    refine ⟨by simp, fun i lo hi h => ?_⟩
    simp only [Bounds.At, List.cons.injEq, and_true] at h
    obtain ⟨rfl, rfl⟩ := h
    norm_num
  integral := by simp
  pair := by simp
  notTwo := by simp [Bounds.TwoPairs]

theorem exLibCfg_built : exLibCfg.BuiltWith exLibSub ⟨true, none⟩
    (LibCreator .float (.tup [0, 1]) 3 ⟨true, none⟩) (LibOp .float 3) where
  subs := rfl
  dir := rfl
  creators := by
    intro create h
    simp only [exLibSub, List.mem_singleton] at h
    subst h
    exact .mk _ _ ⟨rfl, rfl⟩
  sels := ⟨_, _, rfl, tournament_good _ _, tournament_fills _ _⟩
  ops := by
    intro o ho
    simp only [exLibSub, List.mem_cons, List.not_mem_nil, or_false] at ho
    rcases ho with rfl | rfl
    · exact .crossover _ _ _ (by omega)
    · exact .mutation _ _ _ rfl (by simp [MutationClass.points])
  sched := fun _ _ => List.Perm.refl _
  map := rfl

def exLibRun : Run Vec Unit :=
  ⟨⟨[], 1, fun n => n⟩, [none], none, none, none, 0, 42, 42, none, [], false, []⟩

/-- The run returns after two generations. -/
theorem exLibRun_ends : (evolve exLibCfg exLibRun).1 = .ok () ∧ (evolve exLibCfg exLibRun).2.genNum = 2 ∧
    (evolve exLibCfg exLibRun).2.log.length = 14 := by decide +kernel

example := C76_vectors_legal exLib_proper exLibCfg_built (s := exLibRun) (.inl rfl)
  ⟨by simp [exLibRun], rfl, rfl, rfl⟩ (.ok ()) (evolve exLibCfg exLibRun).2 (ran exLibRun_ends.1)

end Verif.GA
