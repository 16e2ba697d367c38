import Verif.Model.CreatorObjects
import Verif.Lemmas.Creation
import Verif.Lemmas.LineageRun
import Verif.Props.Lineage
import Verif.Props.Legal

/-! # C98: what a creator is configured with, and what its individuals are like -/

namespace Verif.Evo
open PyM
variable {G : Type}

/-- A creator all of whose individuals are as `K` says (for each direction), and that changes no other individual
and makes as many as it is asked for. -/
def Stocks (K : Bool → Ind G → Prop) (create : Nat → Bool → WM G (List Nat)) : Prop :=
  ∀ n h s, wlp (create n h) (fun res s' => res.length = n ∧ Ext (fun _ => False) s s' ∧
    ∀ r ∈ res, ∃ i, s'.heap[r]? = some i ∧ K h i) s

theorem Stocks.mono {K K' : Bool → Ind G → Prop} {create : Nat → Bool → WM G (List Nat)} (h : Stocks K create)
    (hK : ∀ b i, K b i → K' b i) : Stocks K' create := fun n b s =>
  (h n b s).mono fun _ _ ⟨h1, h2, h3⟩ => ⟨h1, h2, fun r hr => (h3 r hr).imp fun _ ⟨a, c⟩ => ⟨a, hK _ _ c⟩⟩

/-- An individual as it comes out of `create_individuals`. -/
structure Newborn (fit : Fit) (up : Bool) (i : Ind G) : Prop where
  fit : i.fit = fit
  gen : i.gen = 0
  clonedFrom : i.clonedFrom = -1
  selectedBy : i.selectedBy = []
  appliedOps : i.appliedOps = []
  updateParents : i.updateParents = up
  parents : i.parents = []

theorem createIndividuals_stocks (empty : G) {genome : Rand G} {Q : G → Prop} (hq : Post genome Q) (fit : Bool → Fit) (up : Bool) :
    Stocks (fun h i => Newborn (fit h) up i ∧ Q i.genome) (createIndividuals empty genome fit up) := by
  have key : ∀ n h s, wlp (createIndividuals empty genome fit up n h) (fun res s' =>
      ∀ r ∈ res, ∃ i, s'.heap[r]? = some i ∧ Newborn (fit h) up i) s := by
    intro n h s
    unfold createIndividuals
    rw [wlp_bind]
    refine (wlp_mapL (I := fun _ res (s' : World G) => ∀ r ∈ res, ∃ i, s'.heap[r]? = some i ∧ Newborn (fit h) up i)
      (by simp) ?_).mono ?_
    · intro pre x post ys s₁ _ hI
      rw [wlp_newInd]
      intro r hr
      rcases List.mem_append.1 hr with hr | hr
      · obtain ⟨i, hi, hn⟩ := hI r hr
        exact ⟨i, by rw [List.getElem?_append_left (List.getElem?_eq_some_iff.1 hi).1]; exact hi, hn⟩
      · rw [List.mem_singleton] at hr
        subst hr
        exact ⟨freshInd s₁.nextId empty (fit h) up, by simp, ⟨rfl, rfl, rfl, rfl, rfl, rfl, rfl⟩⟩
    · intro res s₁ h1
      rw [wlp_bind]
      refine (wlp_forL (I := fun _ (s' : World G) => ∀ r ∈ res, ∃ i, s'.heap[r]? = some i ∧ Newborn (fit h) up i) h1 ?_).mono ?_
      · intro pre r post s₂ _ h2
        rw [wlp_bind, wlp_rand]
        intro g t _
        rw [wlp_update]
        intro r' hr'
        obtain ⟨i, hi, hn⟩ := h2 r' hr'
        refine ⟨if r = r' then { i with genome := g } else i, ?_, ?_⟩
        · simp only [List.getElem?_modify, hi]
          split <;> rfl
        · split
          · exact ⟨hn.1, hn.2, hn.3, hn.4, hn.5, hn.6, hn.7⟩
          · exact hn
      · intro _ s₂ h2
        rw [wlp_pure]
        exact h2
  intro n h s
  refine (((key n h s).and (createIndividuals_makes' empty fit up hq n h s)).and
    (createIndividuals_counts empty genome fit up n h s)).mono ?_
  rintro res s' ⟨⟨h1, h2, h3⟩, h4⟩
  refine ⟨h4, h2, fun r hr => ?_⟩
  obtain ⟨i, hi, hn⟩ := h1 r hr
  obtain ⟨i', hi', hQ⟩ := h3 r hr
  rw [hi] at hi'
  cases hi'
  exact ⟨i, hi, hn, hQ⟩

theorem halfGroups_stocks {K : Bool → Ind G → Prop} {grow full : Nat → Nat → Bool → WM G (List Nat)}
    (hg : ∀ d, Stocks K (grow d)) (hf : ∀ d, Stocks K (full d)) (k : Nat) (h : Bool) (ds : List Nat) (s : World G) :
    wlp (halfGroups grow full k h ds) (fun res s' => Ext (fun _ => False) s s' ∧
      ∀ r ∈ res, ∃ i, s'.heap[r]? = some i ∧ K h i) s := by
  induction ds generalizing s with
  | nil => unfold halfGroups; rw [wlp_pure]; exact ⟨Ext.refl _ _, by simp⟩
  | cons d ds ih =>
    unfold halfGroups
    rw [wlp_bind]
    refine (hg d k h s).mono fun a s₁ ⟨_, x1, h1⟩ => ?_
    rw [wlp_bind]
    refine (hf d k h s₁).mono fun b s₂ ⟨_, x2, h2⟩ => ?_
    rw [wlp_bind]
    refine (ih s₂).mono fun rest s₃ ⟨x3, h3⟩ => ?_
    rw [wlp_pure]
    refine ⟨((x1.trans x2).trans x3).mono (by simp), fun r hr => ?_⟩
    simp only [List.mem_append] at hr
    rcases hr with (hr | hr) | hr
    · exact (h1 r hr).imp fun i h => ⟨x3.getElem? (fun h => h) (x2.getElem? (fun h => h) h.1), h.2⟩
    · exact (h2 r hr).imp fun i h => ⟨x3.getElem? (fun h => h) h.1, h.2⟩
    · exact h3 r hr

theorem halfCreate_stocks {K : Bool → Ind G → Prop} {grow full : Nat → Nat → Bool → WM G (List Nat)}
    (hg : ∀ d, Stocks K (grow d)) (hf : ∀ d, Stocks K (full d)) (minDepth depths : Nat) :
    Stocks K (halfCreate grow full minDepth depths) := by
  intro n h s
  have hcount := halfCreate_counts (fun d n h s => (hg d n h s).mono fun _ _ h => h.1)
    (fun d n h s => (hf d n h s).mono fun _ _ h => h.1) minDepth depths n h s
  refine (hcount.and ?_).mono fun _ _ h => ⟨h.1, h.2⟩
  unfold halfCreate
  rw [wlp_ite]
  refine ⟨fun _ => by simp, fun _ => ?_⟩
  rw [wlp_bind]
  refine (halfGroups_stocks hg hf _ h _ s).mono fun inds s₁ ⟨x1, h1⟩ => ?_
  rw [wlp_ite]
  refine ⟨fun _ => ?_, fun _ => by rw [wlp_pure]; exact ⟨x1, h1⟩⟩
  rw [wlp_bind]
  refine (hf _ _ h s₁).mono fun more s₂ ⟨_, x2, h2⟩ => ?_
  rw [wlp_pure]
  refine ⟨(x1.trans x2).mono (by simp), fun r hr => ?_⟩
  rcases List.mem_append.1 hr with hr | hr
  · exact (h1 r hr).imp fun i h => ⟨x2.getElem? (fun h => h) h.1, h.2⟩
  · exact h2 r hr

end Verif.Evo

namespace Verif.GP
open PyM Evo

/-- The individual `i` is a newborn tree with the sets, root type, ERC range, bloat weight, direction and
`update_parents` of these arguments, and its fitness is a `GPFitness`. -/
structure CarriesArgs (a : CreatorArgs) (hib : Bool) (i : Evo.Ind Ind) : Prop where
  sets : handleInputTypes a.functionSet a.terminalSet a.rootType a.erc = .ok i.genome.cfg
  born : Newborn (gpFit a.bloatWeight hib) a.updateParents i

/-- As `CarriesArgs`, for the attributes of a creator. -/
structure CarriesObj (o : CreatorObj) (hib : Bool) (i : Evo.Ind Ind) : Prop where
  sets : handleInputTypes (some o.functionSet) (some o.terminalSet) o.rootType o.erc = .ok i.genome.cfg
  born : Newborn (gpFit o.bloatWeight hib) o.updateParents i

theorem create_stocks (o : CreatorObj) (mk : Cfg → Option Ty → Rand (List Node)) : Stocks (CarriesObj o) (o.create mk) := by
  intro n h s
  unfold CreatorObj.create
  cases hc : handleInputTypes (some o.functionSet) (some o.terminalSet) o.rootType o.erc with
  | error e =>
    dsimp only
    rw [wlp_ite]
    refine ⟨fun h0 => ?_, fun _ => by rw [wlp_bind, wlp_modify, wlp_raise]; trivial⟩
    rw [wlp_pure]
    exact ⟨h0.symm, Ext.refl _ _, by simp⟩
  | ok cfg =>
    dsimp only
    unfold treeCreator
    have hq : Post (do
        let t ← mk cfg cfg.rootType
        pure ⟨cfg, t⟩ : Rand Ind) (fun i => i.cfg = cfg) :=
      Post.bind Post.trivial fun _ _ => Post.pure rfl
    refine (createIndividuals_stocks (⟨cfg, []⟩ : Ind) hq (gpFit o.bloatWeight) o.updateParents n h s).mono ?_
    rintro res s' ⟨h1, h2, h3⟩
    refine ⟨h1, h2, fun r hr => ?_⟩
    obtain ⟨i, hi, hn, hg⟩ := h3 r hr
    exact ⟨i, hi, by rw [hc, hg], hn⟩

theorem treeCreatorInit_ok {a : CreatorArgs} {o : CreatorObj} (h : treeCreatorInit a = .ok o) :
    a.functionSet = some o.functionSet ∧ a.terminalSet = some o.terminalSet ∧
      o = ⟨a.initDepth.getD (2, 4), o.functionSet, o.terminalSet, a.erc, a.fitnessType, a.bloatWeight, a.rootType, a.updateParents⟩ := by
  obtain ⟨d, fs, ts, e, ft, w, r, u⟩ := a
  unfold treeCreatorInit at h
  cases fs with
  | none => simp at h
  | some fs =>
    cases ts with
    | none => simp at h
    | some ts =>
      simp only [Except.ok.injEq] at h
      subst h
      exact ⟨rfl, rfl, rfl⟩

/-- C98: every tree that a `FullCreator` or `GrowCreator` makes is a newborn with the function and terminal sets, root
type, ERC range, bloat weight and `update_parents` that the creator was constructed with, its fitness is an
unevaluated `GPFitness` with the requested direction, and there are as many trees as asked for. -/
theorem C98_full_partial {a : CreatorArgs} {o : CreatorObj} (h : fullInit a = .ok o) :
    Stocks (CarriesArgs a) (fullObjCreate o) := by
  obtain ⟨h1, h2, h3⟩ := treeCreatorInit_ok h
  refine (create_stocks o _).mono fun b i hc => ?_
  have e1 : o.rootType = a.rootType := by rw [h3]
  have e2 : o.erc = a.erc := by rw [h3]
  have e3 : o.bloatWeight = a.bloatWeight := by rw [h3]
  have e4 : o.updateParents = a.updateParents := by rw [h3]
  have g := hc.sets
  have g' := hc.born
  dsimp only at h1 h2
  rw [← h1, ← h2, e1, e2] at g
  rw [e3, e4] at g'
  exact ⟨g, g'⟩

/-- C98 for `GrowCreator`. -/
theorem C98_grow_partial {a : CreatorArgs} {o : CreatorObj} (h : growInit a = .ok o) (pPrune : ℚ) :
    Stocks (CarriesArgs a) (growObjCreate o pPrune) := by
  obtain ⟨h1, h2, h3⟩ := treeCreatorInit_ok h
  refine (create_stocks o _).mono fun b i hc => ?_
  have e1 : o.rootType = a.rootType := by rw [h3]
  have e2 : o.erc = a.erc := by rw [h3]
  have e3 : o.bloatWeight = a.bloatWeight := by rw [h3]
  have e4 : o.updateParents = a.updateParents := by rw [h3]
  have g := hc.sets
  have g' := hc.born
  dsimp only at h1 h2
  rw [← h1, ← h2, e1, e2] at g
  rw [e3, e4] at g'
  exact ⟨g, g'⟩

/-- C98: a `HalfCreator` with its default sub-creators makes trees with the sets, root type and ERC range it was
constructed with, but with bloat weight 0 and without recording parents. -/
theorem C98_half_partial {a : CreatorArgs} {o : HalfObj} (h : halfInit none none a = .ok o) :
    Stocks (CarriesArgs { a with bloatWeight := 0, updateParents := false }) o.create := by
  unfold halfInit at h
  cases h1 : treeCreatorInit { a with fitnessType := .simple, updateParents := false } with
  | error e => rw [h1] at h; simp [Bind.bind, Except.bind] at h
  | ok own =>
    rw [h1] at h
    obtain ⟨g1, g2, g3⟩ := treeCreatorInit_ok h1
    simp only [Bind.bind, Except.bind, growInit, fullInit, treeCreatorInit, Except.ok.injEq] at h
    subst h
    dsimp only at g1 g2
    have e1 : own.rootType = a.rootType := by rw [g3]
    have e2 : own.erc = a.erc := by rw [g3]
    refine halfCreate_stocks (fun d => ?_) (fun d => ?_) _ _
    · refine (create_stocks _ _).mono fun b i hc => ⟨?_, hc.born⟩
      have := hc.sets
      dsimp only at this
      rw [← g1, ← g2, e2] at this
      exact this
    · refine (create_stocks _ _).mono fun b i hc => ⟨?_, hc.born⟩
      have := hc.sets
      dsimp only at this
      rw [← g1, ← g2, e2] at this
      exact this

/-- C98: with sub-creators of the user's, every tree carries the configuration of one of the two; the
`HalfCreator`'s own sets, types and bloat weight do not matter. -/
theorem C98_half_own_partial {a : CreatorArgs} {g : CreatorObj × ℚ} {f : CreatorObj} {o : HalfObj}
    (h : halfInit (some g) (some f) a = .ok o) : Stocks (fun b i => CarriesObj g.1 b i ∨ CarriesObj f b i) o.create := by
  unfold halfInit at h
  cases h1 : treeCreatorInit { a with fitnessType := .simple, updateParents := false } with
  | error e => rw [h1] at h; simp [Bind.bind, Except.bind] at h
  | ok own =>
    rw [h1] at h
    simp only [Bind.bind, Except.bind, Except.ok.injEq] at h
    subst h
    refine halfCreate_stocks (fun d => ?_) (fun d => ?_) _ _
    · exact (create_stocks _ _).mono fun b i hc => .inl ⟨hc.sets, hc.born⟩
    · exact (create_stocks _ _).mono fun b i hc => .inr ⟨hc.sets, hc.born⟩

/-- C98 as one would have it: the trees of a `HalfCreator` have the bloat weight it was given. -/
def C98_statement : Prop :=
  ∀ (a : CreatorArgs) (o : HalfObj), halfInit none none a = .ok o →
    Stocks (fun _ i => i.fit.bloat = some a.bloatWeight) o.create

/-- C98 for the fitness class: whatever class of fitness a tree creator is given, its trees have it. -/
def C98_statement_fitness_type : Prop :=
  ∀ (a : CreatorArgs) (o : CreatorObj) (mk : Cfg → Option Ty → Rand (List Node)), treeCreatorInit a = .ok o →
    Stocks (fun _ i => fitnessClass i.fit = a.fitnessType) (o.create mk)

/-- C98: no tree of a tree creator ever has a fitness other than a `GPFitness`. -/
theorem C98_always_gp_partial (o : CreatorObj) (mk : Cfg → Option Ty → Rand (List Node)) :
    Stocks (fun _ i => fitnessClass i.fit = .gp) (o.create mk) :=
  (create_stocks o mk).mono fun _ i h => by rw [h.born.fit]; rfl

namespace Sample

/-- `HalfCreator(init_depth=(1, 1), function_set=[add], terminal_set=['x'], bloat_weight=0.5)`. -/
def halfArgs : CreatorArgs := { initDepth := some (1, 1), functionSet := some [add], terminalSet := some (.list [x]), bloatWeight := 1 / 2 }

/-- The attributes of a tree creator with these arguments. -/
def halfOwn (w : ℚ) : CreatorObj := ⟨(1, 1), [add], .list [x], none, .simple, w, none, false⟩

def halfObj : HalfObj := ⟨halfOwn (1 / 2), (halfOwn 0, 1 / 2), halfOwn 0⟩

theorem halfInit_halfArgs : halfInit none none halfArgs = .ok halfObj := rfl

theorem halfObj_creates : (halfObj.create 3 true ⟨[], 0, fun n => n⟩).1 = .ok [0, 1, 2] ∧
    (halfObj.create 3 true ⟨[], 0, fun n => n⟩).2.heap.map (·.fit.bloat) = [some 0, some 0, some 0] := by
  constructor <;> decide +kernel

/-- The hypotheses of `C98_half_partial` are met, and three trees are created. -/
example : halfInit none none halfArgs = .ok halfObj ∧
    (halfObj.create 3 true ⟨[], 0, fun n => n⟩).1 = .ok [0, 1, 2] := ⟨rfl, halfObj_creates.1⟩

/-- The hypotheses of `C98_full_partial`: a `FullCreator` with bloat weight 1/2 makes two trees. -/
example : fullInit halfArgs = .ok (halfOwn (1 / 2)) ∧
    (fullObjCreate (halfOwn (1 / 2)) 2 false ⟨[], 0, fun n => n⟩).1 = .ok [0, 1] ∧
    (fullObjCreate (halfOwn (1 / 2)) 2 false ⟨[], 0, fun n => n⟩).2.heap.map (·.fit) =
      [⟨.none, false, false, false, false, some (1 / 2)⟩, ⟨.none, false, false, false, false, some (1 / 2)⟩] :=
  ⟨rfl, by decide +kernel, by decide +kernel⟩

/-- The hypotheses of `C98_grow_partial`. -/
example : growInit halfArgs = .ok (halfOwn (1 / 2)) ∧
    (growObjCreate (halfOwn (1 / 2)) (1 / 2) 2 false ⟨[], 0, fun n => n⟩).1 = .ok [0, 1] := ⟨rfl, by decide +kernel⟩

/-- The hypotheses of `C98_half_own_partial`: sub-creators with bloat weights 1/4 and 1/8. -/
example : halfInit (some (halfOwn (1 / 4), 1 / 2)) (some (halfOwn (1 / 8))) halfArgs =
      .ok ⟨halfOwn (1 / 2), (halfOwn (1 / 4), 1 / 2), halfOwn (1 / 8)⟩ ∧
    ((⟨halfOwn (1 / 2), (halfOwn (1 / 4), 1 / 2), halfOwn (1 / 8)⟩ : HalfObj).create 3 true
      ⟨[], 0, fun n => n⟩).2.heap.map (·.fit.bloat) = [some (1 / 4), some (1 / 8), some (1 / 8)] :=
  ⟨rfl, by decide +kernel⟩

end Sample

/-- C98 is false for `HalfCreator`: the bloat weight it is given never reaches its trees. -/
theorem C98_refuted : ¬ C98_statement := by
  intro h
  have := (h _ _ Sample.halfInit_halfArgs 3 true ⟨[], 0, fun n => n⟩ _ _ (ran Sample.halfObj_creates.1)).2.2 0 (by simp)
  obtain ⟨i, hi, hb⟩ := this
  have h2 := congrArg (fun l => l[0]?) Sample.halfObj_creates.2
  simp only [List.getElem?_map, hi, Option.map_some, hb] at h2
  revert h2
  decide +kernel

/-- C98 is false of the parameter `fitness_type` of `GPTreeCreator`: with the default `SimpleFitness` the trees have a
`GPFitness`. -/
theorem C98_refuted_fitness_type : ¬ C98_statement_fitness_type := by
  intro h
  have hr : ((Sample.halfOwn 0).create (fun c => fullCreate c 1) 1 true ⟨[], 0, fun n => n⟩).1 = .ok [0] := by decide +kernel
  have h1 := (h { Sample.halfArgs with bloatWeight := 0 } (Sample.halfOwn 0) (fun c => fullCreate c 1) rfl 1 true
    ⟨[], 0, fun n => n⟩ _ _ (ran hr)).2.2 0 (by simp)
  have h2 := (C98_always_gp_partial (Sample.halfOwn 0) (fun c => fullCreate c 1) 1 true ⟨[], 0, fun n => n⟩ _ _ (ran hr)).2.2 0 (by simp)
  obtain ⟨i, hi, hb⟩ := h1
  obtain ⟨j, hj, hc⟩ := h2
  rw [hi] at hj
  cases hj
  rw [hb] at hc
  cases hc

end Verif.GP

namespace Verif.GA
open PyM Evo

/-- C98 for vectors: every vector a `GAVectorCreator` makes is a newborn of its vector class with its bounds,
 a fresh fitness of its `fitness_type` and its `update_parents`. -/
theorem C98_vector_partial (kind : Kind) (length : Nat) (bounds : Bounds) (fit : Bool → Fit) (up : Bool) :
    Stocks (fun h i => Newborn (fit h) up i ∧ i.genome.kind = kind ∧ i.genome.bounds = bounds)
      (vectorCreator kind length bounds fit up) := by
  intro n h s
  unfold vectorCreator
  rw [wlp_ite]
  refine ⟨fun _ => by rw [wlp_raise]; trivial, fun _ => ?_⟩
  refine createIndividuals_stocks _ (Q := fun v : Vec => v.kind = kind ∧ v.bounds = bounds) ?_ fit up n h s
  unfold createVector
  refine Post.bind Post.trivial fun _ _ => Post.pure ⟨rfl, rfl⟩

/-- Two bit strings of length 3 with a `SimpleFitness`. -/
example : (vectorCreator .bit 3 (.tup [0, 1]) (fun h => ⟨.none, false, h, false, false, none⟩) true 2 false
    ⟨[], 0, fun n => n⟩).1 = .ok [0, 1] := by decide +kernel

end Verif.GA
