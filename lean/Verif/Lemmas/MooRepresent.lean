import Verif.Model.NSGA2Library
import Verif.Lemmas.Represent

/-! # Changing the representation of genomes in NSGA-II runs

As `Lemmas/Represent.lean`, for the individuals of `Model/NSGA2Evolution.lean`. -/

namespace Verif.Moo
open PyM
variable {G H : Type} {f : G → H} {P : G → Prop}

/-- The world with the genomes in the other representation. -/
def MWorld.mapped (f : G → H) (w : MWorld G) : MWorld H := ⟨w.fits, fun r => f (w.genome r), w.next, w.tape⟩

/-- All genomes satisfy the invariant. -/
def MWorld.Fine (P : G → Prop) (w : MWorld G) : Prop := ∀ r, P (w.genome r)

/-- The computation commutes with the change of representation. -/
abbrev MMaps (f : G → H) (P : G → Prop) {α : Type} (m' : MM H α) (m : MM G α) : Prop :=
  SimOn (MWorld.Fine P) (MWorld.mapped f) id m' m

theorem mrand_maps_map {α β : Type} {ρ : α → β} {m' : Rand β} {m : Rand α} (h : Sim id ρ m' m) :
    SimOn (MWorld.Fine P) (MWorld.mapped f) ρ (mrand m') (mrand m) := by
  intro w hw
  have := h w.tape
  dsimp only [id] at this
  unfold mrand PyM.zoom
  show ((m' w.tape).1, _) = _ ∧ _
  refine ⟨?_, hw⟩
  show ((m' w.tape).1, ({ w.mapped f with tape := (m' w.tape).2 } : MWorld H)) = _
  rw [this]
  rfl

theorem mrand_maps {α : Type} (m : Rand α) : MMaps f P (mrand m) (mrand m) := mrand_maps_map (Sim.refl m)

theorem setFit_maps (r : Nat) (x : Fit) : MMaps f P (setFit r x) (setFit r x) := SimOn.modify fun _ hs => ⟨rfl, hs⟩

theorem resetFit_maps (r : Nat) : MMaps f P (resetFit r) (resetFit r) := SimOn.get_bind fun w _ => setFit_maps r (w.fits r).reset

theorem setGenome_maps (r : Nat) {g : G} (hg : P g) :
    MMaps f P (modify fun w => { w with genome := fun x => if x = r then f g else w.genome x })
      (modify fun w => { w with genome := fun x => if x = r then g else w.genome x }) := by
  refine SimOn.modify fun w hw => ⟨?_, fun x => ?_⟩
  · unfold MWorld.mapped
    congr 1
    funext x
    dsimp only
    split <;> rfl
  · dsimp only
    split
    · exact hg
    · exact hw x

theorem cloneM_maps (r : Nat) : MMaps f P (cloneM r) (cloneM r) := by
  refine SimOn.get_bind fun w hw => SimOn.bind (ρ := id) (SimOn.set ?_ ?_) fun _ => SimOn.pure rfl
  · unfold MWorld.mapped
    congr 1
    funext x
    dsimp only
    split <;> rfl
  · intro x
    dsimp only
    split
    · exact hw r
    · exact hw x

/-! ## Operators and selection -/

/-- One operator does with the genomes in the other representation what the other does. -/
structure MOp.Maps (f : G → H) (P : G → Prop) (o' : MOp H) (o : MOp G) : Prop where
  probability : o'.probability = o.probability
  arity : o'.arity = o.arity
  apply : ∀ refs, MMaps f P (o'.apply refs) (o.apply refs)

theorem applyOp_maps {o' : MOp H} {o : MOp G} (ho : MOp.Maps f P o' o) (refs : List Nat) :
    MMaps f P (applyOp o' refs) (applyOp o refs) := by
  unfold applyOp
  refine SimOn.bind (ρ := id) (mrand_maps _) fun u => SimOn.ite (by rw [ho.probability]; rfl) (fun _ => ?_) fun _ => SimOn.pure rfl
  refine SimOn.bind (ρ := id) (SimOn.forL _ fun r _ => resetFit_maps r) fun _ => SimOn.bind (ρ := id) (ho.apply refs) fun r => ?_
  cases r with
  | none => exact SimOn.raise
  | some res => exact SimOn.pure rfl

theorem applyChunksM_maps {o' : MOp H} {o : MOp G} (ho : MOp.Maps f P o' o) (is inds : List Nat) :
    MMaps f P (applyChunksM o' is inds) (applyChunksM o is inds) := by
  induction is generalizing inds with
  | nil => exact SimOn.pure rfl
  | cons i is ih =>
    unfold applyChunksM
    rw [ho.arity]
    exact SimOn.bind (ρ := id) (applyOp_maps ho _) fun res => ih _

theorem applyOps_maps {os' : List (MOp H)} {os : List (MOp G)} (ho : List.Forall₂ (MOp.Maps f P) os' os) (inds : List Nat) :
    MMaps f P (applyOps os' inds) (applyOps os inds) := by
  induction ho generalizing inds with
  | nil => exact SimOn.pure rfl
  | cons h _ ih =>
    unfold applyOps
    rw [h.arity]
    exact SimOn.ite Iff.rfl (fun _ => SimOn.raise) fun _ => SimOn.bind (ρ := id) (applyChunksM_maps h _ _) fun inds' => ih inds'

/-- One selection method does what the other does. -/
structure MSel.Maps (f : G → H) (P : G → Prop) (s' : MSel H) (s : MSel G) : Prop where
  arity : s'.arity = s.arity
  select : ∀ source dest, MMaps f P (s'.select source dest) (s.select source dest)

theorem winner_maps (b : Nat) (ps : List Nat) : MMaps f P (winner b ps) (winner b ps) := by
  induction ps generalizing b with
  | nil => exact SimOn.pure rfl
  | cons p ps ih =>
    unfold winner
    exact SimOn.get_bind fun w _ => SimOn.bind (ρ := id) (mrand_maps _) fun x => ih _

theorem pickM_maps (t : List Nat) : MMaps f P (pickM t) (pickM t) := by
  cases t with
  | nil => exact SimOn.raise
  | cons x xs => exact SimOn.bind (ρ := id) (winner_maps _ _) fun w => cloneM_maps w

theorem tournamentM_maps (k : Nat) (rep : Bool) (source dest : List Nat) :
    MMaps f P (tournamentM k rep source dest) (tournamentM k rep source dest) :=
  SimOn.ite Iff.rfl (fun _ => SimOn.raise) fun _ => SimOn.bind (ρ := id) (mrand_maps _) fun tours =>
    SimOn.bind (ρ := id) (SimOn.mapL_id _ fun t _ => pickM_maps t) fun ws => SimOn.pure rfl

theorem elitesM_maps (n : Int) (hib : Bool) (source dest : List Nat) :
    MMaps f P (elitesM n hib source dest) (elitesM n hib source dest) := by
  refine SimOn.get_bind fun w _ => SimOn.bind (ρ := id) (SimOn.ofExcept (Evo.except_map_id _).symm) fun ks => ?_
  exact SimOn.bind (ρ := id) (SimOn.mapL_id _ fun r _ => cloneM_maps r) fun cs => SimOn.pure rfl

/-! ## Breeding and evaluation -/

/-- The parts of a sub-population commute with the change of representation, and its evaluator gives a genome in the other
representation the same scores. -/
structure MSub.Maps (f : G → H) (P : G → Prop) (c' : MSub H) (c : MSub G) : Prop where
  create : MMaps f P c'.create c.create
  ops : List.Forall₂ (MOp.Maps f P) c'.ops c.ops
  sels : List.Forall₂ (MSel.Maps f P) c'.sels c.sels
  popSize : c'.popSize = c.popSize
  nElite : c'.nElite = c.nElite
  hib : c'.hib = c.hib
  evaluate : ∀ g, P g → c'.evaluate (f g) = c.evaluate g

variable {c' : MSub H} {c : MSub G}

theorem eliteStageM_maps (hc : MSub.Maps f P c' c) (inds : List Nat) : MMaps f P (eliteStageM c' inds) (eliteStageM c inds) := by
  unfold eliteStageM
  rw [hc.nElite, hc.hib]
  exact SimOn.ite Iff.rfl (fun _ => elitesM_maps _ _ _ _) fun _ => SimOn.pure rfl

theorem createNextGen_maps (hc : MSub.Maps f P c' c) (inds : List Nat) : MMaps f P (createNextGen c' inds) (createNextGen c inds) :=
  SimOn.bind (ρ := id) (SimOn.mapL_id _ fun r _ => cloneM_maps r) fun old => SimOn.bind (ρ := id) (applyOps_maps hc.ops inds) fun new =>
    SimOn.bind (ρ := id) (SimOn.forL _ fun r _ => resetFit_maps r) fun _ => SimOn.pure rfl

theorem nsga2Breed_maps (hc : MSub.Maps f P c' c) (inds : List Nat) : MMaps f P (nsga2Breed c' inds) (nsga2Breed c inds) := by
  unfold nsga2Breed
  refine SimOn.bind (ρ := id) (eliteStageM_maps hc inds) fun _ => SimOn.bind (ρ := id) (createNextGen_maps hc inds) fun p => ?_
  have := hc.sels
  obtain ⟨x, y⟩ := p
  dsimp only [id]
  generalize c'.sels = l' at this ⊢
  generalize c.sels = l at this ⊢
  cases this with
  | nil => exact SimOn.raise
  | cons h _ => exact h.select _ _

theorem checkArities_mmaps (n : Nat) (as : List Nat) : MMaps f P (Evo.checkArities n as) (Evo.checkArities n as) := by
  induction as with
  | nil => exact SimOn.pure rfl
  | cons a as ih =>
    unfold Evo.checkArities
    exact SimOn.ite Iff.rfl (fun _ => SimOn.raise) fun _ => SimOn.ite Iff.rfl (fun _ => SimOn.raise) fun _ => ih

theorem marities_eq (hc : MSub.Maps f P c' c) :
    c'.sels.map (·.arity) ++ c'.ops.map (·.arity) = c.sels.map (·.arity) ++ c.ops.map (·.arity) := by
  congr 1
  · have := hc.sels
    generalize c'.sels = l' at this ⊢
    generalize c.sels = l at this ⊢
    induction this with
    | nil => rfl
    | cons h _ ih => simp [h.arity, ih]
  · have := hc.ops
    generalize c'.ops = l' at this ⊢
    generalize c.ops = l at this ⊢
    induction this with
    | nil => rfl
    | cons h _ ih => simp [h.arity, ih]

theorem simpleBreed_maps (hc : MSub.Maps f P c' c) (inds : List Nat) : MMaps f P (simpleBreed c' inds) (simpleBreed c inds) := by
  unfold simpleBreed
  rw [marities_eq hc, hc.popSize]
  refine SimOn.bind (ρ := id) (checkArities_mmaps _ _) fun _ => SimOn.bind (ρ := id) (eliteStageM_maps hc inds) fun es => ?_
  have := hc.sels
  generalize c'.sels = l' at this ⊢
  generalize c.sels = l at this ⊢
  cases this with
  | nil => exact SimOn.raise
  | cons h _ => exact SimOn.bind (ρ := id) (h.select _ _) fun sel => applyOps_maps hc.ops sel

theorem runEvalM_maps (hc : MSub.Maps f P c' c) (r : Nat) : MMaps f P (runEvalM c' r) (runEvalM c r) := by
  refine SimOn.get_bind fun w hw => ?_
  show MMaps f P (mrand (c'.evaluate (f (w.genome r)))) _
  rw [hc.evaluate _ (hw r)]
  exact mrand_maps _

theorem assign_maps (r : Nat) (v : List ℚ) : MMaps f P (assign r v) (assign r v) :=
  SimOn.get_bind fun w _ => SimOn.bind (ρ := id) (SimOn.ofExcept (Evo.except_map_id _).symm) fun x => setFit_maps r x

theorem executorMap_mmaps {α : Type} {order : List Nat} {task' : Nat → MM H α} {task : Nat → MM G α}
    (ht : ∀ r, MMaps f P (task' r) (task r)) (refs : List Nat) :
    MMaps f P (Evo.executorMap order task' refs) (Evo.executorMap order task refs) := by
  unfold Evo.executorMap
  refine SimOn.bind (ρ := id) (SimOn.mapL_id order fun i _ => ?_) fun rs => SimOn.mapL_id _ fun i _ => ?_
  · unfold Evo.runTask
    cases refs[i]? with
    | none => exact SimOn.raise
    | some r => exact SimOn.bind (ρ := id) (ht r) fun v => SimOn.pure rfl
  · unfold Evo.lookupResult
    dsimp only [id]
    cases rs.find? (fun p => p.1 == i) with
    | none => exact SimOn.raise
    | some p => exact SimOn.pure rfl

theorem evaluateM_maps (hc : MSub.Maps f P c' c) (order inds : List Nat) :
    MMaps f P (evaluateM c' order inds) (evaluateM c order inds) := by
  refine SimOn.bind (ρ := id) (executorMap_mmaps (fun r => runEvalM_maps hc r) inds) fun scores => ?_
  refine SimOn.bind (ρ := id) (SimOn.forL _ fun p _ => assign_maps p.1 p.2) fun _ => ?_
  cases inds with
  | nil => exact SimOn.raise
  | cons b rest => exact winner_maps b rest

theorem sortM_maps (order : Nat → List Nat → List Nat) (inds : List Nat) : MMaps f P (sortM order inds) (sortM order inds) := by
  refine SimOn.get_bind fun w hw => ?_
  show MMaps f P (match select order (inds.length + 1) w.fits inds [] none with | none => _ | some (.error e) => _ | some (.ok (h, dest)) => _) _
  cases select order (inds.length + 1) w.fits inds [] none with
  | none => exact SimOn.raise
  | some r =>
    cases r with
    | error e => exact SimOn.raise
    | ok p => exact SimOn.bind (ρ := id) (SimOn.set rfl hw) fun _ => SimOn.pure rfl

/-! ## The loop -/

/-- The run with the genomes in the other representation. -/
def MRun.mapped (f : G → H) (s : MRun G) : MRun H :=
  ⟨s.w.mapped f, s.inds, s.bestOfRun, s.bestOfGen, s.genNum, s.randomSeed, s.genSeed, s.finalGen, s.log⟩

abbrev MRMaps (f : G → H) (P : G → Prop) {α : Type} (m' : MRM H α) (m : MRM G α) : Prop :=
  SimOn (fun s : MRun G => s.w.Fine P) (MRun.mapped f) id m' m

/-- The two configurations differ in the representation of genomes only. -/
structure MCfg.Maps (f : G → H) (P : G → Prop) (c' : MCfg H) (c : MCfg G) : Prop where
  sub : MSub.Maps f P c'.sub c.sub
  nsga2Breeder : c'.nsga2Breeder = c.nsga2Breeder
  stream : c'.stream = c.stream
  maxGen : c'.maxGen = c.maxGen
  checker : c'.checker = c.checker
  sched : c'.sched = c.sched
  setOrder : c'.setOrder = c.setOrder

theorem mworld_maps {α : Type} {m' : MM H α} {m : MM G α} (h : MMaps f P m' m) : MRMaps f P (mworld m') (mworld m) :=
  SimOn.zoom h (fun _ hs => ⟨rfl, hs⟩) (fun _ _ => rfl) fun _ _ ht _ => ht

theorem mpublish_maps (p n : String) : MRMaps f P (mpublish p n) (mpublish p n) := SimOn.modify fun _ hs => ⟨rfl, hs⟩

theorem mact_maps {α : Type} (p : String) {m' : MRM H α} {m : MRM G α} (h : MRMaps f P m' m) : MRMaps f P (mact p m') (mact p m) :=
  SimOn.bind (ρ := id) (mpublish_maps _ _) fun _ => SimOn.bind (ρ := id) h fun _ => SimOn.bind (ρ := id) (mpublish_maps _ _) fun _ => SimOn.pure rfl

theorem individuals_maps : MRMaps f P individuals individuals := by
  refine SimOn.get_bind fun s _ => ?_
  show MRMaps f P (match s.inds with | none => _ | some is => _) (match s.inds with | none => _ | some is => _)
  cases s.inds with
  | none => exact SimOn.raise
  | some is => exact SimOn.pure rfl

variable {d' : MCfg H} {d : MCfg G}

theorem mevaluate_maps (hc : MCfg.Maps f P d' d) : MRMaps f P (mevaluate d') (mevaluate d) := by
  refine mact_maps _ (SimOn.bind (ρ := id) individuals_maps fun is => SimOn.get_bind fun s _ => ?_)
  show MRMaps f P (mworld (evaluateM d'.sub (d'.sched s.genNum is.length) is)) _
  rw [hc.sched]
  exact mworld_maps (evaluateM_maps hc.sub _ is)

theorem msetSeed_maps (hc : MCfg.Maps f P d' d) (seed : Nat) : MRMaps f P (msetSeed d' seed) (msetSeed d seed) := by
  unfold msetSeed
  rw [hc.stream]
  exact SimOn.modify fun _ hs => ⟨rfl, hs⟩

theorem mcreate_maps (hc : MCfg.Maps f P d' d) : MRMaps f P (mcreate d') (mcreate d) := by
  refine SimOn.get_bind fun s _ => ?_
  show MRMaps f P (match s.inds with | some _ => _ | none => _) (match s.inds with | some _ => _ | none => _)
  cases s.inds with
  | some is => exact SimOn.pure rfl
  | none => exact SimOn.bind (ρ := id) (mworld_maps hc.sub.create) fun is => SimOn.modify fun _ hs => ⟨rfl, hs⟩

theorem minit_maps (hc : MCfg.Maps f P d' d) : MRMaps f P (minit d') (minit d) :=
  SimOn.get_bind fun _ _ => SimOn.bind (ρ := id) (msetSeed_maps hc _) fun _ => SimOn.bind (ρ := id) (mcreate_maps hc) fun _ =>
    SimOn.bind (ρ := id) (mevaluate_maps hc) fun _ => SimOn.bind (ρ := id) (SimOn.modify fun _ hs => ⟨rfl, hs⟩) fun _ => mpublish_maps _ _

theorem mgeneration_maps (hc : MCfg.Maps f P d' d) : MRMaps f P (mgeneration d') (mgeneration d) := by
  refine SimOn.bind (ρ := id) ?_ fun _ => SimOn.bind (ρ := id) (mevaluate_maps hc) fun _ => SimOn.bind (ρ := id) ?_ fun _ => ?_
  · refine mact_maps _ (SimOn.bind (ρ := id) individuals_maps fun is =>
      SimOn.bind (ρ := id) (mworld_maps ?_) fun is' => SimOn.modify fun _ hs => ⟨rfl, hs⟩)
    rw [hc.nsga2Breeder]
    exact SimOn.ite Iff.rfl (fun _ => nsga2Breed_maps hc.sub is) fun _ => simpleBreed_maps hc.sub is
  · refine SimOn.bind (ρ := id) individuals_maps fun is => SimOn.get_bind fun s _ => ?_
    rw [hc.setOrder]
    exact SimOn.bind (ρ := id) (mworld_maps (sortM_maps _ is)) fun is' => SimOn.modify fun _ hs => ⟨rfl, hs⟩
  · exact SimOn.bind (ρ := id) individuals_maps fun is => SimOn.modify fun _ hs => ⟨rfl, hs⟩

theorem mstop_maps (hc : MCfg.Maps f P d' d) (gen : Nat) : MRMaps f P (mstop d' gen) (mstop d gen) := by
  unfold mstop
  rw [hc.checker]
  exact SimOn.get_bind fun s _ => SimOn.ofExcept (Evo.except_map_id _).symm

theorem mloop_maps (hc : MCfg.Maps f P d' d) (n gen : Nat) : MRMaps f P (mloop d' n gen) (mloop d n gen) := by
  induction n generalizing gen with
  | zero => exact SimOn.pure rfl
  | succ n ih =>
    unfold mloop
    refine SimOn.bind (ρ := id) (SimOn.modify fun _ hs => ⟨rfl, hs⟩) fun _ => SimOn.bind (ρ := id) individuals_maps fun _ =>
      SimOn.get_bind fun s _ => ?_
    refine SimOn.bind (ρ := id) (msetSeed_maps hc _) fun _ => SimOn.bind (ρ := id) (SimOn.modify fun _ hs => ⟨rfl, hs⟩) fun _ => ?_
    refine SimOn.bind (ρ := id) (mgeneration_maps hc) fun _ => SimOn.bind (ρ := id) (mstop_maps hc gen) fun stop => ?_
    refine SimOn.ite Iff.rfl (fun _ => ?_) fun _ => ?_
    · exact SimOn.bind (ρ := id) (SimOn.modify fun _ hs => ⟨rfl, hs⟩) fun _ => mpublish_maps _ _
    · exact SimOn.bind (ρ := id) (mpublish_maps _ _) fun _ => ih _

theorem mevolve_maps (hc : MCfg.Maps f P d' d) : MRMaps f P (mevolve d') (mevolve d) := by
  refine SimOn.bind (ρ := id) (minit_maps hc) fun _ => SimOn.bind (ρ := id) ?_ fun _ => SimOn.bind (ρ := id) (mpublish_maps _ _) fun _ => ?_
  · unfold mafterInit
    rw [hc.maxGen]
    refine SimOn.get_bind fun s _ => SimOn.bind (ρ := id) (mstop_maps hc _) fun stop => SimOn.ite Iff.rfl (fun _ => ?_) fun _ => mloop_maps hc _ _
    exact SimOn.bind (ρ := id) (SimOn.modify fun _ hs => ⟨rfl, hs⟩) fun _ => mpublish_maps _ _
  · refine SimOn.get_bind fun s _ => ?_
    show MRMaps f P (match s.bestOfRun with | none => _ | some r => _) (match s.bestOfRun with | none => _ | some r => _)
    cases s.bestOfRun with
    | none => exact SimOn.raise
    | some r => exact SimOn.bind (ρ := id) (SimOn.ofExcept (Evo.except_map_id _).symm) fun _ => SimOn.pure rfl

/-! ## The library -/

theorem putGenomesM_maps (refs : List Nat) (gs : List G) (hg : ∀ g ∈ gs, P g) :
    MMaps f P (putGenomesM refs (gs.map f)) (putGenomesM refs gs) := by
  unfold putGenomesM
  rw [List.zip_map_right]
  have : ∀ p ∈ refs.zip gs, P p.2 := fun p hp => hg _ (List.of_mem_zip hp).2
  generalize refs.zip gs = l at this
  induction l with
  | nil => exact SimOn.pure rfl
  | cons p l ih =>
    exact SimOn.bind (ρ := id) (setGenome_maps p.1 (this p (by simp))) fun _ => ih fun q hq => this q (by simp [hq])

theorem onGenomes_maps {pr : ℚ} {ar : Nat} {g' : List H → Rand (Option (List H))} {g : List G → Rand (Option (List G))}
    (h : ∀ gs : List G, (∀ x ∈ gs, P x) → Sim id (Option.map (List.map f)) (g' (gs.map f)) (g gs))
    (hp : ∀ gs : List G, (∀ x ∈ gs, P x) → ∀ t gs', (g gs t).1 = .ok (some gs') → ∀ x ∈ gs', P x) :
    MOp.Maps f P (MOp.onGenomes pr ar g') (MOp.onGenomes pr ar g) := by
  refine ⟨rfl, rfl, fun refs => ?_⟩
  unfold MOp.onGenomes
  dsimp only
  refine SimOn.get_bind fun w hw => ?_
  have hgs : ∀ x ∈ refs.map w.genome, P x := by
    intro x hx
    obtain ⟨r, _, rfl⟩ := List.mem_map.1 hx
    exact hw r
  have e : refs.map (w.mapped f).genome = (refs.map w.genome).map f := by rw [List.map_map]; rfl
  rw [e]
  refine SimOn.bind_of (Q := fun r : Option (List G) => ∀ l, r = some l → ∀ x ∈ l, P x) (mrand_maps_map (h _ hgs)) ?_ fun r hr => ?_
  · intro w' _ r hr l hl
    subst hl
    exact hp _ hgs w'.tape l hr
  · cases r with
    | none => exact SimOn.pure rfl
    | some gs' => exact SimOn.bind (ρ := id) (putGenomesM_maps refs gs' (hr gs' rfl)) fun _ => SimOn.pure rfl

theorem newM_maps {empty : G} (he : P empty) (fit : Fit) : MMaps f P (newM (f empty) fit) (newM empty fit) := by
  refine SimOn.get_bind fun w hw => SimOn.bind (ρ := id) (SimOn.set ?_ ?_) fun _ => SimOn.pure rfl
  · unfold MWorld.mapped
    congr 1
    funext x
    dsimp only
    split <;> rfl
  · intro x
    dsimp only
    split
    · exact he
    · exact hw x

theorem createM_maps {empty : G} (he : P empty) {genome' : Rand H} {genome : Rand G} (hg : Sim id f genome' genome)
    (hq : ∀ t g, (genome t).1 = .ok g → P g) (fit : Fit) (n : Nat) :
    MMaps f P (createM (f empty) genome' fit n) (createM empty genome fit n) := by
  unfold createM
  refine SimOn.bind (ρ := id) (SimOn.mapL_id _ fun _ _ => newM_maps he fit) fun refs =>
    SimOn.bind (ρ := id) (SimOn.forL _ fun r _ => ?_) fun _ => SimOn.pure rfl
  exact SimOn.bind_of (Q := P) (mrand_maps_map hg) (fun w _ g hr => hq w.tape g hr) fun g hr => setGenome_maps r hr

theorem halfM_maps {grow' full' : Nat → Nat → MM H (List Nat)} {grow full : Nat → Nat → MM G (List Nat)}
    (hg : ∀ d k, MMaps f P (grow' d k) (grow d k)) (hf : ∀ d k, MMaps f P (full' d k) (full d k)) (minDepth depths n : Nat) :
    MMaps f P (halfM grow' full' minDepth depths n) (halfM grow full minDepth depths n) := by
  unfold halfM
  refine SimOn.ite Iff.rfl (fun _ => SimOn.raise) fun _ => SimOn.bind (ρ := id) ?_ fun inds => ?_
  · generalize (List.range depths).map (minDepth + ·) = l
    induction l with
    | nil => exact SimOn.pure rfl
    | cons d l ih =>
      unfold halfGroupsM
      exact SimOn.bind (ρ := id) (hg _ _) fun _ => SimOn.bind (ρ := id) (hf _ _) fun _ => SimOn.bind (ρ := id) ih fun _ => SimOn.pure rfl
  · exact SimOn.ite Iff.rfl (fun _ => SimOn.bind (ρ := id) (hf _ _) fun _ => SimOn.pure rfl) fun _ => SimOn.pure rfl

end Verif.Moo
