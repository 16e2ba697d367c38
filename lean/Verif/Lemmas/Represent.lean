import Verif.Py.SimOn
import Verif.Lemmas.Reloc

/-! # Changing the representation of genomes

What the library does when every genome is replaced by its image under a map `f` between two types of genomes, as long as
genomes satisfy an invariant `P`. -/

namespace Verif.PyM
variable {σ τ α β γ δ : Type} {I : σ → Prop} {L : σ → τ} {ρ : α → β}

theorem SimOn.bind_of {ζ : γ → δ} {m' : PyM τ β} {m : PyM σ α} {f' : β → PyM τ δ} {f : α → PyM σ γ} {Q : α → Prop}
    (hm : SimOn I L ρ m' m) (hq : ∀ s, I s → ∀ a, (m s).1 = .ok a → Q a)
    (hf : ∀ a, Q a → SimOn I L ζ (f' (ρ a)) (f a)) : SimOn I L ζ (m' >>= f') (m >>= f) := by
  intro s hs
  obtain ⟨h1, h2⟩ := hm s hs
  have h3 := hq s hs
  rw [bind_run, bind_run, h1]
  rcases hr : m s with ⟨r, s₁⟩
  rw [hr] at h2 h3
  cases r with
  | error e => exact ⟨rfl, h2⟩
  | ok a => exact hf a (h3 a rfl) s₁ h2

end Verif.PyM

namespace Verif.Evo
open PyM
variable {G H κ : Type} {f : G → H} {P : G → Prop} {size' : H → Nat} {size : G → Nat}

/-- The individual with its genome in the other representation. -/
def Ind.mapped (f : G → H) (i : Ind G) : Ind H :=
  ⟨i.id, i.gen, f i.genome, i.fit, i.clonedFrom, i.selectedBy, i.appliedOps, i.updateParents, i.parents⟩

def World.mapped (f : G → H) (w : World G) : World H := ⟨w.heap.map (Ind.mapped f), w.nextId, w.tape⟩

/-- The genomes of all individuals satisfy the invariant. -/
def World.Fine (P : G → Prop) (w : World G) : Prop := ∀ i ∈ w.heap, P i.genome

theorem mapped_get (h : List (Ind G)) (r : Nat) : (h.map (Ind.mapped f))[r]? = (h[r]?).map (Ind.mapped f) := by simp

/-- The computation commutes with the change of representation. -/
abbrev Maps (f : G → H) (P : G → Prop) {α : Type} (m' : WM H α) (m : WM G α) : Prop := SimOn (World.Fine P) (World.mapped f) id m' m

theorem deref_maps (r : Nat) : SimOn (World.Fine P) (World.mapped f) (Ind.mapped f) (deref r) (deref r) := by
  unfold deref
  refine SimOn.get_bind fun w _ => ?_
  show SimOn _ _ _ (match (w.heap.map (Ind.mapped f))[r]? with | some i => pure i | none => raise .attributeError) _
  rw [mapped_get]
  cases w.heap[r]? with
  | none => exact SimOn.raise
  | some i => exact SimOn.pure rfl

theorem deref_fine (r : Nat) (w : World G) (hw : w.Fine P) (i : Ind G) (h : (deref r w).1 = .ok i) : P i.genome := by
  unfold deref at h
  simp only [PyM.bind_run, PyM.get] at h
  cases hi : w.heap[r]? with
  | none => rw [hi] at h; cases h
  | some j =>
    rw [hi] at h
    cases h
    exact hw _ (List.mem_of_getElem? hi)

theorem reading_maps {α β : Type} {ρ : α → β} {g' : List (Ind H) → Except Err β} {g : List (Ind G) → Except Err α}
    (h : ∀ w : World G, w.Fine P → g' (w.heap.map (Ind.mapped f)) = (g w.heap).map ρ) :
    SimOn (World.Fine P) (World.mapped f) ρ (reading g') (reading g) := by
  unfold reading
  exact SimOn.get_bind fun w hw => SimOn.ofExcept (h w hw)

theorem rand_maps_map {α β : Type} {ρ : α → β} {m' : Rand β} {m : Rand α} (h : Sim id ρ m' m) :
    SimOn (World.Fine P) (World.mapped f) ρ (rand m') (rand m) := by
  intro w hw
  have := Sim.zoom (L' := World.mapped f) (g' := fun w : World H => w.tape) (p' := fun t w => { w with tape := t })
    (g := fun w : World G => w.tape) (p := fun t w => { w with tape := t }) h (fun _ => rfl) (fun _ _ => rfl) w
  exact ⟨this, hw⟩

theorem rand_maps {α : Type} (m : Rand α) : Maps f P (rand m) (rand m) := rand_maps_map (Sim.refl m)

theorem rand_results {α : Type} {m : Rand α} {Q : α → Prop} (h : ∀ t a, (m t).1 = .ok a → Q a) (w : World G) (a : α)
    (ha : (rand m w).1 = .ok a) : Q a := h w.tape a ha

theorem update_maps {g' : Ind H → Ind H} {g : Ind G → Ind G} (r : Nat) (h : ∀ i, g' (i.mapped f) = (g i).mapped f)
    (hb : ∀ i, P i.genome → P (g i).genome) : Maps f P (update r g') (update r g) := by
  unfold update
  refine SimOn.modify fun w hw => ⟨?_, ?_⟩
  · show World.mk _ _ _ = World.mk _ _ _
    congr 1
    show (w.heap.map (Ind.mapped f)).modify r g' = (w.heap.modify r g).map (Ind.mapped f)
    apply List.ext_getElem?
    intro n
    rw [List.getElem?_modify, mapped_get, mapped_get, List.getElem?_modify]
    cases w.heap[n]? with
    | none => rfl
    | some i => by_cases hr : r = n <;> simp [hr, h]
  · intro i hi
    obtain ⟨n, hn⟩ := List.mem_iff_getElem?.1 hi
    rw [List.getElem?_modify] at hn
    cases hx : w.heap[n]? with
    | none => simp [hx] at hn
    | some j =>
      have hj := hw j (List.mem_of_getElem? hx)
      by_cases hr : r = n
      · simp [hx, hr] at hn
        rw [← hn]; exact hb j hj
      · simp [hx, hr] at hn
        rw [← hn]; exact hj

theorem takeId_maps : Maps f P takeId takeId := by
  unfold takeId
  exact SimOn.get_bind fun w hw => SimOn.bind (SimOn.set rfl hw) fun _ => SimOn.pure rfl

theorem alloc_maps {i' : Ind H} {i : Ind G} (h : i' = i.mapped f) (hs : P i.genome) : Maps f P (alloc i') (alloc i) := by
  unfold alloc
  refine SimOn.get_bind fun w hw => SimOn.bind (SimOn.set ?_ ?_) fun _ => SimOn.pure ?_
  · show World.mk _ _ _ = World.mk _ _ _
    congr 1
    simp [World.mapped, h]
  · intro j hj
    rcases List.mem_append.1 hj with hj | hj
    · exact hw j hj
    · rw [List.mem_singleton.1 hj]; exact hs
  · show (w.heap.map (Ind.mapped f)).length = _
    simp

theorem clone_maps (r : Nat) : Maps f P (clone r) (clone r) := by
  unfold clone
  refine SimOn.bind_of (deref_maps r) (fun w hw i h => deref_fine r w hw i h) fun i hi => ?_
  exact SimOn.bind takeId_maps fun n => alloc_maps rfl hi

theorem cloneSelected_maps (name : String) (r : Nat) : Maps f P (cloneSelected name r) (cloneSelected name r) := by
  unfold cloneSelected
  exact SimOn.bind (clone_maps r) fun c => SimOn.bind (update_maps c (fun _ => rfl) fun _ h => h) fun _ => SimOn.pure rfl

theorem setNotEvaluated_maps (r : Nat) : Maps f P (setNotEvaluated r) (setNotEvaluated r) := by
  unfold setNotEvaluated
  exact update_maps r (fun _ => rfl) fun _ h => h

theorem setFitness_maps (r : Nat) (v : FVal) : Maps f P (setFitness r v) (setFitness r v) := by
  unfold setFitness
  exact update_maps r (fun _ => rfl) fun _ h => h

/-! ## Fitness -/

theorem betterOf_mapped (hz : ∀ g, P g → size' (f g) = size g) {w : World G} (hw : w.Fine P) (r : Nat) (o : Option Nat) :
    betterOf size' (w.heap.map (Ind.mapped f)) r o = betterOf size w.heap r o := by
  unfold betterOf
  cases o with
  | none => rfl
  | some o =>
    simp only [mapped_get]
    cases hi : w.heap[r]? with
    | none => rfl
    | some i =>
      cases hj : w.heap[o]? with
      | none => rfl
      | some j =>
        show i.fit.betterThan (size' (f i.genome)) j.fit (size' (f j.genome)) = _
        rw [hz _ (hw i (List.mem_of_getElem? hi)), hz _ (hw j (List.mem_of_getElem? hj))]

theorem betterOf_maps (hz : ∀ g, P g → size' (f g) = size g) (r : Nat) (o : Option Nat) :
    Maps f P (reading fun h => betterOf size' h r o) (reading fun h => betterOf size h r o) :=
  reading_maps fun w hw => by rw [betterOf_mapped hz hw, except_map_id]

theorem augOf_mapped (hz : ∀ g, P g → size' (f g) = size g) {w : World G} (hw : w.Fine P) (r : Nat) :
    augOf size' (w.heap.map (Ind.mapped f)) r = augOf size w.heap r := by
  unfold augOf
  rw [mapped_get]
  cases hi : w.heap[r]? with
  | none => rfl
  | some i =>
    show i.fit.augmented (size' (f i.genome)) = _
    rw [hz _ (hw i (List.mem_of_getElem? hi))]

theorem keyed_mapped (hz : ∀ g, P g → size' (f g) = size g) {w : World G} (hw : w.Fine P) (rs : List Nat) :
    keyed size' (w.heap.map (Ind.mapped f)) rs = keyed size w.heap rs := by
  induction rs with
  | nil => rfl
  | cons r rs ih => simp only [keyed, augOf_mapped hz hw, ih]

theorem sortedByFitness_mapped (hz : ∀ g, P g → size' (f g) = size g) {w : World G} (hw : w.Fine P) (rev : Bool) (rs : List Nat) :
    sortedByFitness size' (w.heap.map (Ind.mapped f)) rev rs = sortedByFitness size w.heap rev rs := by
  unfold sortedByFitness
  rw [keyed_mapped hz hw]

theorem worstIndividual_mapped (hz : ∀ g, P g → size' (f g) = size g) {w : World G} (hw : w.Fine P) (hib : Bool) (rs : List Nat) :
    worstIndividual size' (w.heap.map (Ind.mapped f)) hib rs = worstIndividual size w.heap hib rs := by
  unfold worstIndividual
  rw [sortedByFitness_mapped hz hw]

/-! ## Selection -/

/-- One selection method does with the genomes in the other representation what the other does. -/
structure Sel.Maps (f : G → H) (P : G → Prop) (sel' : Sel H) (sel : Sel G) : Prop where
  arity : sel'.arity = sel.arity
  select : ∀ source dest, Evo.Maps f P (sel'.select source dest) (sel.select source dest)

theorem winnerLoop_maps (hz : ∀ g, P g → size' (f g) = size g) (w : Nat) (ps : List Nat) :
    Maps f P (winnerLoop size' w ps) (winnerLoop size w ps) := by
  induction ps generalizing w with
  | nil => exact SimOn.pure rfl
  | cons p ps ih =>
    simp only [winnerLoop]
    exact SimOn.bind (betterOf_maps hz p _) fun b => ih _

theorem tournament_maps (hz : ∀ g, P g → size' (f g) = size g) (z : Nat) (replace : Bool) :
    Sel.Maps f P (tournament size' z replace) (tournament size z replace) := by
  refine ⟨rfl, fun source dest => ?_⟩
  show SimOn _ _ _ (tournamentSelect _ _ _ _ _) (tournamentSelect _ _ _ _ _)
  unfold tournamentSelect
  refine SimOn.ite Iff.rfl (fun _ => SimOn.raise) fun _ => SimOn.bind (rand_maps _) fun tours => ?_
  refine SimOn.bind (SimOn.mapL_id tours fun t _ => ?_) fun ws => SimOn.pure rfl
  cases t with
  | nil => exact SimOn.raise
  | cons t ts => exact SimOn.bind (winnerLoop_maps hz t ts) fun w => cloneSelected_maps _ w

theorem elitismSelect_maps (hz : ∀ g, P g → size' (f g) = size g) (n : Int) (hib : Bool) (source dest : List Nat) :
    Maps f P (elitismSelect size' n hib source dest) (elitismSelect size n hib source dest) := by
  unfold elitismSelect
  exact SimOn.bind (ρ := id) (reading_maps fun w hw => by rw [sortedByFitness_mapped hz hw, except_map_id]) fun sorted =>
    SimOn.bind (SimOn.mapL_id _ fun r _ => cloneSelected_maps _ r) fun cs => SimOn.pure rfl

theorem elitism_maps (hz : ∀ g, P g → size' (f g) = size g) (n : Int) (hib : Bool) :
    Sel.Maps f P (elitism size' n hib) (elitism size n hib) := ⟨rfl, elitismSelect_maps hz n hib⟩

/-! ## Operators -/

/-- One operator does with the genomes in the other representation what the other does. -/
structure Op.Maps (f : G → H) (P : G → Prop) (o' : Op H) (o : Op G) : Prop where
  name : o'.name = o.name
  probability : o'.probability = o.probability
  arity : o'.arity = o.arity
  apply : ∀ refs, Evo.Maps f P (o'.apply refs) (o.apply refs)

theorem genomes_maps (refs : List Nat) : SimOn (World.Fine P) (World.mapped f) (List.map f) (genomes refs) (genomes refs) :=
  SimOn.mapL refs fun r _ => SimOn.bind (deref_maps r) fun _ => SimOn.pure rfl

theorem genomes_fine (refs : List Nat) (w : World G) (hw : w.Fine P) (gs : List G) (h : (genomes refs w).1 = .ok gs) :
    ∀ g ∈ gs, P g := by
  unfold genomes at h
  induction refs generalizing w gs with
  | nil => cases h; simp
  | cons r rs ih =>
    unfold PyM.mapL at h
    simp only [PyM.bind_run] at h
    have hd := deref_fine (P := P) r w hw
    have hk : (deref r w).2 = w := by
      unfold deref
      simp only [PyM.bind_run, PyM.get]
      cases w.heap[r]? <;> rfl
    rcases he : deref r w with ⟨x, w₁⟩
    rw [he] at h hd hk
    dsimp only at hk
    subst hk
    cases x with
    | error e => cases h
    | ok i =>
      dsimp only [PyM.pure_run] at h
      have ih' := fun l hl => ih w₁ hw l hl
      rcases hm : mapL (fun r => do let i ← deref r; pure i.genome : Nat → WM G G) rs w₁ with ⟨y, w₂⟩
      simp only [hm] at ih' h
      cases y with
      | error e => simp at h
      | ok l =>
        simp at h
        subst h
        intro g hg
        rcases List.mem_cons.1 hg with rfl | hg
        · exact hd i rfl
        · exact ih' l rfl g hg

theorem putGenomes_maps (refs : List Nat) (gs : List G) (hg : ∀ g ∈ gs, P g) :
    Maps f P (putGenomes refs (gs.map f)) (putGenomes refs gs) := by
  unfold putGenomes
  rw [List.zip_map_right]
  have : ∀ p ∈ refs.zip gs, P p.2 := fun p hp => hg _ (List.of_mem_zip hp).2
  generalize refs.zip gs = l at this
  induction l with
  | nil => exact SimOn.pure rfl
  | cons p l ih =>
    refine SimOn.bind (ρ := id) (update_maps p.1 (fun _ => rfl) fun _ _ => ?_) fun _ => ih fun q hq => this q (by simp [hq])
    exact this p (by simp)

theorem inPlace_maps {name : String} {pr : ℚ} {ar : Nat} {g' : List H → Rand (Option (List H))} {g : List G → Rand (Option (List G))}
    (h : ∀ gs : List G, (∀ x ∈ gs, P x) → Sim id (Option.map (List.map f)) (g' (gs.map f)) (g gs))
    (hp : ∀ gs : List G, (∀ x ∈ gs, P x) → ∀ t gs', (g gs t).1 = .ok (some gs') → ∀ x ∈ gs', P x) :
    Op.Maps f P (Op.inPlace name pr ar g') (Op.inPlace name pr ar g) := by
  refine ⟨rfl, rfl, rfl, fun refs => ?_⟩
  unfold Op.inPlace
  dsimp only
  refine SimOn.bind_of (genomes_maps refs) (fun w hw gs hg => genomes_fine refs w hw gs hg) fun gs hgs => ?_
  refine SimOn.bind_of (Q := fun r : Option (List G) => ∀ l, r = some l → ∀ x ∈ l, P x) (rand_maps_map (h gs hgs)) ?_ fun r hr => ?_
  · intro w _ r hr l hl
    subst hl
    exact hp gs hgs w.tape l hr
  · cases r with
    | none => exact SimOn.pure rfl
    | some gs' => exact SimOn.bind (putGenomes_maps refs gs' (hr gs' rfl)) fun _ => SimOn.pure rfl

theorem applyOperator_maps {o' : Op H} {o : Op G} (ho : Op.Maps f P o' o) (inds : List Nat) :
    Maps f P (applyOperator o' inds) (applyOperator o inds) := by
  unfold applyOperator
  refine SimOn.bind (rand_maps _) fun u => SimOn.ite (by rw [ho.probability]; rfl) (fun _ => ?_) fun _ => SimOn.pure rfl
  refine SimOn.bind (SimOn.forL inds fun r _ => setNotEvaluated_maps r) fun _ => SimOn.bind (ho.apply inds) fun r => ?_
  cases r with
  | none => exact SimOn.raise
  | some res =>
    refine SimOn.bind (SimOn.mapL_id inds fun r _ => SimOn.bind (deref_maps r) fun i => SimOn.pure rfl) fun ids => ?_
    rw [ho.name]
    exact SimOn.bind (SimOn.forL res fun r _ => update_maps r (fun i => rfl) fun i h => h) fun _ => SimOn.pure rfl

theorem withFallback_maps {name : String} {pr : ℚ} {ar : Nat} {g' : List H → Rand (Bool × List H)} {g : List G → Rand (Bool × List G)}
    {inner' : Op H} {inner : Op G}
    (h : ∀ gs : List G, (∀ x ∈ gs, P x) → Sim id (fun r => (r.1, r.2.map f)) (g' (gs.map f)) (g gs))
    (hp : ∀ gs : List G, (∀ x ∈ gs, P x) → ∀ t r, (g gs t).1 = .ok r → ∀ x ∈ r.2, P x)
    (hi : Op.Maps f P inner' inner) : Op.Maps f P (Op.withFallback name pr ar g' inner') (Op.withFallback name pr ar g inner) := by
  refine ⟨rfl, rfl, rfl, fun refs => ?_⟩
  unfold Op.withFallback
  dsimp only
  refine SimOn.bind_of (genomes_maps refs) (fun w hw gs hg => genomes_fine refs w hw gs hg) fun gs hgs => ?_
  refine SimOn.bind_of (Q := fun r : Bool × List G => ∀ x ∈ r.2, P x) (rand_maps_map (h gs hgs))
    (fun w _ r hr => hp gs hgs w.tape r hr) fun r hr => ?_
  obtain ⟨b, gs'⟩ := r
  refine SimOn.bind (putGenomes_maps refs gs' hr) fun _ => ?_
  cases b with
  | true => exact SimOn.pure rfl
  | false => exact SimOn.bind (applyOperator_maps hi refs) fun l => SimOn.pure rfl

theorem applyChunks_maps {o' : Op H} {o : Op G} (ho : Op.Maps f P o' o) (starts inds : List Nat) :
    Maps f P (applyChunks o' starts inds) (applyChunks o starts inds) := by
  induction starts generalizing inds with
  | nil => exact SimOn.pure rfl
  | cons i is ih =>
    unfold applyChunks
    rw [ho.arity]
    exact SimOn.bind (applyOperator_maps ho _) fun res => ih _

theorem applyOperators_maps {ops' : List (Op H)} {ops : List (Op G)} (ho : List.Forall₂ (Op.Maps f P) ops' ops) (inds : List Nat) :
    Maps f P (applyOperators ops' inds) (applyOperators ops inds) := by
  induction ho generalizing inds with
  | nil => exact SimOn.pure rfl
  | cons h _ ih =>
    unfold applyOperators
    rw [h.arity]
    exact SimOn.ite Iff.rfl (fun _ => SimOn.raise) fun _ => SimOn.bind (applyChunks_maps h _ _) fun is => ih is

theorem checkArities_maps (n : Nat) (as : List Nat) : Maps f P (checkArities n as) (checkArities n as) := by
  induction as with
  | nil => exact SimOn.pure rfl
  | cons a as ih =>
    exact SimOn.ite Iff.rfl (fun _ => SimOn.raise) fun _ => SimOn.ite Iff.rfl (fun _ => SimOn.raise) fun _ => ih

/-! ## Creation -/

/-- One creator makes in the other representation what the other makes. -/
def CreatorMaps (f : G → H) (P : G → Prop) (create' : Nat → Bool → WM H (List Nat)) (create : Nat → Bool → WM G (List Nat)) : Prop :=
  ∀ n hib, Maps f P (create' n hib) (create n hib)

theorem createIndividuals_maps {empty' : H} {empty : G} {genome' : Rand H} {genome : Rand G} (fit : Bool → Fit) (up : Bool)
    (he : empty' = f empty) (hp : P empty) (hg : Sim id f genome' genome) (hq : ∀ t g, (genome t).1 = .ok g → P g) :
    CreatorMaps f P (createIndividuals empty' genome' fit up) (createIndividuals empty genome fit up) := by
  intro n hib
  subst he
  unfold createIndividuals
  refine SimOn.bind (SimOn.mapL_id _ fun _ _ => ?_) fun refs => SimOn.bind (SimOn.forL _ fun r _ => ?_) fun _ => SimOn.pure rfl
  · unfold newInd
    exact SimOn.bind takeId_maps fun i => alloc_maps rfl hp
  · exact SimOn.bind_of (Q := P) (rand_maps_map hg) (fun w _ g hr => hq w.tape g hr) fun g hr =>
      update_maps r (fun _ => rfl) fun _ _ => hr

theorem halfCreate_maps {grow' full' : Nat → Nat → Bool → WM H (List Nat)} {grow full : Nat → Nat → Bool → WM G (List Nat)}
    (hg : ∀ d, CreatorMaps f P (grow' d) (grow d)) (hf : ∀ d, CreatorMaps f P (full' d) (full d)) (minDepth depths : Nat) :
    CreatorMaps f P (halfCreate grow' full' minDepth depths) (halfCreate grow full minDepth depths) := by
  intro n hib
  unfold halfCreate
  refine SimOn.ite Iff.rfl (fun _ => SimOn.raise) fun _ => ?_
  refine SimOn.bind (ρ := id) ?_ fun inds => ?_
  · generalize (List.range depths).map (minDepth + ·) = ds
    induction ds with
    | nil => exact SimOn.pure rfl
    | cons d ds ih =>
      exact SimOn.bind (hg d _ hib) fun a => SimOn.bind (hf d _ hib) fun b => SimOn.bind ih fun c => SimOn.pure rfl
  · refine SimOn.ite Iff.rfl (fun _ => ?_) fun _ => SimOn.pure rfl
    exact SimOn.bind (hf _ _ hib) fun a => SimOn.pure rfl

/-! ## Sub-populations -/

/-- Two sub-populations whose parts do the same in the two representations. -/
structure SubCfg.Maps (f : G → H) (P : G → Prop) (c' : SubCfg H) (c : SubCfg G) : Prop where
  creators : List.Forall₂ (CreatorMaps f P) c'.creators c.creators
  pick : c'.pick = c.pick
  ops : List.Forall₂ (Op.Maps f P) c'.ops c.ops
  sels : List.Forall₂ (Sel.Maps f P) c'.sels c.sels
  popSize : c'.popSize = c.popSize
  nElite : c'.nElite = c.nElite
  hib : c'.hib = c.hib
  evaluate : ∀ g, P g → c'.evaluate (f g) = c.evaluate g

theorem forall₂_get {α β : Type} {R : α → β → Prop} {l' : List α} {l : List β} (h : List.Forall₂ R l' l) (n : Nat) :
    (l'[n]? = none ∧ l[n]? = none) ∨ ∃ a b, l'[n]? = some a ∧ l[n]? = some b ∧ R a b := by
  induction h generalizing n with
  | nil => simp
  | cons h _ ih =>
    cases n with
    | zero => exact Or.inr ⟨_, _, rfl, rfl, h⟩
    | succ n => simpa using ih n

theorem createSub_maps {c' : SubCfg H} {c : SubCfg G} (hc : SubCfg.Maps f P c' c) (is : Option (List Nat)) :
    Maps f P (createSub c' is) (createSub c is) := by
  cases is with
  | some is => exact SimOn.pure rfl
  | none =>
    unfold createSub
    rw [hc.pick, hc.popSize, hc.hib]
    refine SimOn.bind (rand_maps _) fun n => ?_
    dsimp only [id]
    rcases forall₂_get hc.creators n with ⟨h1, h2⟩ | ⟨a, b, h1, h2, h⟩
    · rw [h1, h2]; exact SimOn.raise
    · rw [h1, h2]; exact SimOn.bind (h _ _) fun is => SimOn.pure rfl

theorem arities_eq {c' : SubCfg H} {c : SubCfg G} (hc : SubCfg.Maps f P c' c) :
    c'.sels.map (·.arity) ++ c'.ops.map (·.arity) = c.sels.map (·.arity) ++ c.ops.map (·.arity) := by
  congr 1
  · have := hc.sels
    revert this
    generalize c'.sels = l'
    generalize c.sels = l
    intro h
    induction h with
    | nil => rfl
    | cons h _ ih => simp [h.arity, ih]
  · have := hc.ops
    revert this
    generalize c'.ops = l'
    generalize c.ops = l
    intro h
    induction h with
    | nil => rfl
    | cons h _ ih => simp [h.arity, ih]

theorem breedSub_maps (hz : ∀ g, P g → size' (f g) = size g) {c' : SubCfg H} {c : SubCfg G} (hc : SubCfg.Maps f P c' c)
    (inds : List Nat) : Maps f P (breedSub size' c' inds) (breedSub size c inds) := by
  unfold breedSub
  rw [arities_eq hc, hc.popSize]
  refine SimOn.bind (checkArities_maps _ _) fun _ => SimOn.bind (ρ := id) ?_ fun sel => applyOperators_maps hc.ops sel
  unfold selectStage
  refine SimOn.bind (ρ := id) ?_ fun next => ?_
  · unfold eliteStage
    rw [hc.nElite, hc.hib]
    exact SimOn.ite Iff.rfl (fun _ => elitismSelect_maps hz _ _ _ []) fun _ => SimOn.pure rfl
  · have := hc.sels
    revert this
    generalize c'.sels = l'
    generalize c.sels = l
    intro h
    cases h with
    | nil => exact SimOn.raise
    | cons h _ => exact h.select inds next

theorem breedAll_maps (hz : ∀ g, P g → size' (f g) = size g) {l' : List (SubCfg H)} {l : List (SubCfg G)}
    (hc : List.Forall₂ (SubCfg.Maps f P) l' l) (inds : List (Option (List Nat))) :
    Maps f P (breedAll size' (l'.zip inds)) (breedAll size (l.zip inds)) := by
  induction hc generalizing inds with
  | nil => exact SimOn.pure rfl
  | cons h _ ih =>
    cases inds with
    | nil => exact SimOn.pure rfl
    | cons is rest =>
      cases is with
      | none => exact SimOn.raise
      | some is => exact SimOn.bind (breedSub_maps hz h is) fun is' => SimOn.bind (ih rest) fun rest => SimOn.pure rfl

/-! ## Evaluation -/

theorem executorMap_maps {α β : Type} {ρ : α → β} {order : List Nat} {task' : Nat → WM H β} {task : Nat → WM G α}
    (ht : ∀ r, SimOn (World.Fine P) (World.mapped f) ρ (task' r) (task r)) (refs : List Nat) :
    SimOn (World.Fine P) (World.mapped f) (List.map ρ) (executorMap order task' refs) (executorMap order task refs) := by
  unfold executorMap
  refine SimOn.bind (ρ := List.map fun p : Nat × α => (p.1, ρ p.2)) (SimOn.mapL _ fun i _ => ?_) fun rs =>
    SimOn.mapL _ fun i _ => ?_
  · unfold runTask
    cases refs[i]? with
    | none => exact SimOn.raise
    | some r => exact SimOn.bind (ht r) fun v => SimOn.pure rfl
  · unfold lookupResult
    rw [List.find?_map]
    have : ((fun p : Nat × β => p.1 == i) ∘ fun p : Nat × α => (p.1, ρ p.2)) = fun p => p.1 == i := rfl
    rw [this]
    cases rs.find? (fun p => p.1 == i) with
    | none => exact SimOn.raise
    | some p => exact SimOn.pure rfl

theorem executorMap_maps_id {α : Type} {order : List Nat} {task' : Nat → WM H α} {task : Nat → WM G α}
    (ht : ∀ r, Maps f P (task' r) (task r)) (refs : List Nat) : Maps f P (executorMap order task' refs) (executorMap order task refs) := by
  have := executorMap_maps (ρ := id) (order := order) ht refs
  rwa [List.map_id_fun] at this

theorem bestOfList_maps (hz : ∀ g, P g → size' (f g) = size g) (is : List Nat) :
    Maps f P (match is with | [] => raise .indexError | b :: rest => bestLoop size' b rest)
      (match is with | [] => raise .indexError | b :: rest => bestLoop size b rest) := by
  cases is with
  | nil => exact SimOn.raise
  | cons b rest =>
    dsimp only
    induction rest generalizing b with
    | nil => exact SimOn.pure rfl
    | cons p ps ih =>
      simp only [bestLoop]
      exact SimOn.bind (betterOf_maps hz p _) fun v => ih _

theorem runEval_maps {c' : SubCfg H} {c : SubCfg G} (hc : SubCfg.Maps f P c' c) (r : Nat) :
    Maps f P (runEval c' r) (runEval c r) := by
  unfold runEval
  refine SimOn.bind_of (deref_maps r) (fun w hw i h => deref_fine r w hw i h) fun i hi => ?_
  show Maps f P (rand (c'.evaluate (f i.genome))) _
  rw [hc.evaluate _ hi]
  exact rand_maps _

theorem evaluateMap_maps (hz : ∀ g, P g → size' (f g) = size g) {c' : SubCfg H} {c : SubCfg G} (hc : SubCfg.Maps f P c' c)
    (order is : List Nat) : Maps f P (evaluateMap size' c' order is) (evaluateMap size c order is) := by
  unfold evaluateMap
  refine SimOn.bind (executorMap_maps_id (fun r => runEval_maps hc r) is) fun scores => ?_
  exact SimOn.bind (SimOn.forL _ fun p _ => setFitness_maps p.1 (.num p.2)) fun _ => bestOfList_maps hz is

theorem evaluateSubmit_maps (hz : ∀ g, P g → size' (f g) = size g) {c' : SubCfg H} {c : SubCfg G} (hc : SubCfg.Maps f P c' c)
    (order is : List Nat) : Maps f P (evaluateSubmit size' c' order is) (evaluateSubmit size c order is) := by
  unfold evaluateSubmit
  refine SimOn.bind (executorMap_maps_id
    (task' := fun r => do let v ← runEval c' r; setFitness r (.num v); pure r)
    (task := fun r => do let v ← runEval c r; setFitness r (.num v); pure r)
    (fun r => SimOn.bind (runEval_maps hc r) fun v => SimOn.bind (setFitness_maps r (.num v)) fun _ => SimOn.pure rfl) is) fun res => ?_
  exact SimOn.bind (SimOn.forL _ fun p _ => setFitness_maps p.1 (.obj p.2)) fun _ => bestOfList_maps hz is

/-! ## The algorithm -/

def Snapshot.mapped (f : G → H) (s : Snapshot G) : Snapshot H :=
  ⟨s.heap.map (Ind.mapped f), s.inds, s.bestOfRun, s.bestOfGen, s.genNum, s.genSeed⟩

def Event.mapped (f : G → H) (e : Event G) : Event H := ⟨e.publisher, e.name, e.snap.mapped f⟩

/-- The run with genomes in the other representation: everything else is the same. -/
def Run.mapped (f : G → H) (s : Run G κ) : Run H κ :=
  ⟨s.w.mapped f, s.inds, s.bestOfRun, s.bestOfGen, s.worstOfGen, s.genNum, s.randomSeed, s.genSeed, s.finalGen, s.checkers, s.shutdown,
    s.log.map (Event.mapped f)⟩

/-- The checkers give the same answers in the two representations. -/
def CheckerMaps (f : G → H) (P : G → Prop) (t' : Checker H κ) (t : Checker G κ) : Prop := ∀ k heap inds best gen,
  (∀ i ∈ heap, P i.genome) → t' k (heap.map (Ind.mapped f)) inds best gen = t k heap inds best gen

/-- So do all checkers of a run. -/
inductive CheckersMap (f : G → H) (P : G → Prop) : Checkers H κ → Checkers G κ → Prop
  | none : CheckersMap f P .none .none
  | one {t' : Checker H κ} {t : Checker G κ} (h : CheckerMaps f P t' t) : CheckersMap f P (.one t') (.one t)
  | many {ts' : List (Checker H κ)} {ts : List (Checker G κ)} (h : List.Forall₂ (CheckerMaps f P) ts' ts) :
    CheckersMap f P (.many ts') (.many ts)

/-- Two configurations whose parts do the same in the two representations. -/
structure Cfg.Maps (f : G → H) (P : G → Prop) (c' : Cfg H κ) (c : Cfg G κ) : Prop where
  size : ∀ g, P g → c'.size (f g) = c.size g
  subs : List.Forall₂ (SubCfg.Maps f P) c'.subs c.subs
  stream : c'.stream = c.stream
  maxGen : c'.maxGen = c.maxGen
  checkers : CheckersMap f P c'.checker c.checker
  sched : c'.sched = c.sched
  submit : c'.submit = c.submit

abbrev RMaps (f : G → H) (P : G → Prop) {α : Type} (m' : RM H κ α) (m : RM G κ α) : Prop :=
  SimOn (fun s : Run G κ => s.w.Fine P) (Run.mapped f) id m' m

theorem world_maps {α : Type} {m' : WM H α} {m : WM G α} (h : Maps f P m' m) : RMaps (κ := κ) f P (world m') (world m) := by
  unfold world
  exact SimOn.zoom h (fun _ hs => ⟨rfl, hs⟩) (fun _ _ => rfl) fun _ _ ht _ => ht

theorem publish_maps (p n : String) : RMaps f P (publish p n) (publish p n : RM G κ Unit) := by
  unfold publish
  refine SimOn.modify fun s hs => ⟨?_, hs⟩
  show Run.mk _ _ _ _ _ _ _ _ _ _ _ _ = Run.mk _ _ _ _ _ _ _ _ _ _ _ _
  congr 1
  show s.log.map _ ++ _ = (s.log ++ _).map _
  rw [List.map_append]
  rfl

theorem act_maps {α : Type} {m' : RM H κ α} {m : RM G κ α} (p : String) (h : RMaps f P m' m) : RMaps f P (act p m') (act p m) :=
  SimOn.bind (publish_maps _ _) fun _ => SimOn.bind h fun _ => SimOn.bind (publish_maps _ _) fun _ => SimOn.pure rfl

variable {c' : Cfg H κ} {c : Cfg G κ}

theorem setSeed_maps (hc : Cfg.Maps f P c' c) (seed : Nat) : RMaps f P (setSeed c' seed) (setSeed c seed) := by
  unfold setSeed
  rw [hc.stream]
  exact SimOn.modify fun _ hs => ⟨rfl, hs⟩

theorem createPopulation_maps (hc : Cfg.Maps f P c' c) : RMaps f P (createPopulation c') (createPopulation c) := by
  unfold createPopulation
  refine SimOn.get_bind fun s _ => SimOn.bind (ρ := id) (world_maps ?_) fun is => SimOn.modify fun _ hs => ⟨rfl, hs⟩
  show Maps f P (mapL _ (c'.subs.zip s.inds)) _
  have := hc.subs
  revert this
  generalize c'.subs = l'
  generalize c.subs = l
  generalize s.inds = inds
  intro h
  induction h generalizing inds with
  | nil => exact SimOn.pure rfl
  | cons h _ ih =>
    cases inds with
    | nil => exact SimOn.pure rfl
    | cons is rest => exact SimOn.bind (createSub_maps h is) fun is => SimOn.bind (ih rest) fun rest => SimOn.pure rfl

theorem evaluateBody_maps (hc : Cfg.Maps f P c' c) : RMaps f P (evaluateBody c') (evaluateBody c) := by
  unfold evaluateBody
  rw [hc.sched, hc.submit]
  refine SimOn.get_bind fun s _ => ?_
  show SimOn _ _ _ (match c'.subs, s.inds with | [sub], [some is] => _ | [_], [none] => _ | _, _ => _) _
  have := hc.subs
  revert this
  generalize c'.subs = l'
  generalize c.subs = l
  intro h
  cases h with
  | nil => exact SimOn.raise
  | cons h ht =>
    cases ht with
    | cons _ _ => exact SimOn.raise
    | nil =>
      rcases hi : s.inds with _ | ⟨_ | is, _ | ⟨i2, irest⟩⟩
      · exact SimOn.raise
      · exact SimOn.raise
      · exact SimOn.raise
      · refine SimOn.ite Iff.rfl (fun _ => SimOn.raise) fun _ => world_maps ?_
        exact SimOn.ite Iff.rfl (fun _ => evaluateSubmit_maps hc.size h _ _) fun _ => evaluateMap_maps hc.size h _ _
      · exact SimOn.raise

theorem evaluatePopulation_maps (hc : Cfg.Maps f P c' c) : RMaps f P (evaluatePopulation c') (evaluatePopulation c) :=
  act_maps _ (evaluateBody_maps hc)

theorem breed_maps (hc : Cfg.Maps f P c' c) : RMaps f P (breed c') (breed c) := by
  unfold breed
  refine act_maps _ ?_
  unfold breedBody
  refine SimOn.get_bind fun s _ => SimOn.bind (ρ := id) (world_maps ?_) fun is => SimOn.modify fun _ hs => ⟨rfl, hs⟩
  exact breedAll_maps hc.size hc.subs s.inds

theorem initRun_maps (hc : Cfg.Maps f P c' c) : RMaps f P (initRun c') (initRun c) := by
  unfold initRun
  exact SimOn.get_bind fun s _ => SimOn.bind (setSeed_maps hc _) fun _ => SimOn.bind (createPopulation_maps hc) fun _ =>
    SimOn.bind (evaluatePopulation_maps hc) fun b => SimOn.bind (SimOn.modify fun _ hs => ⟨rfl, hs⟩) fun _ => publish_maps _ _

theorem consult_mapped {ts' : List (Checker H κ)} {ts : List (Checker G κ)} (ht : List.Forall₂ (CheckerMaps f P) ts' ts) (ks : List κ)
    {heap : List (Ind G)} (hh : ∀ i ∈ heap, P i.genome) (inds : List (Option (List Nat))) (best : Option Nat) (gen : Nat) :
    consult (heap.map (Ind.mapped f)) inds best gen ts' ks = consult heap inds best gen ts ks := by
  induction ht generalizing ks with
  | nil => cases ks <;> rfl
  | cons h _ ih =>
    cases ks with
    | nil => rfl
    | cons k ks => simp only [consult, h k heap inds best gen hh, ih]

theorem shouldTerminate_maps (hc : Cfg.Maps f P c' c) (gen : Nat) :
    RMaps f P (shouldTerminate c' gen) (shouldTerminate c gen) := by
  intro s hs
  have hk := hc.checkers
  unfold shouldTerminate
  revert hk
  generalize c'.checker = ck'
  generalize c.checker = ck
  intro hk
  cases hk with
  | none => exact ⟨rfl, hs⟩
  | one h =>
    dsimp only
    show (match s.checkers with | k :: ks => _ | [] => _) = _ ∧ _
    cases s.checkers with
    | nil => exact ⟨rfl, hs⟩
    | cons k ks =>
      dsimp only
      rw [show (Run.mapped f s).w.heap = s.w.heap.map (Ind.mapped f) from rfl,
        show (Run.mapped f s).inds = s.inds from rfl, show (Run.mapped f s).bestOfRun = s.bestOfRun from rfl,
        h k s.w.heap s.inds s.bestOfRun gen hs]
      rename_i t
      rcases t k s.w.heap s.inds s.bestOfRun gen with ⟨r, k'⟩
      dsimp only
      rw [except_map_id]
      exact ⟨rfl, hs⟩
  | many h =>
    dsimp only
    rw [show (Run.mapped f s).w.heap = s.w.heap.map (Ind.mapped f) from rfl,
      show (Run.mapped f s).inds = s.inds from rfl, show (Run.mapped f s).bestOfRun = s.bestOfRun from rfl,
      show (Run.mapped f s).checkers = s.checkers from rfl, consult_mapped h s.checkers hs]
    rename_i ts
    rcases consult s.w.heap s.inds s.bestOfRun gen ts s.checkers with ⟨r, ks⟩
    cases r <;> exact ⟨rfl, hs⟩

theorem updateGen_maps (gen : Nat) : RMaps f P (updateGen gen) (updateGen gen : RM G κ Unit) := by
  unfold updateGen
  refine SimOn.get_bind fun s _ => SimOn.forL s.inds fun is _ => ?_
  cases is with
  | none => exact SimOn.raise
  | some is => exact world_maps (SimOn.forL is fun r _ => update_maps r (fun _ => rfl) fun _ h => h)

theorem recordBest_maps (hc : Cfg.Maps f P c' c) (b : Nat) : RMaps f P (recordBest c' b) (recordBest c b) := by
  unfold recordBest
  refine SimOn.get_bind fun s _ => SimOn.bind (world_maps (betterOf_maps hc.size b s.bestOfRun)) fun v => ?_
  exact SimOn.ite Iff.rfl (fun _ => SimOn.modify fun _ hs => ⟨rfl, hs⟩) fun _ => SimOn.pure rfl

theorem recordWorst_maps (hc : Cfg.Maps f P c' c) : RMaps f P (recordWorst c') (recordWorst c) := by
  unfold recordWorst
  refine SimOn.get_bind fun s _ => ?_
  show SimOn _ _ _ (match c'.subs, s.inds with | sub :: _, some is :: _ => _ | _, _ => _) _
  have := hc.subs
  revert this
  generalize c'.subs = l'
  generalize c.subs = l
  intro h
  cases h with
  | nil => exact SimOn.raise
  | cons h _ =>
    rcases hi : s.inds with _ | ⟨_ | is, irest⟩
    · exact SimOn.raise
    · exact SimOn.raise
    · dsimp only
      refine SimOn.bind (ρ := id) (world_maps (reading_maps fun w hw => ?_)) fun w => SimOn.modify fun _ hs => ⟨rfl, hs⟩
      rw [except_map_id, h.hib]
      exact worstIndividual_mapped hc.size hw _ is

theorem generationIteration_maps (hc : Cfg.Maps f P c' c) : RMaps f P (generationIteration c') (generationIteration c) := by
  unfold generationIteration
  exact SimOn.bind (breed_maps hc) fun _ => SimOn.bind (evaluatePopulation_maps hc) fun b =>
    SimOn.bind (SimOn.modify fun _ hs => ⟨rfl, hs⟩) fun _ => SimOn.bind (recordBest_maps hc b) fun _ => recordWorst_maps hc

theorem mainLoop_maps (hc : Cfg.Maps f P c' c) (n gen : Nat) : RMaps f P (mainLoop c' n gen) (mainLoop c n gen) := by
  induction n generalizing gen with
  | zero => exact SimOn.pure rfl
  | succ n ih =>
    unfold mainLoop
    refine SimOn.bind (SimOn.modify fun _ hs => ⟨rfl, hs⟩) fun _ => SimOn.bind (updateGen_maps gen) fun _ => SimOn.get_bind fun s _ => ?_
    refine SimOn.bind (setSeed_maps hc _) fun _ => SimOn.bind (SimOn.modify fun _ hs => ⟨rfl, hs⟩) fun _ => ?_
    refine SimOn.bind (generationIteration_maps hc) fun _ => SimOn.bind (shouldTerminate_maps hc gen) fun stop => ?_
    exact SimOn.ite Iff.rfl (fun _ => SimOn.bind (SimOn.modify fun _ hs => ⟨rfl, hs⟩) fun _ => publish_maps _ _)
      fun _ => SimOn.bind (publish_maps _ _) fun _ => ih _

theorem evolve_maps (hc : Cfg.Maps f P c' c) : RMaps f P (evolve c') (evolve c) := by
  unfold evolve
  refine SimOn.bind (initRun_maps hc) fun _ => SimOn.bind (ρ := id) ?_ fun _ => SimOn.bind (publish_maps _ _) fun _ =>
    SimOn.modify fun _ hs => ⟨rfl, hs⟩
  unfold afterInit
  rw [hc.maxGen]
  refine SimOn.get_bind fun s _ => SimOn.bind (shouldTerminate_maps hc _) fun stop => ?_
  exact SimOn.ite Iff.rfl (fun _ => SimOn.bind (SimOn.modify fun _ hs => ⟨rfl, hs⟩) fun _ => publish_maps _ _)
    fun _ => mainLoop_maps hc _ _

end Verif.Evo
