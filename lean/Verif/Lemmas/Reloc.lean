import Verif.Spec.Reloc

/-! # Everything the library does is independent of addresses and ids -/

namespace Verif.Evo
open PyM
variable {G κ : Type} {J : List (Ind G)} {k : Nat} {size : G → Nat}

/-! ## Individuals -/

@[simp] theorem movedRefs_nil (n : Nat) : movedRefs n [] = [] := rfl
@[simp] theorem movedRefs_cons (n r : Nat) (rs : List Nat) : movedRefs n (r :: rs) = (r + n) :: movedRefs n rs := rfl
@[simp] theorem movedRefs_append (n : Nat) (a b : List Nat) : movedRefs n (a ++ b) = movedRefs n a ++ movedRefs n b := by
  simp [movedRefs]
@[simp] theorem length_movedRefs (n : Nat) (rs : List Nat) : (movedRefs n rs).length = rs.length := by simp [movedRefs]

theorem movedHeap_get (h : List (Ind G)) (r : Nat) :
    (movedHeap J k h)[r + J.length]? = (h[r]?).map (Ind.moved J.length k) := by
  unfold movedHeap
  rw [List.getElem?_append_right (by omega), List.getElem?_map]
  congr 2
  omega

theorem deref_sim (r : Nat) : Sim (World.moved J k) (Ind.moved J.length k) (deref (r + J.length)) (deref r : WM G _) := by
  unfold deref
  refine Sim.get_bind fun w => ?_
  show Sim _ _ (match (movedHeap J k w.heap)[r + J.length]? with | some i => pure i | none => raise .attributeError) _
  rw [movedHeap_get]
  cases w.heap[r]? with
  | none => exact Sim.raise
  | some i => exact Sim.pure rfl

theorem reading_sim {α β : Type} {ρ : α → β} {f' : List (Ind G) → Except Err β} {f : List (Ind G) → Except Err α}
    (h : ∀ hp, f' (movedHeap J k hp) = (f hp).map ρ) : Sim (World.moved J k) ρ (reading f') (reading f) := by
  unfold reading
  exact Sim.get_bind fun w => Sim.ofExcept (h w.heap)

theorem rand_sim {α β : Type} {ρ : α → β} {m' : Rand β} {m : Rand α} (h : Sim id ρ m' m) :
    Sim (World.moved J k) ρ (rand m') (rand m : WM G α) := by
  unfold rand
  exact Sim.zoom h (fun _ => rfl) (fun _ _ => rfl)

theorem rand_self {α : Type} (m : Rand α) : Sim (World.moved J k) id (rand m) (rand m : WM G α) := rand_sim (Sim.refl m)

theorem update_sim {f' f : Ind G → Ind G} (r : Nat) (h : ∀ i, f' (i.moved J.length k) = (f i).moved J.length k) :
    Sim (World.moved J k) id (update (r + J.length) f') (update r f) := by
  unfold update
  refine Sim.modify fun w => ?_
  show World.mk _ _ _ = World.mk _ _ _
  congr 1
  show (movedHeap J k w.heap).modify (r + J.length) f' = movedHeap J k (w.heap.modify r f)
  unfold movedHeap
  apply List.ext_getElem?
  intro n
  by_cases hn : n < J.length
  · rw [List.getElem?_modify, List.getElem?_append_left hn, List.getElem?_append_left hn]
    have : ¬ r + J.length = n := by omega
    simp only [this, if_false]
    cases J[n]? <;> rfl
  · rw [List.getElem?_modify, List.getElem?_append_right (by omega), List.getElem?_append_right (by omega),
      List.getElem?_map, List.getElem?_map, List.getElem?_modify]
    by_cases hr : r + J.length = n
    · have : r = n - J.length := by omega
      simp only [hr, ← this, if_true]
      cases w.heap[r]? with
      | none => simp
      | some i => simp [h]
    · have : ¬ r = n - J.length := by omega
      simp only [hr, this, if_false]
      cases w.heap[n - J.length]? <;> rfl

theorem takeId_sim : Sim (World.moved J k) (· + k) takeId (takeId : WM G Nat) := by
  unfold takeId
  refine Sim.get_bind fun w => Sim.bind (Sim.set ?_) fun _ => Sim.pure rfl
  show World.mk _ _ _ = World.mk _ _ _
  congr 1
  show w.nextId + k + 1 = w.nextId + 1 + k
  omega

theorem alloc_sim (i : Ind G) : Sim (World.moved J k) (· + J.length) (alloc (i.moved J.length k)) (alloc i) := by
  unfold alloc
  refine Sim.get_bind fun w => Sim.bind (Sim.set ?_) fun _ => Sim.pure ?_
  · show World.mk _ _ _ = World.mk _ _ _
    congr 1
    show movedHeap J k w.heap ++ _ = movedHeap J k (w.heap ++ [i])
    simp [movedHeap]
  · show (movedHeap J k w.heap).length = _
    simp [movedHeap, Nat.add_comm]

theorem newInd_sim {fit : Fit} (hf : fit.moved J.length = fit) (g : G) (up : Bool) :
    Sim (World.moved J k) (· + J.length) (newInd g fit up) (newInd g fit up) := by
  unfold newInd
  refine Sim.bind takeId_sim fun i => ?_
  have := alloc_sim (J := J) (k := k) ({ id := i, gen := 0, genome := g, fit := fit, clonedFrom := -1, selectedBy := [], appliedOps := [], updateParents := up, parents := [] } : Ind G)
  simpa [Ind.moved, hf, movedFrom] using this

theorem getstate_moved (n : Nat) (f : Fit) : (f.moved n).getstate = f.getstate.moved n := by
  unfold Fit.getstate
  show (if f.cache then _ else _) = _
  split <;> rfl

theorem clone_sim (r : Nat) : Sim (World.moved J k) (· + J.length) (clone (r + J.length)) (clone r : WM G Nat) := by
  unfold clone
  refine Sim.bind (deref_sim r) fun i => Sim.bind takeId_sim fun n => ?_
  have := alloc_sim (J := J) (k := k) { i with fit := i.fit.getstate, clonedFrom := i.id, parents := (if i.updateParents then [] else i.parents), id := n }
  refine (congrArg (Sim _ _ · _) ?_).mp this
  congr 1
  unfold Ind.moved
  simp only [getstate_moved, movedFrom]
  have h1 : (if (i.id : Int) < 0 then (i.id : Int) else i.id + k) = ((i.id + k : Nat) : Int) := by
    rw [if_neg (by omega)]; simp
  have h2 : (if i.updateParents then [] else i.parents).map (· + k) = if i.updateParents then [] else i.parents.map (· + k) := by
    split <;> simp
  rw [h1, h2]

theorem cloneSelected_sim (name : String) (r : Nat) :
    Sim (World.moved J k) (· + J.length) (cloneSelected name (r + J.length)) (cloneSelected name r : WM G Nat) := by
  unfold cloneSelected
  exact Sim.bind (clone_sim r) fun c => Sim.bind (update_sim c fun _ => rfl) fun _ => Sim.pure rfl

theorem setNotEvaluated_sim (r : Nat) :
    Sim (World.moved J k) id (setNotEvaluated (r + J.length)) (setNotEvaluated r : WM G Unit) := by
  unfold setNotEvaluated
  exact update_sim r fun _ => rfl

theorem setFitness_sim (r : Nat) (v : FVal) :
    Sim (World.moved J k) id (setFitness (r + J.length) (v.moved J.length)) (setFitness r v : WM G Unit) := by
  unfold setFitness
  exact update_sim r fun _ => rfl

/-! ## Fitness -/

theorem augmented_moved (n : Nat) (f : Fit) (z : Nat) : (f.moved n).augmented z = (f.augmented z).map (FVal.moved n) := by
  unfold Fit.augmented Fit.getPure
  obtain ⟨v, ev, hib, rel, ca, bl⟩ := f
  dsimp only [Fit.moved]
  cases ev with
  | false => rfl
  | true =>
    simp only [if_true]
    cases bl with
    | none => rfl
    | some w =>
      dsimp only
      by_cases hw : w = 0
      · simp only [hw, if_true]; rfl
      · simp only [hw, if_false]
        cases v <;> rfl

theorem lt_moved (n : Nat) (a b : FVal) : Fit.lt (a.moved n) (b.moved n) = Fit.lt a b := by cases a <;> cases b <;> rfl

theorem betterThan_moved (n : Nat) (f g : Fit) (z y : Nat) : (f.moved n).betterThan z (g.moved n) y = f.betterThan z g y := by
  unfold Fit.betterThan
  have : Fit.checkComparable (f.moved n) (g.moved n) = Fit.checkComparable f g := rfl
  rw [this, augmented_moved, augmented_moved]
  cases Fit.checkComparable f g with
  | error e => rfl
  | ok _ =>
    cases f.augmented z with
    | error e => rfl
    | ok a =>
      cases g.augmented y with
      | error e => rfl
      | ok b =>
        simp only [Except.map, lt_moved]
        rfl

theorem betterOf_moved (h : List (Ind G)) (r : Nat) (o : Option Nat) :
    betterOf size (movedHeap J k h) (r + J.length) (o.map (· + J.length)) = betterOf size h r o := by
  unfold betterOf
  cases o with
  | none => rfl
  | some o =>
    simp only [Option.map, movedHeap_get]
    cases h[r]? with
    | none => rfl
    | some i =>
      cases h[o]? with
      | none => rfl
      | some j => exact betterThan_moved _ _ _ _ _

theorem except_map_id {α : Type} (r : Except Err α) : r.map id = r := by cases r <;> rfl

theorem betterOf_sim (r : Nat) (o : Option Nat) :
    Sim (World.moved J k) id (reading fun h => betterOf size h (r + J.length) (o.map (· + J.length)))
      (reading fun h => betterOf size h r o : WM G Bool) :=
  reading_sim fun h => by rw [betterOf_moved, except_map_id]

theorem pureOf_moved (h : List (Ind G)) (r : Nat) :
    pureOf (movedHeap J k h) (r + J.length) = (pureOf h r).map (FVal.moved J.length) := by
  unfold pureOf
  rw [movedHeap_get]
  cases h[r]? with
  | none => rfl
  | some i =>
    show Fit.getPure (i.fit.moved J.length) = (Fit.getPure i.fit).map _
    unfold Fit.getPure
    show (if i.fit.evaluated then _ else _) = _
    split <;> rfl

theorem augOf_moved (h : List (Ind G)) (r : Nat) :
    augOf size (movedHeap J k h) (r + J.length) = (augOf size h r).map (FVal.moved J.length) := by
  unfold augOf
  rw [movedHeap_get]
  cases h[r]? with
  | none => rfl
  | some i => exact augmented_moved _ _ _

/-- A reference with its sort key. -/
def movedKey (n : Nat) (p : Nat × FVal) : Nat × FVal := (p.1 + n, p.2.moved n)

theorem keyed_moved (h : List (Ind G)) (rs : List Nat) :
    keyed size (movedHeap J k h) (movedRefs J.length rs) = (keyed size h rs).map (List.map (movedKey J.length)) := by
  induction rs with
  | nil => rfl
  | cons r rs ih =>
    simp only [movedRefs_cons, keyed, augOf_moved, ih]
    cases augOf size h r with
    | error e => rfl
    | ok v => cases keyed size h rs <;> rfl

theorem isNum_moved (n : Nat) (v : FVal) : (v.moved n).isNum = v.isNum := by cases v <;> rfl
theorem toRat_moved (n : Nat) (v : FVal) : (v.moved n).toRat = v.toRat := by cases v <;> rfl

theorem any_moved (n : Nat) (ks : List (Nat × FVal)) :
    ((ks.map (movedKey n)).any fun p => !p.2.isNum) = ks.any fun p => !p.2.isNum := by
  rw [List.any_map]
  congr 1
  funext p
  simp [movedKey, isNum_moved]

theorem sortedByFitness_moved (h : List (Ind G)) (rev : Bool) (rs : List Nat) :
    sortedByFitness size (movedHeap J k h) rev (movedRefs J.length rs) = (sortedByFitness size h rev rs).map (movedRefs J.length) := by
  unfold sortedByFitness
  rw [keyed_moved]
  cases keyed size h rs with
  | error e => rfl
  | ok ks =>
    simp only [Except.map, List.length_map, any_moved]
    split
    · rfl
    · rw [Py.sortBy_map (movedKey J.length) (le := fun a b => if rev then decide (b.2.toRat ≤ a.2.toRat) else decide (a.2.toRat ≤ b.2.toRat))]
      · simp only [List.map_map, movedRefs]
        rfl
      · intro a b
        simp only [movedKey, toRat_moved]

theorem bestIndividual_moved (h : List (Ind G)) (hib : Bool) (rs : List Nat) :
    bestIndividual size (movedHeap J k h) hib (movedRefs J.length rs) = (bestIndividual size h hib rs).map (· + J.length) := by
  unfold bestIndividual
  rw [sortedByFitness_moved]
  cases sortedByFitness size h hib rs with
  | error e => rfl
  | ok l => cases l <;> rfl

theorem worstIndividual_moved (h : List (Ind G)) (hib : Bool) (rs : List Nat) :
    worstIndividual size (movedHeap J k h) hib (movedRefs J.length rs) = (worstIndividual size h hib rs).map (· + J.length) := by
  unfold worstIndividual
  rw [sortedByFitness_moved]
  cases sortedByFitness size h (!hib) rs with
  | error e => rfl
  | ok l => cases l <;> rfl

/-! ## Selection -/

theorem winnerLoop_sim (w : Nat) (ps : List Nat) :
    Sim (World.moved J k) (· + J.length) (winnerLoop size (w + J.length) (movedRefs J.length ps)) (winnerLoop size w ps : WM G Nat) := by
  induction ps generalizing w with
  | nil => exact Sim.pure rfl
  | cons p ps ih =>
    simp only [movedRefs_cons, winnerLoop]
    refine Sim.bind (betterOf_sim p (some w)) fun b => ?_
    have : (if id b = true then p + J.length else w + J.length) = (if b = true then p else w) + J.length := by
      cases b <;> rfl
    rw [this]
    exact ih _

theorem pickWinner_sim (t : List Nat) :
    Sim (World.moved J k) (· + J.length) (pickWinner size (movedRefs J.length t)) (pickWinner size t : WM G Nat) := by
  cases t with
  | nil => exact Sim.raise
  | cons t ts => exact Sim.bind (winnerLoop_sim t ts) fun w => cloneSelected_sim _ w

theorem tournament_uniform (z : Nat) (replace : Bool) : (tournament size z replace : Sel G).Uniform := by
  intro J k source dest
  show Sim _ _ (tournamentSelect _ _ _ _ _) (tournamentSelect _ _ _ _ _)
  unfold tournamentSelect
  simp only [length_movedRefs]
  refine Sim.ite Iff.rfl (fun _ => Sim.raise) fun _ => ?_
  refine Sim.bind (ρ := List.map (movedRefs J.length)) (rand_sim (Sim.replicateM ?_ _)) fun tours => ?_
  · cases replace
    · exact Rand.sample_sim _ _ _
    · exact Rand.choices_sim _ _ _
  · exact Sim.bind (Sim.mapL tours fun t _ => pickWinner_sim t) fun ws => Sim.pure (movedRefs_append _ _ _).symm

theorem elitismSelect_sim (n : Int) (hib : Bool) (source dest : List Nat) :
    Sim (World.moved J k) (movedRefs J.length) (elitismSelect size n hib (movedRefs J.length source) (movedRefs J.length dest))
      (elitismSelect size n hib source dest : WM G _) := by
  unfold elitismSelect
  refine Sim.bind (reading_sim fun h => sortedByFitness_moved h hib source) fun sorted => ?_
  rw [movedRefs, Py.slice_map]
  exact Sim.bind (Sim.mapL _ fun r _ => cloneSelected_sim _ r) fun cs => Sim.pure (movedRefs_append _ _ _).symm

theorem elitism_uniform (n : Int) (hib : Bool) : (elitism size n hib : Sel G).Uniform :=
  fun _ _ source dest => elitismSelect_sim n hib source dest

theorem fitnessProportionate_uniform (hib : Bool) : (fitnessProportionate size hib : Sel G).Uniform := by
  intro J k source dest
  show Sim _ _ (fpSelect _ _ _ _) (fpSelect _ _ _ _)
  unfold fpSelect
  simp only [length_movedRefs]
  refine Sim.bind (ρ := id) (reading_sim fun h => ?_) fun scores => ?_
  · unfold scoresOf
    rw [keyed_moved]
    cases keyed size h source with
    | error e => rfl
    | ok ks =>
      simp only [Except.map, any_moved, List.map_map]
      split
      · rfl
      · simp only [id, Function.comp_def, movedKey, toRat_moved]
  refine Sim.bind (ρ := id) (Sim.ofExcept (except_map_id _).symm) fun p => ?_
  refine Sim.bind (ρ := id) (Sim.ofExcept (except_map_id _).symm) fun _ => ?_
  refine Sim.bind (rand_self _) fun ks => ?_
  have := Sim.mapL (L := World.moved J k) (ρ := (· + J.length)) (ζ := id) (f' := cloneAt (movedRefs J.length source))
    (f := cloneAt source) ks (fun x _ => by
      unfold cloneAt
      rw [movedRefs, List.getElem?_map]
      dsimp only [id]
      cases source[x]? with
      | none => exact Sim.raise
      | some r => exact cloneSelected_sim _ r)
  rw [List.map_id] at this
  exact Sim.bind this fun cs => Sim.pure (movedRefs_append _ _ _).symm

/-! ## Operators -/

theorem zip_moved {α : Type} (n : Nat) (rs : List Nat) (xs : List α) :
    (movedRefs n rs).zip xs = (rs.zip xs).map fun p => (p.1 + n, p.2) := by
  unfold movedRefs
  rw [List.zip_map_left]
  rfl

theorem inPlace_uniform (name : String) (pr : ℚ) (ar : Nat) (f : List G → Rand (Option (List G))) :
    (Op.inPlace name pr ar f).Uniform := by
  intro J k refs
  unfold Op.inPlace
  dsimp only
  refine Sim.bind (ρ := id) ?_ fun gs => Sim.bind (rand_self _) fun r => ?_
  · have := Sim.mapL (L := World.moved J k) (ρ := id) (ζ := (· + J.length))
      (f' := fun r => do let i ← deref r; pure i.genome) (f := fun r => do let i ← (deref r : WM G _); pure i.genome) refs
      (fun r _ => Sim.bind (deref_sim r) fun i => Sim.pure rfl)
    rw [List.map_id_fun] at this
    exact this
  · dsimp only [id]
    cases r with
    | none => exact Sim.pure rfl
    | some gs' =>
      refine Sim.bind (ρ := id) ?_ fun _ => Sim.pure rfl
      unfold putGenomes
      rw [zip_moved]
      exact Sim.forL _ fun p _ => update_sim p.1 fun _ => rfl

theorem record_moved (n : Nat) (name : String) (ids : List Nat) (i : Ind G) :
    record name (ids.map (· + k)) (i.moved n k) = (record name ids i).moved n k := by
  unfold record Ind.moved
  congr 1
  dsimp only
  split <;> simp

theorem applyOperator_sim {o : Op G} (ho : o.Uniform) (inds : List Nat) :
    Sim (World.moved J k) (movedRefs J.length) (applyOperator o (movedRefs J.length inds)) (applyOperator o inds) := by
  unfold applyOperator
  refine Sim.bind (rand_self _) fun u => Sim.ite Iff.rfl (fun _ => ?_) fun _ => Sim.pure rfl
  refine Sim.bind (Sim.forL inds fun r _ => setNotEvaluated_sim r) fun _ => Sim.bind (ho J k inds) fun r => ?_
  cases r with
  | none => exact Sim.raise
  | some res =>
    refine Sim.bind (Sim.mapL (ρ := (· + k)) inds fun r _ => Sim.bind (deref_sim r) fun i => Sim.pure rfl) fun ids => ?_
    exact Sim.bind (Sim.forL res fun r _ => update_sim r fun i => record_moved _ _ _ _) fun _ => Sim.pure rfl

theorem withFallback_uniform (name : String) (pr : ℚ) (ar : Nat) (f : List G → Rand (Bool × List G)) {inner : Op G}
    (hi : inner.Uniform) : (Op.withFallback name pr ar f inner).Uniform := by
  intro J k refs
  unfold Op.withFallback
  dsimp only
  refine Sim.bind (ρ := id) ?_ fun gs => Sim.bind (rand_self _) fun r => ?_
  · have := Sim.mapL (L := World.moved J k) (ρ := id) (ζ := (· + J.length))
      (f' := fun r => do let i ← deref r; pure i.genome) (f := fun r => do let i ← (deref r : WM G _); pure i.genome) refs
      (fun r _ => Sim.bind (deref_sim r) fun i => Sim.pure rfl)
    rw [List.map_id_fun] at this
    exact this
  · obtain ⟨b, gs'⟩ := r
    refine Sim.bind (ρ := id) ?_ fun _ => ?_
    · unfold putGenomes
      rw [zip_moved]
      exact Sim.forL _ fun p _ => update_sim p.1 fun _ => rfl
    · cases b with
      | true => exact Sim.pure rfl
      | false => exact Sim.bind (applyOperator_sim hi refs) fun l => Sim.pure rfl

/-! ## Creation -/

theorem createIndividuals_uniform (empty : G) (genome : Rand G) {fit : Bool → Fit} (up : Bool)
    (hf : ∀ b, (fit b).value = .none) : CreatorUniform (createIndividuals empty genome fit up) := by
  intro J k n hib
  unfold createIndividuals
  have h1 : (fit hib).moved J.length = fit hib := by
    unfold Fit.moved
    rw [hf]
    have := hf hib
    rcases hfit : fit hib with ⟨v, a, b, c, d, e⟩
    rw [hfit] at this
    simp only at this
    subst this
    rfl
  have := Sim.mapL (L := World.moved J k) (ρ := (· + J.length)) (ζ := id)
    (f' := fun (_ : Nat) => newInd empty (fit hib) up) (f := fun (_ : Nat) => newInd empty (fit hib) up) (List.range n)
    (fun _ _ => newInd_sim h1 empty up)
  rw [List.map_id] at this
  refine Sim.bind this fun refs => Sim.bind (Sim.forL refs fun r _ => ?_) fun _ => Sim.pure rfl
  exact Sim.bind (rand_self _) fun g => update_sim r fun _ => rfl

theorem halfCreate_uniform {grow full : Nat → Nat → Bool → WM G (List Nat)} (hg : ∀ d, CreatorUniform (grow d))
    (hf : ∀ d, CreatorUniform (full d)) (minDepth depths : Nat) : CreatorUniform (halfCreate grow full minDepth depths) := by
  intro J k n hib
  unfold halfCreate
  refine Sim.ite Iff.rfl (fun _ => Sim.raise) fun _ => ?_
  refine Sim.bind (ρ := movedRefs J.length) ?_ fun inds => ?_
  · generalize (List.range depths).map (minDepth + ·) = ds
    induction ds with
    | nil => exact Sim.pure rfl
    | cons d ds ih =>
      exact Sim.bind (hg d J k _ hib) fun a => Sim.bind (hf d J k _ hib) fun b => Sim.bind ih fun c =>
        Sim.pure (by simp)
  · simp only [length_movedRefs]
    refine Sim.ite Iff.rfl (fun _ => ?_) fun _ => Sim.pure rfl
    exact Sim.bind (hf _ J k _ hib) fun a => Sim.pure (by simp)

theorem createSub_sim {c : SubCfg G} (hc : ∀ create ∈ c.creators, CreatorUniform create) (is : Option (List Nat)) :
    Sim (World.moved J k) (Option.map (movedRefs J.length)) (createSub c (is.map (movedRefs J.length))) (createSub c is) := by
  cases is with
  | some is => exact Sim.pure rfl
  | none =>
    show Sim _ _ (createSub c none) (createSub c none)
    unfold createSub
    refine Sim.bind (rand_self _) fun n => ?_
    dsimp only [id]
    cases h : c.creators[n]? with
    | none => exact Sim.raise
    | some create => exact Sim.bind (hc create (List.mem_of_getElem? h) J k _ _) fun is => Sim.pure rfl

/-! ## Breeding -/

theorem applyChunks_sim {o : Op G} (ho : o.Uniform) (starts inds : List Nat) :
    Sim (World.moved J k) (movedRefs J.length) (applyChunks o starts (movedRefs J.length inds)) (applyChunks o starts inds) := by
  induction starts generalizing inds with
  | nil => exact Sim.pure rfl
  | cons i is ih =>
    unfold applyChunks
    have e : Py.slice (movedRefs J.length inds) i ((i + o.arity : Nat) : Int) =
        movedRefs J.length (Py.slice inds i ((i + o.arity : Nat) : Int)) := Py.slice_map _ _ _ _
    rw [e]
    refine Sim.bind (applyOperator_sim ho _) fun res => ?_
    have e2 : Py.setSlice (movedRefs J.length inds) i ((i + o.arity : Nat) : Int) (movedRefs J.length res) =
        movedRefs J.length (Py.setSlice inds i ((i + o.arity : Nat) : Int) res) := Py.setSlice_map _ _ _ _ _
    rw [e2]
    exact ih _

theorem applyOperators_sim {ops : List (Op G)} (ho : ∀ o ∈ ops, o.Uniform) (inds : List Nat) :
    Sim (World.moved J k) (movedRefs J.length) (applyOperators ops (movedRefs J.length inds)) (applyOperators ops inds) := by
  induction ops generalizing inds with
  | nil => exact Sim.pure rfl
  | cons o os ih =>
    unfold applyOperators
    simp only [length_movedRefs]
    exact Sim.ite Iff.rfl (fun _ => Sim.raise) fun _ => Sim.bind (applyChunks_sim (ho o (by simp)) _ _) fun is =>
      ih (fun o h => ho o (by simp [h])) is

theorem checkArities_sim {σ τ : Type} {L : σ → τ} (n : Nat) (as : List Nat) :
    Sim L id (checkArities n as) (checkArities n as) := by
  induction as with
  | nil => exact Sim.pure rfl
  | cons a as ih =>
    exact Sim.ite Iff.rfl (fun _ => Sim.raise) fun _ => Sim.ite Iff.rfl (fun _ => Sim.raise) fun _ => ih

theorem breedSub_sim {c : SubCfg G} (ho : ∀ o ∈ c.ops, o.Uniform) (hs : ∀ sel ∈ c.sels, sel.Uniform) (inds : List Nat) :
    Sim (World.moved J k) (movedRefs J.length) (breedSub size c (movedRefs J.length inds)) (breedSub size c inds) := by
  unfold breedSub
  refine Sim.bind (checkArities_sim _ _) fun _ => Sim.bind (ρ := movedRefs J.length) ?_ fun sel => applyOperators_sim ho sel
  unfold selectStage
  refine Sim.bind (ρ := movedRefs J.length) ?_ fun next => ?_
  · unfold eliteStage
    exact Sim.ite Iff.rfl (fun _ => elitismSelect_sim _ _ _ []) fun _ => Sim.pure rfl
  · cases h : c.sels with
    | nil => exact Sim.raise
    | cons s ss => exact hs s (by simp [h]) J k inds next

theorem breedAll_sim (l : List (SubCfg G × Option (List Nat))) (ho : ∀ p ∈ l, ∀ o ∈ p.1.ops, o.Uniform)
    (hs : ∀ p ∈ l, ∀ sel ∈ p.1.sels, sel.Uniform) :
    Sim (World.moved J k) (movedInds J.length) (breedAll size (l.map fun p => (p.1, p.2.map (movedRefs J.length))))
      (breedAll size l) := by
  induction l with
  | nil => exact Sim.pure rfl
  | cons p l ih =>
    obtain ⟨c, is⟩ := p
    cases is with
    | none => exact Sim.raise
    | some is =>
      exact Sim.bind (breedSub_sim (ho _ List.mem_cons_self) (hs _ List.mem_cons_self) is) fun is' =>
        Sim.bind (ih (fun p h => ho p (by simp [h])) fun p h => hs p (by simp [h])) fun rest => Sim.pure rfl

/-! ## Evaluation -/

theorem executorMap_sim {α β : Type} {ρ : α → β} {order : List Nat} {task' : Nat → WM G β} {task : Nat → WM G α}
    (ht : ∀ r, Sim (World.moved J k) ρ (task' (r + J.length)) (task r)) (refs : List Nat) :
    Sim (World.moved J k) (List.map ρ) (executorMap order task' (movedRefs J.length refs)) (executorMap order task refs) := by
  unfold executorMap
  have h1 := Sim.mapL (L := World.moved J k) (ρ := fun p : Nat × α => (p.1, ρ p.2)) (ζ := id)
    (f' := runTask task' (movedRefs J.length refs)) (f := runTask task refs) order (fun i _ => by
      unfold runTask
      rw [movedRefs, List.getElem?_map]
      dsimp only [id]
      cases refs[i]? with
      | none => exact Sim.raise
      | some r => exact Sim.bind (ht r) fun v => Sim.pure rfl)
  rw [List.map_id] at h1
  refine Sim.bind h1 fun rs => ?_
  rw [length_movedRefs]
  have h2 := Sim.mapL (L := World.moved J k) (ρ := ρ) (ζ := id)
    (f' := lookupResult (rs.map fun p => (p.1, ρ p.2))) (f := lookupResult rs) (List.range refs.length) (fun i _ => by
      unfold lookupResult
      rw [List.find?_map]
      dsimp only [id]
      have : ((fun p : Nat × β => p.1 == i) ∘ fun p : Nat × α => (p.1, ρ p.2)) = fun p => p.1 == i := rfl
      rw [this]
      cases rs.find? (fun p => p.1 == i) with
      | none => exact Sim.raise
      | some p => exact Sim.pure rfl)
  rwa [List.map_id] at h2

theorem bestLoop_sim (b : Nat) (is : List Nat) :
    Sim (World.moved J k) (· + J.length) (bestLoop size (b + J.length) (movedRefs J.length is)) (bestLoop size b is : WM G Nat) := by
  induction is generalizing b with
  | nil => exact Sim.pure rfl
  | cons p ps ih =>
    simp only [movedRefs_cons, bestLoop]
    refine Sim.bind (betterOf_sim p (some b)) fun v => ?_
    have : (if id v = true then p + J.length else b + J.length) = (if v = true then p else b) + J.length := by
      cases v <;> rfl
    rw [this]
    exact ih _

theorem bestOfList_sim (is : List Nat) :
    Sim (World.moved J k) (· + J.length)
      (match movedRefs J.length is with | [] => raise .indexError | b :: rest => bestLoop size b rest)
      (match is with | [] => raise .indexError | b :: rest => bestLoop size b rest : WM G Nat) := by
  cases is with
  | nil => exact Sim.raise
  | cons b rest => exact bestLoop_sim b rest

theorem runEval_sim (c : SubCfg G) (r : Nat) : Sim (World.moved J k) id (runEval c (r + J.length)) (runEval c r) := by
  unfold runEval
  exact Sim.bind (deref_sim r) fun i => rand_self _

theorem evaluateMap_sim (c : SubCfg G) (order is : List Nat) :
    Sim (World.moved J k) (· + J.length) (evaluateMap size c order (movedRefs J.length is)) (evaluateMap size c order is) := by
  unfold evaluateMap
  have h := executorMap_sim (ρ := id) (order := order) (fun r => runEval_sim (J := J) (k := k) c r) is
  refine Sim.bind h fun scores => ?_
  rw [List.map_id, zip_moved]
  exact Sim.bind (Sim.forL _ fun p _ => setFitness_sim p.1 (.num p.2)) fun _ => bestOfList_sim is

theorem evaluateSubmit_sim (c : SubCfg G) (order is : List Nat) :
    Sim (World.moved J k) (· + J.length) (evaluateSubmit size c order (movedRefs J.length is)) (evaluateSubmit size c order is) := by
  unfold evaluateSubmit
  refine Sim.bind (executorMap_sim (ρ := (· + J.length)) (fun r => ?_) is) fun res => ?_
  · exact Sim.bind (runEval_sim c r) fun v => Sim.bind (setFitness_sim r (.num v)) fun _ => Sim.pure rfl
  · have : (movedRefs J.length is).zip (res.map (· + J.length)) = (is.zip res).map fun p => (p.1 + J.length, p.2 + J.length) := by
      unfold movedRefs
      rw [List.zip_map]
      rfl
    rw [this]
    exact Sim.bind (Sim.forL _ fun p _ => setFitness_sim p.1 (.obj p.2)) fun _ => bestOfList_sim is

/-! ## The algorithm -/

variable {φ : κ → κ}

theorem world_sim {α β : Type} {ρ : α → β} {m' : WM G β} {m : WM G α} (h : Sim (World.moved J k) ρ m' m) :
    Sim (Run.moved J k φ) ρ (world m') (world m) := by
  unfold world
  exact Sim.zoom h (fun _ => rfl) (fun _ _ => rfl)

theorem publish_sim (p n : String) : Sim (Run.moved J k φ) id (publish p n) (publish p n) := by
  unfold publish
  refine Sim.modify fun s => ?_
  show Run.mk _ _ _ _ _ _ _ _ _ _ _ _ = Run.mk _ _ _ _ _ _ _ _ _ _ _ _
  congr 1
  show s.log.map _ ++ _ = (s.log ++ _).map _
  rw [List.map_append]
  rfl

theorem act_sim {α β : Type} {ρ : α → β} {m' : RM G κ β} {m : RM G κ α} (p : String) (h : Sim (Run.moved J k φ) ρ m' m) :
    Sim (Run.moved J k φ) ρ (act p m') (act p m) :=
  Sim.bind (publish_sim _ _) fun _ => Sim.bind h fun _ => Sim.bind (publish_sim _ _) fun _ => Sim.pure rfl

theorem setSeed_sim (c : Cfg G κ) (seed : Nat) : Sim (Run.moved J k φ) id (setSeed c seed) (setSeed c seed) :=
  Sim.modify fun _ => rfl

theorem zip_movedInds {α : Type} (l : List α) (n : Nat) (is : List (Option (List Nat))) :
    l.zip (movedInds n is) = (l.zip is).map fun p => (p.1, p.2.map (movedRefs n)) := by
  unfold movedInds
  rw [List.zip_map_right]
  rfl

variable {c : Cfg G κ} {ψ : Nat → Nat → κ → κ}

theorem createPopulation_sim (hc : c.Uniform ψ) : Sim (Run.moved J k φ) id (createPopulation c) (createPopulation c) := by
  unfold createPopulation
  refine Sim.get_bind fun s => Sim.bind (ρ := movedInds J.length) (world_sim ?_) fun is => Sim.modify fun _ => rfl
  show Sim _ _ (mapL _ (c.subs.zip (movedInds J.length s.inds))) _
  rw [zip_movedInds]
  refine Sim.mapL _ fun p hp => createSub_sim (hc.creators p.1 ?_) p.2
  obtain ⟨a, b⟩ := p
  exact (List.of_mem_zip hp).1

theorem evaluateBody_sim : Sim (Run.moved J k φ) (· + J.length) (evaluateBody c) (evaluateBody c) := by
  unfold evaluateBody
  refine Sim.get_bind fun s => ?_
  show Sim _ _ (match c.subs, movedInds J.length s.inds with | [sub], [some is] => _ | [_], [none] => _ | _, _ => _) _
  rcases hs : c.subs with _ | ⟨sub, _ | ⟨sub2, rest⟩⟩
  · exact Sim.raise
  · rcases hi : s.inds with _ | ⟨_ | is, _ | ⟨i2, irest⟩⟩
    · exact Sim.raise
    · exact Sim.raise
    · exact Sim.raise
    · show Sim _ _ (if s.shutdown && !(movedRefs J.length is).isEmpty then _ else _) _
      have : (movedRefs J.length is).isEmpty = is.isEmpty := by cases is <;> rfl
      rw [this]
      refine Sim.ite Iff.rfl (fun _ => Sim.raise) fun _ => world_sim ?_
      show Sim _ _ (if c.submit then evaluateSubmit c.size sub (c.sched s.genNum (movedRefs J.length is).length) (movedRefs J.length is)
        else evaluateMap c.size sub (c.sched s.genNum (movedRefs J.length is).length) (movedRefs J.length is)) _
      rw [length_movedRefs]
      exact Sim.ite Iff.rfl (fun _ => evaluateSubmit_sim _ _ _) fun _ => evaluateMap_sim _ _ _
    · exact Sim.raise
  · exact Sim.raise

theorem evaluatePopulation_sim : Sim (Run.moved J k φ) (· + J.length) (evaluatePopulation c) (evaluatePopulation c) :=
  act_sim _ evaluateBody_sim

theorem breed_sim (hc : c.Uniform ψ) : Sim (Run.moved J k φ) id (breed c) (breed c) := by
  unfold breed
  refine act_sim _ ?_
  unfold breedBody
  refine Sim.get_bind fun s => Sim.bind (ρ := movedInds J.length) (world_sim ?_) fun is => Sim.modify fun _ => rfl
  show Sim _ _ (breedAll c.size (c.subs.zip (movedInds J.length s.inds))) _
  rw [zip_movedInds]
  exact breedAll_sim _ (fun p hp => hc.ops p.1 (List.of_mem_zip hp).1) fun p hp => hc.sels p.1 (List.of_mem_zip hp).1

theorem initRun_sim (hc : c.Uniform ψ) : Sim (Run.moved J k φ) id (initRun c) (initRun c) := by
  unfold initRun
  exact Sim.get_bind fun s => Sim.bind (setSeed_sim c _) fun _ => Sim.bind (createPopulation_sim hc) fun _ =>
    Sim.bind evaluatePopulation_sim fun b => Sim.bind (Sim.modify fun _ => rfl) fun _ => publish_sim _ _

theorem consult_moved (ts : List (Checker G κ)) (ht : ∀ t ∈ ts, CheckerUniform ψ t) (ks : List κ) (heap : List (Ind G))
    (inds : List (Option (List Nat))) (best : Option Nat) (gen : Nat) :
    consult (movedHeap J k heap) (movedInds J.length inds) (best.map (· + J.length)) gen ts (ks.map (ψ J.length k)) =
      ((consult heap inds best gen ts ks).1, (consult heap inds best gen ts ks).2.map (ψ J.length k)) := by
  induction ts generalizing ks with
  | nil => rfl
  | cons t ts ih =>
    cases ks with
    | nil => rfl
    | cons x ks =>
      have h1 := ht t (by simp) J k x heap inds best gen
      have h2 := ih (fun t h => ht t (by simp [h])) ks
      simp only [List.map_cons, consult, h1, h2]
      rcases t x heap inds best gen with ⟨r, x'⟩
      cases r with
      | error e => rfl
      | ok b =>
        rcases consult heap inds best gen ts ks with ⟨r2, ks'⟩
        cases r2 <;> rfl

theorem shouldTerminate_sim (hc : c.Uniform ψ) (gen : Nat) :
    Sim (Run.moved J k (ψ J.length k)) id (shouldTerminate c gen) (shouldTerminate c gen) := by
  rintro ⟨w, inds, b1, b2, b3, gn, rs, gs, fg, cks, sd, log⟩
  have hk := hc.checkers
  unfold shouldTerminate
  cases h : c.checker with
  | none => rfl
  | one t =>
    rw [h] at hk
    cases cks with
    | nil => rfl
    | cons x ks =>
      have := hk J k x w.heap inds b1 gen
      simp only [Run.moved, List.map_cons]
      rw [show (World.moved J k w).heap = movedHeap J k w.heap from rfl, this]
      rcases t x w.heap inds b1 gen with ⟨r, x'⟩
      dsimp only
      rw [except_map_id]
  | many ts =>
    rw [h] at hk
    dsimp only [Run.moved]
    rw [show (World.moved J k w).heap = movedHeap J k w.heap from rfl, consult_moved ts hk]
    rcases consult w.heap inds b1 gen ts cks with ⟨r, ks⟩
    cases r <;> rfl

theorem updateGen_sim (gen : Nat) : Sim (Run.moved J k φ) id (updateGen gen) (updateGen gen : RM G κ Unit) := by
  unfold updateGen
  refine Sim.get_bind fun s => Sim.forL s.inds fun is _ => ?_
  cases is with
  | none => exact Sim.raise
  | some is => exact world_sim (Sim.forL is fun r _ => update_sim r fun _ => rfl)

theorem recordBest_sim (b : Nat) : Sim (Run.moved J k φ) id (recordBest c (b + J.length)) (recordBest c b) := by
  unfold recordBest
  refine Sim.get_bind fun s => Sim.bind (world_sim (betterOf_sim b s.bestOfRun)) fun v => ?_
  exact Sim.ite Iff.rfl (fun _ => Sim.modify fun _ => rfl) fun _ => Sim.pure rfl

theorem recordWorst_sim : Sim (Run.moved J k φ) id (recordWorst c) (recordWorst c) := by
  unfold recordWorst
  refine Sim.get_bind fun s => ?_
  show Sim _ _ (match c.subs, movedInds J.length s.inds with | sub :: _, some is :: _ => _ | _, _ => _) _
  rcases hs : c.subs with _ | ⟨sub, rest⟩
  · exact Sim.raise
  · rcases hi : s.inds with _ | ⟨_ | is, irest⟩
    · exact Sim.raise
    · exact Sim.raise
    · exact Sim.bind (world_sim (reading_sim fun h => worstIndividual_moved h _ is)) fun w => Sim.modify fun _ => rfl

theorem generationIteration_sim (hc : c.Uniform ψ) : Sim (Run.moved J k φ) id (generationIteration c) (generationIteration c) := by
  unfold generationIteration
  exact Sim.bind (breed_sim hc) fun _ => Sim.bind evaluatePopulation_sim fun b => Sim.bind (Sim.modify fun _ => rfl) fun _ =>
    Sim.bind (recordBest_sim b) fun _ => recordWorst_sim

theorem mainLoop_sim (hc : c.Uniform ψ) (n gen : Nat) :
    Sim (Run.moved J k (ψ J.length k)) id (mainLoop c n gen) (mainLoop c n gen) := by
  induction n generalizing gen with
  | zero => exact Sim.pure rfl
  | succ n ih =>
    unfold mainLoop
    refine Sim.bind (Sim.modify fun _ => rfl) fun _ => Sim.bind (updateGen_sim gen) fun _ => Sim.get_bind fun s => ?_
    refine Sim.bind (setSeed_sim c _) fun _ => Sim.bind (Sim.modify fun _ => rfl) fun _ => ?_
    refine Sim.bind (generationIteration_sim hc) fun _ => Sim.bind (shouldTerminate_sim hc gen) fun stop => ?_
    exact Sim.ite Iff.rfl (fun _ => Sim.bind (Sim.modify fun _ => rfl) fun _ => publish_sim _ _)
      fun _ => Sim.bind (publish_sim _ _) fun _ => ih _

theorem evolve_sim (hc : c.Uniform ψ) : Sim (Run.moved J k (ψ J.length k)) id (evolve c) (evolve c) := by
  unfold evolve
  refine Sim.bind (initRun_sim hc) fun _ => Sim.bind (ρ := id) ?_ fun _ => Sim.bind (publish_sim _ _) fun _ => Sim.modify fun _ => rfl
  unfold afterInit
  refine Sim.get_bind fun s => Sim.bind (shouldTerminate_sim hc _) fun stop => ?_
  exact Sim.ite Iff.rfl (fun _ => Sim.bind (Sim.modify fun _ => rfl) fun _ => publish_sim _ _) fun _ => mainLoop_sim hc _ _

/-! ## The checkers of the library -/

theorem threshold_uniform (optimal thr : ℚ) : CheckerUniform (fun _ _ => id) (threshold optimal thr : Checker G Unit) := by
  intro J k x heap inds best gen
  unfold threshold
  cases best with
  | none => rfl
  | some r =>
    simp only [Option.map, pureOf_moved]
    cases pureOf heap r with
    | error e => rfl
    | ok v => cases v <;> rfl

/-- The fitness values kept by the stagnation checker. -/
def Stag.moved (n : Nat) (k : Stag) : Stag := ⟨k.bestFitnesses.map (List.map (FVal.moved n)), k.generations⟩

theorem bestFitnesses_moved (heap : List (Ind G)) (hibs : List Bool) (inds : List (Option (List Nat))) :
    bestFitnesses size (movedHeap J k heap) hibs (movedInds J.length inds) =
      (bestFitnesses size heap hibs inds).map (List.map (FVal.moved J.length)) := by
  induction hibs generalizing inds with
  | nil =>
    cases inds with
    | nil => rfl
    | cons i is => rfl
  | cons h hs ih =>
    rcases inds with _ | ⟨_ | is, iss⟩
    · rfl
    · rfl
    · show bestFitnesses size (movedHeap J k heap) (h :: hs) (some (movedRefs J.length is) :: movedInds J.length iss) = _
      simp only [bestFitnesses, bestIndividual_moved, ih]
      cases bestIndividual size heap h is with
      | error e => rfl
      | ok r =>
        simp only [Except.map, pureOf_moved]
        cases pureOf heap r with
        | error e => rfl
        | ok v =>
          cases bestFitnesses size heap hs iss <;> rfl

theorem allClose_moved (n : Nat) (as bs : List FVal) :
    allClose (as.map (FVal.moved n)) (bs.map (FVal.moved n)) = allClose as bs := by
  induction as generalizing bs with
  | nil => cases bs <;> rfl
  | cons a as ih =>
    cases bs with
    | nil => rfl
    | cons b bs =>
      have : isclose (a.moved n) (b.moved n) = isclose a b := by cases a <;> cases b <;> rfl
      simp only [List.map_cons, allClose, this, ih]

theorem stagnation_uniform (hibs : List Bool) (n : Int) :
    CheckerUniform (fun m _ => Stag.moved m) (stagnation size hibs n : Checker G Stag) := by
  intro J k x heap inds best gen
  unfold stagnation
  simp only [bestFitnesses_moved]
  cases bestFitnesses size heap hibs inds with
  | error e => rfl
  | ok vs =>
    simp only [Except.map]
    unfold stagStep
    rcases x with ⟨_ | ⟨_ | ⟨w, ws⟩⟩, g⟩
    · rfl
    · rfl
    · simp only [Stag.moved, Option.map, List.map_cons]
      have := allClose_moved J.length vs (w :: ws)
      rw [List.map_cons] at this
      rw [this]
      cases allClose vs (w :: ws) with
      | error e => rfl
      | ok b => cases b <;> rfl

end Verif.Evo
