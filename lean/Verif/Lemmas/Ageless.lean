import Verif.Lemmas.Reloc

/-! # Nothing the library does depends on the `gen` attribute of individuals -/

namespace Verif.Evo
open PyM
variable {G κ : Type} {size : G → Nat}

/-- The individual with its generation number erased. -/
def Ind.ungen (i : Ind G) : Ind G := { i with gen := 0 }

/-- The world with all generation numbers erased. -/
def World.ungen (w : World G) : World G := ⟨w.heap.map Ind.ungen, w.nextId, w.tape⟩

/-- The computation neither reads generation numbers nor lets anything else depend on them. -/
abbrev Ageless {α : Type} (m : WM G α) : Prop := Sim World.ungen id m m

/-- The operator does not. -/
def Op.Ageless (o : Op G) : Prop := ∀ refs, Evo.Ageless (o.apply refs)

/-- The selection method does not. -/
def Sel.Ageless (s : Sel G) : Prop := ∀ source dest, Evo.Ageless (s.select source dest)

theorem ungen_get (h : List (Ind G)) (r : Nat) : (h.map Ind.ungen)[r]? = (h[r]?).map Ind.ungen := by simp

theorem deref_ageless (r : Nat) : Sim World.ungen Ind.ungen (deref r) (deref r : WM G _) := by
  unfold deref
  refine Sim.get_bind fun w => ?_
  show Sim _ _ (match (w.heap.map Ind.ungen)[r]? with | some i => pure i | none => raise .attributeError) _
  rw [ungen_get]
  cases w.heap[r]? with
  | none => exact Sim.raise
  | some i => exact Sim.pure rfl

theorem reading_ageless {α : Type} {f : List (Ind G) → Except Err α} (h : ∀ hp, f (hp.map Ind.ungen) = f hp) :
    Ageless (reading f) := by
  unfold reading
  exact Sim.get_bind fun w => Sim.ofExcept (by rw [except_map_id]; exact h w.heap)

theorem rand_ageless {α : Type} (m : Rand α) : Ageless (rand m : WM G α) := by
  unfold rand
  exact Sim.zoom (Sim.refl m) (fun _ => rfl) (fun _ _ => rfl)

theorem update_ageless {f : Ind G → Ind G} (r : Nat) (h : ∀ i, f i.ungen = (f i).ungen) : Ageless (update r f) := by
  unfold update
  refine Sim.modify fun w => ?_
  show World.mk _ _ _ = World.mk _ _ _
  congr 1
  show (w.heap.map Ind.ungen).modify r f = (w.heap.modify r f).map Ind.ungen
  apply List.ext_getElem?
  intro n
  rw [List.getElem?_modify, ungen_get, ungen_get, List.getElem?_modify]
  cases w.heap[n]? with
  | none => rfl
  | some i => by_cases hr : r = n <;> simp [hr, h]

theorem takeId_ageless : Ageless (takeId : WM G Nat) := by
  unfold takeId
  exact Sim.get_bind fun w => Sim.bind (Sim.set rfl) fun _ => Sim.pure rfl

theorem clone_ageless (r : Nat) : Ageless (clone r : WM G Nat) := by
  unfold clone
  refine Sim.bind (deref_ageless r) fun i => Sim.bind takeId_ageless fun n => ?_
  unfold alloc
  refine Sim.get_bind fun w => Sim.bind (Sim.set ?_) fun _ => Sim.pure ?_
  · show World.mk _ _ _ = World.mk _ _ _
    congr 1
    simp [World.ungen, Ind.ungen]
    rfl
  · show (w.heap.map Ind.ungen).length = _
    simp

theorem cloneSelected_ageless (name : String) (r : Nat) : Ageless (cloneSelected name r : WM G Nat) := by
  unfold cloneSelected
  exact Sim.bind (clone_ageless r) fun c => Sim.bind (update_ageless c fun _ => rfl) fun _ => Sim.pure rfl

theorem betterOf_ungen (h : List (Ind G)) (r : Nat) (o : Option Nat) :
    betterOf size (h.map Ind.ungen) r o = betterOf size h r o := by
  unfold betterOf
  cases o with
  | none => rfl
  | some o =>
    simp only [ungen_get]
    cases h[r]? with
    | none => rfl
    | some i => cases h[o]? <;> rfl

theorem augOf_ungen (h : List (Ind G)) (r : Nat) : augOf size (h.map Ind.ungen) r = augOf size h r := by
  unfold augOf
  rw [ungen_get]
  cases h[r]? <;> rfl

theorem keyed_ungen (h : List (Ind G)) (rs : List Nat) : keyed size (h.map Ind.ungen) rs = keyed size h rs := by
  induction rs with
  | nil => rfl
  | cons r rs ih => simp only [keyed, augOf_ungen, ih]

theorem sortedByFitness_ungen (h : List (Ind G)) (rev : Bool) (rs : List Nat) :
    sortedByFitness size (h.map Ind.ungen) rev rs = sortedByFitness size h rev rs := by
  unfold sortedByFitness
  rw [keyed_ungen]

theorem winnerLoop_ageless (w : Nat) (ps : List Nat) : Ageless (winnerLoop size w ps : WM G Nat) := by
  induction ps generalizing w with
  | nil => exact Sim.pure rfl
  | cons p ps ih =>
    simp only [winnerLoop]
    exact Sim.bind (reading_ageless fun h => betterOf_ungen h p _) fun b => ih _

theorem mapL_ageless {α β : Type} {f : α → WM G β} (xs : List α) (h : ∀ x, Ageless (f x)) : Ageless (mapL f xs) := by
  have := Sim.mapL (L := World.ungen) (ρ := id) (ζ := id) (f' := f) (f := f) xs fun x _ => h x
  rwa [List.map_id, List.map_id_fun] at this

theorem forL_ageless {α : Type} {f : α → WM G Unit} (xs : List α) (h : ∀ x, Ageless (f x)) : Ageless (forL f xs) := by
  have := Sim.forL (L := World.ungen) (ζ := id) (f' := f) (f := f) xs fun x _ => h x
  rwa [List.map_id] at this

theorem tournament_ageless (z : Nat) (replace : Bool) : (tournament size z replace : Sel G).Ageless := by
  intro source dest
  show Sim _ _ (tournamentSelect _ _ _ _ _) (tournamentSelect _ _ _ _ _)
  unfold tournamentSelect
  refine Sim.ite Iff.rfl (fun _ => Sim.raise) fun _ => Sim.bind (rand_ageless _) fun tours => ?_
  refine Sim.bind (mapL_ageless tours fun t => ?_) fun ws => Sim.pure rfl
  cases t with
  | nil => exact Sim.raise
  | cons t ts => exact Sim.bind (winnerLoop_ageless t ts) fun w => cloneSelected_ageless _ w

theorem elitismSelect_ageless (n : Int) (hib : Bool) (source dest : List Nat) :
    Ageless (elitismSelect size n hib source dest : WM G _) := by
  unfold elitismSelect
  exact Sim.bind (reading_ageless fun h => sortedByFitness_ungen h hib source) fun sorted =>
    Sim.bind (mapL_ageless _ fun r => cloneSelected_ageless _ r) fun cs => Sim.pure rfl

theorem elitism_ageless (n : Int) (hib : Bool) : (elitism size n hib : Sel G).Ageless :=
  fun source dest => elitismSelect_ageless n hib source dest

theorem fitnessProportionate_ageless (hib : Bool) : (fitnessProportionate size hib : Sel G).Ageless := by
  intro source dest
  show Sim _ _ (fpSelect _ _ _ _) (fpSelect _ _ _ _)
  unfold fpSelect
  refine Sim.bind (reading_ageless fun h => ?_) fun scores => ?_
  · unfold scoresOf
    rw [keyed_ungen]
  refine Sim.bind (ρ := id) (Sim.ofExcept (except_map_id _).symm) fun p => ?_
  refine Sim.bind (ρ := id) (Sim.ofExcept (except_map_id _).symm) fun _ => ?_
  refine Sim.bind (rand_ageless _) fun ks => Sim.bind (mapL_ageless _ fun x => ?_) fun cs => Sim.pure rfl
  unfold cloneAt
  cases source[x]? with
  | none => exact Sim.raise
  | some r => exact cloneSelected_ageless _ r

theorem genomes_ageless (refs : List Nat) : Ageless (genomes refs : WM G _) :=
  mapL_ageless refs fun r => Sim.bind (deref_ageless r) fun _ => Sim.pure rfl

theorem putGenomes_ageless (refs : List Nat) (gs : List G) : Ageless (putGenomes refs gs) :=
  forL_ageless _ fun p => update_ageless p.1 fun _ => rfl

theorem inPlace_ageless (name : String) (pr : ℚ) (ar : Nat) (f : List G → Rand (Option (List G))) :
    (Op.inPlace name pr ar f).Ageless := by
  intro refs
  unfold Op.inPlace
  dsimp only
  refine Sim.bind (genomes_ageless refs) fun gs => Sim.bind (rand_ageless _) fun r => ?_
  dsimp only [id]
  cases r with
  | none => exact Sim.pure rfl
  | some gs' => exact Sim.bind (putGenomes_ageless refs gs') fun _ => Sim.pure rfl

theorem applyOperator_ageless {o : Op G} (ho : o.Ageless) (inds : List Nat) : Ageless (applyOperator o inds) := by
  unfold applyOperator
  refine Sim.bind (rand_ageless _) fun u => Sim.ite Iff.rfl (fun _ => ?_) fun _ => Sim.pure rfl
  refine Sim.bind (forL_ageless inds fun r => update_ageless r fun _ => rfl) fun _ => Sim.bind (ho inds) fun r => ?_
  cases r with
  | none => exact Sim.raise
  | some res =>
    refine Sim.bind (mapL_ageless inds fun r => Sim.bind (deref_ageless r) fun i => Sim.pure rfl) fun ids => ?_
    exact Sim.bind (forL_ageless res fun r => update_ageless r fun i => rfl) fun _ => Sim.pure rfl

theorem withFallback_ageless (name : String) (pr : ℚ) (ar : Nat) (f : List G → Rand (Bool × List G)) {inner : Op G}
    (hi : inner.Ageless) : (Op.withFallback name pr ar f inner).Ageless := by
  intro refs
  unfold Op.withFallback
  dsimp only
  refine Sim.bind (genomes_ageless refs) fun gs => Sim.bind (rand_ageless _) fun r => ?_
  obtain ⟨b, gs'⟩ := r
  refine Sim.bind (putGenomes_ageless refs gs') fun _ => ?_
  cases b with
  | true => exact Sim.pure rfl
  | false => exact Sim.bind (applyOperator_ageless hi refs) fun l => Sim.pure rfl

theorem applyChunks_ageless {o : Op G} (ho : o.Ageless) (starts inds : List Nat) : Ageless (applyChunks o starts inds) := by
  induction starts generalizing inds with
  | nil => exact Sim.pure rfl
  | cons i is ih => exact Sim.bind (applyOperator_ageless ho _) fun res => ih _

theorem applyOperators_ageless {ops : List (Op G)} (ho : ∀ o ∈ ops, o.Ageless) (inds : List Nat) :
    Ageless (applyOperators ops inds) := by
  induction ops generalizing inds with
  | nil => exact Sim.pure rfl
  | cons o os ih =>
    exact Sim.ite Iff.rfl (fun _ => Sim.raise) fun _ => Sim.bind (applyChunks_ageless (ho o (by simp)) _ _) fun is =>
      ih (fun o h => ho o (by simp [h])) is

theorem breedSub_ageless {c : SubCfg G} (ho : ∀ o ∈ c.ops, o.Ageless) (hs : ∀ sel ∈ c.sels, sel.Ageless) (inds : List Nat) :
    Ageless (breedSub size c inds) := by
  unfold breedSub
  refine Sim.bind (checkArities_sim _ _) fun _ => Sim.bind (ρ := id) ?_ fun sel => applyOperators_ageless ho sel
  unfold selectStage
  refine Sim.bind (ρ := id) ?_ fun next => ?_
  · unfold eliteStage
    exact Sim.ite Iff.rfl (fun _ => elitismSelect_ageless _ _ _ []) fun _ => Sim.pure rfl
  · cases h : c.sels with
    | nil => exact Sim.raise
    | cons s ss => exact hs s (by simp [h]) inds next

theorem breedAll_ageless (l : List (SubCfg G × Option (List Nat))) (ho : ∀ p ∈ l, ∀ o ∈ p.1.ops, o.Ageless)
    (hs : ∀ p ∈ l, ∀ sel ∈ p.1.sels, sel.Ageless) : Ageless (breedAll size l) := by
  induction l with
  | nil => exact Sim.pure rfl
  | cons p l ih =>
    obtain ⟨c, is⟩ := p
    cases is with
    | none => exact Sim.raise
    | some is =>
      exact Sim.bind (breedSub_ageless (ho _ List.mem_cons_self) (hs _ List.mem_cons_self) is) fun is' =>
        Sim.bind (ih (fun p h => ho p (by simp [h])) fun p h => hs p (by simp [h])) fun rest => Sim.pure rfl

theorem executorMap_ageless {α : Type} {order : List Nat} {task : Nat → WM G α} (ht : ∀ r, Ageless (task r)) (refs : List Nat) :
    Ageless (executorMap order task refs) := by
  unfold executorMap
  refine Sim.bind (mapL_ageless order fun i => ?_) fun rs => mapL_ageless _ fun i => ?_
  · unfold runTask
    cases refs[i]? with
    | none => exact Sim.raise
    | some r => exact Sim.bind (ht r) fun v => Sim.pure rfl
  · unfold lookupResult
    dsimp only [id]
    cases rs.find? (fun p => p.1 == i) with
    | none => exact Sim.raise
    | some p => exact Sim.pure rfl

theorem evaluateMap_ageless (c : SubCfg G) (order is : List Nat) : Ageless (evaluateMap size c order is) := by
  unfold evaluateMap
  refine Sim.bind (executorMap_ageless (fun r => ?_) is) fun scores => ?_
  · exact Sim.bind (deref_ageless r) fun i => rand_ageless _
  · refine Sim.bind (forL_ageless _ fun p => update_ageless p.1 fun _ => rfl) fun _ => ?_
    cases is with
    | nil => exact Sim.raise
    | cons b rest =>
      dsimp only
      induction rest generalizing b with
      | nil => exact Sim.pure rfl
      | cons p ps ih =>
        exact Sim.bind (reading_ageless fun h => betterOf_ungen h p _) fun v => ih _

/-- Computations that do not depend on generation numbers do the same in worlds that differ in nothing else. -/
theorem Ageless.same {α : Type} {m : WM G α} (h : Ageless m) {w w' : World G} (he : w.ungen = w'.ungen) :
    (m w).1 = (m w').1 ∧ (m w).2.ungen = (m w').2.ungen := by
  have h1 := h w
  have h2 := h w'
  rw [he, h2] at h1
  simp only [except_map_id, Prod.mk.injEq] at h1
  exact ⟨h1.1.symm, h1.2.symm⟩

end Verif.Evo
