import Verif.Py.SimOn
import Verif.Lemmas.Reloc

/-! # Rescaling fitness

What the library does when every fitness value is replaced by its image under an order isomorphism (or anti-isomorphism with
the direction of optimisation reversed). -/

namespace Verif.Evo
open PyM
variable {G κ : Type} {size : G → Nat}

/-- A change of the fitness scale: `φ` is applied to the fitness values, `weight` to the bloat weights; if `flip`, what was
to be maximised is to be minimised and vice versa. -/
structure Scale where
  φ : ℚ → ℚ
  weight : ℚ → ℚ
  flip : Bool

/-- `φ` is strictly increasing, or strictly decreasing if the direction is reversed. -/
def Scale.Monotone (S : Scale) : Prop := ∀ a b, a < b ↔ if S.flip then S.φ b < S.φ a else S.φ a < S.φ b

/-- `φ` respects bloat control with this weight (there is nothing to respect without bloat control). -/
def Scale.Suits (S : Scale) : Option ℚ → Prop
  | none => True
  | some w => (S.weight w = 0 ↔ w = 0) ∧ ∀ (q : ℚ) (n : Nat) (hib : Bool), w ≠ 0 →
    (if (hib != S.flip) = true then S.φ q - S.weight w * n else S.φ q + S.weight w * n) =
      S.φ (if hib = true then q - w * n else q + w * n)

variable (S : Scale)

def FVal.scaled : FVal → FVal
  | .num q => .num (S.φ q)
  | v => v

def Fit.scaled (f : Fit) : Fit := { f with value := f.value.scaled S, hib := f.hib != S.flip, bloat := f.bloat.map S.weight }

def Ind.scaled (i : Ind G) : Ind G := { i with fit := i.fit.scaled S }

def World.scaled (w : World G) : World G := { w with heap := w.heap.map (Ind.scaled S) }

/-- The bloat weights of all individuals are respected. -/
def World.Suited (w : World G) : Prop := ∀ i ∈ w.heap, S.Suits i.fit.bloat

variable {S}

theorem scaled_get (h : List (Ind G)) (r : Nat) : (h.map (Ind.scaled S))[r]? = (h[r]?).map (Ind.scaled S) := by simp

/-- The computation commutes with the change of scale. -/
abbrev Scales (S : Scale) {α : Type} (m' m : WM G α) : Prop := SimOn (World.Suited S) (World.scaled S) id m' m

theorem deref_scales (r : Nat) : SimOn (World.Suited S) (World.scaled S) (Ind.scaled S) (deref r) (deref r : WM G _) := by
  unfold deref
  refine SimOn.get_bind fun w _ => ?_
  show SimOn _ _ _ (match (w.heap.map (Ind.scaled S))[r]? with | some i => pure i | none => raise .attributeError) _
  rw [scaled_get]
  cases w.heap[r]? with
  | none => exact SimOn.raise
  | some i => exact SimOn.pure rfl

theorem reading_scales {α β : Type} {ρ : α → β} {f' : List (Ind G) → Except Err β} {f : List (Ind G) → Except Err α}
    (h : ∀ w : World G, w.Suited S → f' (w.heap.map (Ind.scaled S)) = (f w.heap).map ρ) :
    SimOn (World.Suited S) (World.scaled S) ρ (reading f') (reading f) := by
  unfold reading
  exact SimOn.get_bind fun w hw => SimOn.ofExcept (h w hw)

theorem rand_scales_map {α β : Type} {ρ : α → β} {m' : Rand β} {m : Rand α} (h : Sim id ρ m' m) :
    SimOn (World.Suited S) (World.scaled S) ρ (rand m') (rand m : WM G α) := by
  intro w hw
  have := Sim.zoom (L' := World.scaled (G := G) S) (g' := fun w : World G => w.tape) (p' := fun t w => { w with tape := t })
    (g := fun w : World G => w.tape) (p := fun t w => { w with tape := t }) h (fun _ => rfl) (fun _ _ => rfl) w
  exact ⟨this, hw⟩

theorem rand_scales {α : Type} (m : Rand α) : Scales S (rand m) (rand m : WM G α) := rand_scales_map (Sim.refl m)

theorem update_scales {f' f : Ind G → Ind G} (r : Nat) (h : ∀ i, f' (i.scaled S) = (f i).scaled S)
    (hb : ∀ i, (f i).fit.bloat = i.fit.bloat) : Scales S (update r f') (update r f) := by
  unfold update
  refine SimOn.modify fun w hw => ⟨?_, ?_⟩
  · show World.mk _ _ _ = World.mk _ _ _
    congr 1
    show (w.heap.map (Ind.scaled S)).modify r f' = (w.heap.modify r f).map (Ind.scaled S)
    apply List.ext_getElem?
    intro n
    rw [List.getElem?_modify, scaled_get, scaled_get, List.getElem?_modify]
    cases w.heap[n]? with
    | none => rfl
    | some i => by_cases hr : r = n <;> simp [hr, h]
  · intro i hi
    obtain ⟨n, hn⟩ := List.mem_iff_getElem?.1 hi
    rw [List.getElem?_modify] at hn
    cases hx : w.heap[n]? with
    | none => simp [hx] at hn
    | some j =>
      have hj := hw j (List.mem_of_getElem? hx)
      by_cases hr : r = n
      · simp [hx, hr] at hn
        rw [← hn, hb]; exact hj
      · simp [hx, hr] at hn
        rw [← hn]; exact hj

theorem takeId_scales : Scales S takeId (takeId : WM G Nat) := by
  unfold takeId
  exact SimOn.get_bind fun w hw => SimOn.bind (SimOn.set rfl hw) fun _ => SimOn.pure rfl

theorem alloc_scales {i' i : Ind G} (h : i' = i.scaled S) (hs : S.Suits i.fit.bloat) : Scales S (alloc i') (alloc i) := by
  unfold alloc
  refine SimOn.get_bind fun w hw => SimOn.bind (SimOn.set ?_ ?_) fun _ => SimOn.pure ?_
  · show World.mk _ _ _ = World.mk _ _ _
    congr 1
    simp [World.scaled, h]
  · intro j hj
    rcases List.mem_append.1 hj with hj | hj
    · exact hw j hj
    · rw [List.mem_singleton.1 hj]; exact hs
  · show (w.heap.map (Ind.scaled S)).length = _
    simp

theorem getstate_scaled (f : Fit) : (f.scaled S).getstate = f.getstate.scaled S := by
  unfold Fit.getstate
  show (if f.cache then _ else _) = _
  split <;> rfl

theorem getstate_bloat (f : Fit) : f.getstate.bloat = f.bloat := by unfold Fit.getstate; split <;> rfl

theorem clone_unfolded (r : Nat) (w : World G) : clone r w = match w.heap[r]? with
    | none => (.error .attributeError, w)
    | some i => (.ok w.heap.length, ⟨w.heap ++ [{ i with
        fit := i.fit.getstate, clonedFrom := i.id, parents := if i.updateParents then [] else i.parents, id := w.nextId }],
        w.nextId + 1, w.tape⟩) := by
  unfold clone deref takeId alloc
  simp only [PyM.bind_run, PyM.get]
  cases w.heap[r]? <;> rfl

theorem clone_scales (r : Nat) : Scales S (clone r) (clone r : WM G Nat) := by
  intro w hw
  rw [clone_unfolded, clone_unfolded]
  show (match (w.heap.map (Ind.scaled S))[r]? with | none => _ | some i => _) = _ ∧ _
  rw [scaled_get]
  cases hi : w.heap[r]? with
  | none => exact ⟨rfl, hw⟩
  | some i =>
    refine ⟨?_, ?_⟩
    · simp only [Option.map, World.scaled, List.map_append, List.map_cons, List.map_nil, List.length_map, Except.map, id]
      congr 3
      congr 1
      simp only [Ind.scaled, getstate_scaled]
      rfl
    · intro j hj
      rcases List.mem_append.1 hj with hj | hj
      · exact hw j hj
      · rw [List.mem_singleton.1 hj]
        show S.Suits i.fit.getstate.bloat
        rw [getstate_bloat]
        exact hw i (List.mem_of_getElem? hi)

theorem cloneSelected_scales (name : String) (r : Nat) : Scales S (cloneSelected name r) (cloneSelected name r : WM G Nat) := by
  unfold cloneSelected
  exact SimOn.bind (clone_scales r) fun c => SimOn.bind (update_scales c (fun _ => rfl) fun _ => rfl) fun _ => SimOn.pure rfl

theorem setNotEvaluated_scales (r : Nat) : Scales S (setNotEvaluated r) (setNotEvaluated r : WM G Unit) := by
  unfold setNotEvaluated
  exact update_scales r (fun _ => rfl) fun _ => rfl

theorem setFitness_scales (r : Nat) (v : FVal) : Scales S (setFitness r (v.scaled S)) (setFitness r v : WM G Unit) := by
  unfold setFitness
  exact update_scales r (fun _ => rfl) fun _ => rfl

/-! ## Fitness -/

theorem augmented_scaled {f : Fit} (hs : S.Suits f.bloat) (z : Nat) :
    (f.scaled S).augmented z = (f.augmented z).map (FVal.scaled S) := by
  unfold Fit.augmented Fit.getPure
  obtain ⟨v, ev, hib, rel, ca, bl⟩ := f
  dsimp only [Fit.scaled]
  cases ev with
  | false => rfl
  | true =>
    simp only [if_true]
    cases bl with
    | none => rfl
    | some w =>
      obtain ⟨h0, h1⟩ := hs
      dsimp only [Option.map]
      by_cases hw : w = 0
      · subst hw
        simp only [h0.2 rfl, if_true, Except.map]
      · have hw' : S.weight w ≠ 0 := fun h => hw (h0.1 h)
        simp only [hw, hw', if_false]
        cases v with
        | num q =>
          exact congrArg (fun x => Except.ok (FVal.num x)) (h1 q z hib hw)
        | none => rfl
        | obj r => rfl

theorem lt_scaled (hm : S.Monotone) (a b : FVal) :
    (if S.flip then Fit.lt (b.scaled S) (a.scaled S) else Fit.lt (a.scaled S) (b.scaled S)) = Fit.lt a b := by
  cases a <;> cases b <;> simp only [FVal.scaled, Fit.lt, ite_self]
  rename_i x y
  have := hm x y
  cases hf : S.flip <;> rw [hf] at this <;> simp_all

theorem betterThan_scaled (hm : S.Monotone) {f g : Fit} (hf : S.Suits f.bloat) (hg : S.Suits g.bloat) (z y : Nat) :
    (f.scaled S).betterThan z (g.scaled S) y = f.betterThan z g y := by
  unfold Fit.betterThan
  have : Fit.checkComparable (f.scaled S) (g.scaled S) = Fit.checkComparable f g := rfl
  rw [this, augmented_scaled hf, augmented_scaled hg]
  cases Fit.checkComparable f g with
  | error e => rfl
  | ok _ =>
    cases f.augmented z with
    | error e => rfl
    | ok a =>
      cases g.augmented y with
      | error e => rfl
      | ok b =>
        simp only [Except.map]
        have h1 := lt_scaled hm a b
        have h2 := lt_scaled hm b a
        show (if (f.hib != S.flip) = true then _ else _) = _
        cases hh : f.hib <;> cases hfl : S.flip <;> simp_all

theorem betterOf_scaled (hm : S.Monotone) {w : World G} (hw : w.Suited S) (r : Nat) (o : Option Nat) :
    betterOf size (w.heap.map (Ind.scaled S)) r o = betterOf size w.heap r o := by
  unfold betterOf
  cases o with
  | none => rfl
  | some o =>
    simp only [scaled_get]
    cases hi : w.heap[r]? with
    | none => rfl
    | some i =>
      cases hj : w.heap[o]? with
      | none => rfl
      | some j => exact betterThan_scaled hm (hw i (List.mem_of_getElem? hi)) (hw j (List.mem_of_getElem? hj)) _ _

theorem betterOf_scales (hm : S.Monotone) (r : Nat) (o : Option Nat) :
    Scales S (reading fun h => betterOf size h r o) (reading fun h => betterOf size h r o : WM G Bool) :=
  reading_scales fun w hw => by rw [betterOf_scaled hm hw, except_map_id]

theorem augOf_scaled {w : World G} (hw : w.Suited S) (r : Nat) :
    augOf size (w.heap.map (Ind.scaled S)) r = (augOf size w.heap r).map (FVal.scaled S) := by
  unfold augOf
  rw [scaled_get]
  cases hi : w.heap[r]? with
  | none => rfl
  | some i => exact augmented_scaled (hw i (List.mem_of_getElem? hi)) _

/-- A reference with its sort key. -/
def scaledKey (S : Scale) (p : Nat × FVal) : Nat × FVal := (p.1, p.2.scaled S)

theorem keyed_scaled {w : World G} (hw : w.Suited S) (rs : List Nat) :
    keyed size (w.heap.map (Ind.scaled S)) rs = (keyed size w.heap rs).map (List.map (scaledKey S)) := by
  induction rs with
  | nil => rfl
  | cons r rs ih =>
    simp only [keyed, augOf_scaled hw, ih]
    cases augOf size w.heap r with
    | error e => rfl
    | ok v => cases keyed size w.heap rs <;> rfl

theorem isNum_scaled (v : FVal) : (v.scaled S).isNum = v.isNum := by cases v <;> rfl

theorem le_scaled (hm : S.Monotone) (a b : ℚ) : a ≤ b ↔ if S.flip then S.φ b ≤ S.φ a else S.φ a ≤ S.φ b := by
  have := hm b a
  rw [← not_lt, this]
  split <;> simp

theorem nums_of (ks : List (Nat × FVal)) (h : ¬ (ks.any fun p => !p.2.isNum) = true) :
    ∃ qs : List (Nat × ℚ), ks = qs.map fun p => (p.1, FVal.num p.2) := by
  induction ks with
  | nil => exact ⟨[], rfl⟩
  | cons k ks ih =>
    obtain ⟨r, v⟩ := k
    simp only [List.any_cons, Bool.or_eq_true, not_or] at h
    obtain ⟨qs, rfl⟩ := ih h.2
    cases v with
    | num q => exact ⟨(r, q) :: qs, rfl⟩
    | none => simp [FVal.isNum] at h
    | obj r => simp [FVal.isNum] at h

theorem sortedByFitness_scaled (hm : S.Monotone) {w : World G} (hw : w.Suited S) (rev : Bool) (rs : List Nat) :
    sortedByFitness size (w.heap.map (Ind.scaled S)) (rev != S.flip) rs = sortedByFitness size w.heap rev rs := by
  unfold sortedByFitness
  rw [keyed_scaled hw]
  cases keyed size w.heap rs with
  | error e => rfl
  | ok ks =>
    simp only [Except.map, List.length_map]
    have hany : ((ks.map (scaledKey S)).any fun p => !p.2.isNum) = ks.any fun p => !p.2.isNum := by
      rw [List.any_map]
      congr 1
      funext p
      simp [scaledKey, isNum_scaled]
    rw [hany]
    by_cases hn : (ks.any fun p => !p.2.isNum) = true
    · rw [hn, Bool.and_true]
      split
      · rfl
      · rename_i hl
        have : ks.length ≤ 1 := by simpa using hl
        match ks, this with
        | [], _ => rfl
        | [k], _ => rfl
    · simp only [hn, Bool.and_false, Bool.false_eq_true, if_false]
      obtain ⟨qs, rfl⟩ := nums_of ks hn
      rw [List.map_map, Py.sortBy_map (fun p : Nat × ℚ => (p.1, FVal.num p.2))
        (le := fun a b : Nat × ℚ => if rev then decide (b.2 ≤ a.2) else decide (a.2 ≤ b.2)),
        Py.sortBy_map (scaledKey S ∘ fun p : Nat × ℚ => (p.1, FVal.num p.2))
        (le := fun a b : Nat × ℚ => if rev then decide (b.2 ≤ a.2) else decide (a.2 ≤ b.2))]
      · simp only [List.map_map]
        rfl
      · intro a b
        have h1 := le_scaled hm a.2 b.2
        have h2 := le_scaled hm b.2 a.2
        show (if (rev != S.flip) = true then decide (S.φ b.2 ≤ S.φ a.2) else decide (S.φ a.2 ≤ S.φ b.2)) = _
        cases rev <;> cases hfl : S.flip <;> simp_all
      · intro a b; rfl

theorem worstIndividual_scaled (hm : S.Monotone) {w : World G} (hw : w.Suited S) (hib : Bool) (rs : List Nat) :
    worstIndividual size (w.heap.map (Ind.scaled S)) (hib != S.flip) rs = worstIndividual size w.heap hib rs := by
  unfold worstIndividual
  have : (!(hib != S.flip)) = ((!hib) != S.flip) := by cases hib <;> cases S.flip <;> rfl
  rw [this, sortedByFitness_scaled hm hw]

/-! ## Selection -/

/-- The selection method decides by the order of fitness only. -/
def Sel.Scales (S : Scale) (sel : Sel G) : Prop := ∀ source dest, Evo.Scales S (sel.select source dest) (sel.select source dest)

theorem winnerLoop_scales (hm : S.Monotone) (w : Nat) (ps : List Nat) :
    Scales S (winnerLoop size w ps) (winnerLoop size w ps : WM G Nat) := by
  induction ps generalizing w with
  | nil => exact SimOn.pure rfl
  | cons p ps ih =>
    simp only [winnerLoop]
    exact SimOn.bind (betterOf_scales hm p _) fun b => ih _

theorem tournament_scales (hm : S.Monotone) (z : Nat) (replace : Bool) : (tournament size z replace : Sel G).Scales S := by
  intro source dest
  show SimOn _ _ _ (tournamentSelect _ _ _ _ _) (tournamentSelect _ _ _ _ _)
  unfold tournamentSelect
  refine SimOn.ite Iff.rfl (fun _ => SimOn.raise) fun _ => SimOn.bind (rand_scales _) fun tours => ?_
  refine SimOn.bind (SimOn.mapL_id tours fun t _ => ?_) fun ws => SimOn.pure rfl
  cases t with
  | nil => exact SimOn.raise
  | cons t ts => exact SimOn.bind (winnerLoop_scales hm t ts) fun w => cloneSelected_scales _ w

theorem elitismSelect_scales (hm : S.Monotone) (n : Int) (hib : Bool) (source dest : List Nat) :
    Scales S (elitismSelect size n (hib != S.flip) source dest) (elitismSelect size n hib source dest : WM G _) := by
  unfold elitismSelect
  exact SimOn.bind (ρ := id) (reading_scales fun w hw => by rw [sortedByFitness_scaled hm hw, except_map_id]) fun sorted =>
    SimOn.bind (SimOn.mapL_id _ fun r _ => cloneSelected_scales _ r) fun cs => SimOn.pure rfl

/-! ## Operators -/

/-- The operator does not look at fitness. -/
def Op.Scales (S : Scale) (o : Op G) : Prop := ∀ refs, Evo.Scales S (o.apply refs) (o.apply refs)

theorem genomes_scales (refs : List Nat) : Scales S (genomes refs) (genomes refs : WM G _) :=
  SimOn.mapL_id refs fun r _ => SimOn.bind (deref_scales r) fun _ => SimOn.pure rfl

theorem putGenomes_scales (refs : List Nat) (gs : List G) : Scales S (putGenomes refs gs) (putGenomes refs gs) :=
  SimOn.forL _ fun p _ => update_scales p.1 (fun _ => rfl) fun _ => rfl

theorem inPlace_scales (name : String) (pr : ℚ) (ar : Nat) (f : List G → Rand (Option (List G))) :
    (Op.inPlace name pr ar f).Scales S := by
  intro refs
  unfold Op.inPlace
  dsimp only
  refine SimOn.bind (genomes_scales refs) fun gs => SimOn.bind (rand_scales _) fun r => ?_
  dsimp only [id]
  cases r with
  | none => exact SimOn.pure rfl
  | some gs' => exact SimOn.bind (putGenomes_scales refs gs') fun _ => SimOn.pure rfl

theorem applyOperator_scales {o : Op G} (ho : o.Scales S) (inds : List Nat) :
    Scales S (applyOperator o inds) (applyOperator o inds) := by
  unfold applyOperator
  refine SimOn.bind (rand_scales _) fun u => SimOn.ite Iff.rfl (fun _ => ?_) fun _ => SimOn.pure rfl
  refine SimOn.bind (SimOn.forL inds fun r _ => setNotEvaluated_scales r) fun _ => SimOn.bind (ho inds) fun r => ?_
  cases r with
  | none => exact SimOn.raise
  | some res =>
    refine SimOn.bind (SimOn.mapL_id inds fun r _ => SimOn.bind (deref_scales r) fun i => SimOn.pure rfl) fun ids => ?_
    exact SimOn.bind (SimOn.forL res fun r _ => update_scales r (fun i => rfl) fun i => rfl) fun _ => SimOn.pure rfl

theorem withFallback_scales (name : String) (pr : ℚ) (ar : Nat) (f : List G → Rand (Bool × List G)) {inner : Op G}
    (hi : inner.Scales S) : (Op.withFallback name pr ar f inner).Scales S := by
  intro refs
  unfold Op.withFallback
  dsimp only
  refine SimOn.bind (genomes_scales refs) fun gs => SimOn.bind (rand_scales _) fun r => ?_
  obtain ⟨b, gs'⟩ := r
  refine SimOn.bind (putGenomes_scales refs gs') fun _ => ?_
  cases b with
  | true => exact SimOn.pure rfl
  | false => exact SimOn.bind (applyOperator_scales hi refs) fun l => SimOn.pure rfl

theorem applyChunks_scales {o : Op G} (ho : o.Scales S) (starts inds : List Nat) :
    Scales S (applyChunks o starts inds) (applyChunks o starts inds) := by
  induction starts generalizing inds with
  | nil => exact SimOn.pure rfl
  | cons i is ih => exact SimOn.bind (applyOperator_scales ho _) fun res => ih _

theorem applyOperators_scales {ops : List (Op G)} (ho : ∀ o ∈ ops, o.Scales S) (inds : List Nat) :
    Scales S (applyOperators ops inds) (applyOperators ops inds) := by
  induction ops generalizing inds with
  | nil => exact SimOn.pure rfl
  | cons o os ih =>
    exact SimOn.ite Iff.rfl (fun _ => SimOn.raise) fun _ => SimOn.bind (applyChunks_scales (ho o (by simp)) _ _) fun is =>
      ih (fun o h => ho o (by simp [h])) is

theorem checkArities_scales (n : Nat) (as : List Nat) : Scales S (checkArities n as) (checkArities n as : WM G Unit) := by
  induction as with
  | nil => exact SimOn.pure rfl
  | cons a as ih =>
    exact SimOn.ite Iff.rfl (fun _ => SimOn.raise) fun _ => SimOn.ite Iff.rfl (fun _ => SimOn.raise) fun _ => ih

/-! ## Creation -/

/-- The creator makes individuals with the scaled fitness object if asked for the other direction. -/
def CreatorScales (S : Scale) (create : Nat → Bool → WM G (List Nat)) : Prop :=
  ∀ n hib, Scales S (create n (hib != S.flip)) (create n hib)

theorem createIndividuals_scales (empty : G) (genome : Rand G) {fit : Bool → Fit} (up : Bool)
    (hf : ∀ b, fit (b != S.flip) = (fit b).scaled S) (hs : ∀ b, S.Suits (fit b).bloat) :
    CreatorScales S (createIndividuals empty genome fit up) := by
  intro n hib
  unfold createIndividuals
  refine SimOn.bind (SimOn.mapL_id _ fun _ _ => ?_) fun refs => SimOn.bind (SimOn.forL _ fun r _ => ?_) fun _ => SimOn.pure rfl
  · unfold newInd
    refine SimOn.bind takeId_scales fun i => alloc_scales ?_ (hs hib)
    simp only [Ind.scaled, hf, id]
  · exact SimOn.bind (rand_scales _) fun g => update_scales r (fun _ => rfl) fun _ => rfl

theorem halfCreate_scales {grow full : Nat → Nat → Bool → WM G (List Nat)} (hg : ∀ d, CreatorScales S (grow d))
    (hf : ∀ d, CreatorScales S (full d)) (minDepth depths : Nat) : CreatorScales S (halfCreate grow full minDepth depths) := by
  intro n hib
  unfold halfCreate
  refine SimOn.ite Iff.rfl (fun _ => SimOn.raise) fun _ => ?_
  refine SimOn.bind (ρ := id) ?_ fun inds => ?_
  · generalize (List.range depths).map (minDepth + ·) = ds
    induction ds with
    | nil => exact SimOn.pure rfl
    | cons d ds ih =>
      exact SimOn.bind (hg d _ hib) fun a => SimOn.bind (hf d _ hib) fun b => SimOn.bind ih fun c => SimOn.pure rfl
  · refine SimOn.ite Iff.rfl (fun _ => ?_) fun _ => SimOn.pure rfl
    exact SimOn.bind (hf _ _ hib) fun a => SimOn.pure rfl

/-! ## Sub-populations -/

/-- The same sub-population with fitness on the other scale. -/
def SubCfg.scaled (S : Scale) (sub : SubCfg G) : SubCfg G :=
  { sub with
    hib := sub.hib != S.flip
    evaluate := fun g t => ((sub.evaluate g t).1.map S.φ, (sub.evaluate g t).2) }

/-- What users supply does not look at fitness, or only at its order. -/
structure SubCfg.Scales (S : Scale) (sub : SubCfg G) : Prop where
  creators : ∀ create ∈ sub.creators, CreatorScales S create
  ops : ∀ o ∈ sub.ops, o.Scales S
  sels : ∀ sel ∈ sub.sels, sel.Scales S

theorem createSub_scales {c : SubCfg G} (hc : c.Scales S) (is : Option (List Nat)) :
    Scales S (createSub (c.scaled S) is) (createSub c is) := by
  cases is with
  | some is => exact SimOn.pure rfl
  | none =>
    unfold createSub
    refine SimOn.bind (rand_scales _) fun n => ?_
    dsimp only [id]
    show SimOn _ _ _ (match c.creators[n]? with | none => _ | some create => _) _
    cases h : c.creators[n]? with
    | none => exact SimOn.raise
    | some create => exact SimOn.bind (hc.creators create (List.mem_of_getElem? h) _ _) fun is => SimOn.pure rfl

theorem breedSub_scales (hm : S.Monotone) {c : SubCfg G} (hc : c.Scales S) (inds : List Nat) :
    Scales S (breedSub size (c.scaled S) inds) (breedSub size c inds) := by
  unfold breedSub
  refine SimOn.bind (checkArities_scales _ _) fun _ => SimOn.bind (ρ := id) ?_ fun sel => applyOperators_scales hc.ops sel
  unfold selectStage
  refine SimOn.bind (ρ := id) ?_ fun next => ?_
  · unfold eliteStage
    exact SimOn.ite Iff.rfl (fun _ => elitismSelect_scales hm _ _ _ []) fun _ => SimOn.pure rfl
  · show SimOn _ _ _ (match c.sels with | [] => _ | s :: _ => _) _
    cases h : c.sels with
    | nil => exact SimOn.raise
    | cons s ss => exact hc.sels s (by simp [h]) inds next

theorem breedAll_scales (hm : S.Monotone) (l : List (SubCfg G × Option (List Nat))) (hc : ∀ p ∈ l, p.1.Scales S) :
    Scales S (breedAll size (l.map fun p => (p.1.scaled S, p.2))) (breedAll size l) := by
  induction l with
  | nil => exact SimOn.pure rfl
  | cons p l ih =>
    obtain ⟨c, is⟩ := p
    cases is with
    | none => exact SimOn.raise
    | some is =>
      exact SimOn.bind (breedSub_scales hm (hc _ List.mem_cons_self) is) fun is' =>
        SimOn.bind (ih fun p h => hc p (by simp [h])) fun rest => SimOn.pure rfl

/-! ## Evaluation -/

theorem executorMap_scales {α β : Type} {ρ : α → β} {order : List Nat} {task' : Nat → WM G β} {task : Nat → WM G α}
    (ht : ∀ r, SimOn (World.Suited S) (World.scaled S) ρ (task' r) (task r)) (refs : List Nat) :
    SimOn (World.Suited S) (World.scaled S) (List.map ρ) (executorMap order task' refs) (executorMap order task refs) := by
  unfold executorMap
  refine SimOn.bind (ρ := List.map fun p : Nat × α => (p.1, ρ p.2)) (SimOn.mapL _ fun i _ => ?_) fun rs =>
    SimOn.mapL _ fun i _ => ?_
  · unfold runTask
    cases refs[i]? with
    | none => exact SimOn.raise
    | some r => exact SimOn.bind (ht r) fun v => SimOn.pure rfl
  · unfold lookupResult
    rw [List.find?_map]
    have : ((fun p : Nat × β => p.1 == i) ∘ fun p : Nat × α => (p.1, ρ p.2)) = fun p => p.1 == i := rfl
    rw [this]
    cases rs.find? (fun p => p.1 == i) with
    | none => exact SimOn.raise
    | some p => exact SimOn.pure rfl

theorem bestLoop_scales (hm : S.Monotone) (b : Nat) (is : List Nat) :
    Scales S (bestLoop size b is) (bestLoop size b is : WM G Nat) := by
  induction is generalizing b with
  | nil => exact SimOn.pure rfl
  | cons p ps ih =>
    simp only [bestLoop]
    exact SimOn.bind (betterOf_scales hm p _) fun v => ih _

theorem bestOfList_scales (hm : S.Monotone) (is : List Nat) :
    Scales S (match is with | [] => raise .indexError | b :: rest => bestLoop size b rest)
      (match is with | [] => raise .indexError | b :: rest => bestLoop size b rest : WM G Nat) := by
  cases is with
  | nil => exact SimOn.raise
  | cons b rest => exact bestLoop_scales hm b rest

theorem runEval_scales (c : SubCfg G) (r : Nat) :
    SimOn (World.Suited S) (World.scaled S) S.φ (runEval (c.scaled S) r) (runEval c r) := by
  unfold runEval
  exact SimOn.bind (deref_scales r) fun i => rand_scales_map fun t => rfl

theorem evaluateMap_scales (hm : S.Monotone) (c : SubCfg G) (order is : List Nat) :
    Scales S (evaluateMap size (c.scaled S) order is) (evaluateMap size c order is) := by
  unfold evaluateMap
  refine SimOn.bind (executorMap_scales (fun r => runEval_scales c r) is) fun scores => ?_
  refine SimOn.bind (ρ := id) ?_ fun _ => bestOfList_scales hm is
  rw [List.zip_map_right]
  generalize is.zip scores = l
  induction l with
  | nil => exact SimOn.pure rfl
  | cons p l ih => exact SimOn.bind (setFitness_scales p.1 (.num p.2)) fun _ => ih

theorem evaluateSubmit_scales (hm : S.Monotone) (c : SubCfg G) (order is : List Nat) :
    Scales S (evaluateSubmit size (c.scaled S) order is) (evaluateSubmit size c order is) := by
  unfold evaluateSubmit
  have h := executorMap_scales (S := S) (ρ := id) (order := order)
    (task' := fun r => do let v ← runEval (c.scaled S) r; setFitness r (.num v); pure r)
    (task := fun r => do let v ← runEval c r; setFitness r (.num v); pure r)
    (fun r => SimOn.bind (runEval_scales c r) fun v => SimOn.bind (setFitness_scales r (.num v)) fun _ => SimOn.pure rfl) is
  rw [List.map_id_fun] at h
  refine SimOn.bind h fun res => ?_
  exact SimOn.bind (SimOn.forL _ fun p _ => setFitness_scales p.1 (.obj p.2)) fun _ => bestOfList_scales hm is

/-! ## The algorithm -/

def Snapshot.scaled (S : Scale) (s : Snapshot G) : Snapshot G := { s with heap := s.heap.map (Ind.scaled S) }

def Event.scaled (S : Scale) (e : Event G) : Event G := { e with snap := e.snap.scaled S }

/-- The run with fitness on the other scale: everything else is the same. -/
def Run.scaled (S : Scale) (s : Run G κ) : Run G κ := { s with w := s.w.scaled S, log := s.log.map (Event.scaled S) }

/-- The checker gives the same answers when fitness is on the other scale. -/
def CheckerScales (S : Scale) (t' t : Checker G κ) : Prop := ∀ k heap inds best gen,
  (∀ i ∈ heap, S.Suits i.fit.bloat) → t' k (heap.map (Ind.scaled S)) inds best gen = t k heap inds best gen

/-- So do all checkers of a run. -/
inductive CheckersScale (S : Scale) : Checkers G κ → Checkers G κ → Prop
  | none : CheckersScale S .none .none
  | one {t' t : Checker G κ} (h : CheckerScales S t' t) : CheckersScale S (.one t') (.one t)
  | many {ts' ts : List (Checker G κ)} (h : List.Forall₂ (CheckerScales S) ts' ts) : CheckersScale S (.many ts') (.many ts)

/-- The configuration with fitness on the other scale, and checkers for that scale. -/
def Cfg.scaled (S : Scale) (checker : Checkers G κ) (c : Cfg G κ) : Cfg G κ :=
  { c with subs := c.subs.map (SubCfg.scaled S), checker := checker }

/-- The parts of a configuration that users supply as code look at the order of fitness at most. -/
structure Cfg.Scales (S : Scale) (checker : Checkers G κ) (c : Cfg G κ) : Prop where
  subs : ∀ sub ∈ c.subs, sub.Scales S
  checkers : CheckersScale S checker c.checker

abbrev RScales (S : Scale) {α : Type} (m' m : RM G κ α) : Prop :=
  SimOn (fun s : Run G κ => s.w.Suited S) (Run.scaled S) id m' m

theorem world_scales {α : Type} {m' m : WM G α} (h : Scales S m' m) : RScales (κ := κ) S (world m') (world m) := by
  unfold world
  exact SimOn.zoom h (fun _ hs => ⟨rfl, hs⟩) (fun _ _ => rfl) fun _ _ ht _ => ht

theorem publish_scales (p n : String) : RScales S (publish p n) (publish p n : RM G κ Unit) := by
  unfold publish
  refine SimOn.modify fun s hs => ⟨?_, hs⟩
  show Run.mk _ _ _ _ _ _ _ _ _ _ _ _ = Run.mk _ _ _ _ _ _ _ _ _ _ _ _
  congr 1
  show s.log.map _ ++ _ = (s.log ++ _).map _
  rw [List.map_append]
  rfl

theorem act_scales {α : Type} {m' m : RM G κ α} (p : String) (h : RScales S m' m) : RScales S (act p m') (act p m) :=
  SimOn.bind (publish_scales _ _) fun _ => SimOn.bind h fun _ => SimOn.bind (publish_scales _ _) fun _ => SimOn.pure rfl

variable {c : Cfg G κ} {ck : Checkers G κ}

theorem setSeed_scales (seed : Nat) : RScales S (setSeed (c.scaled S ck) seed) (setSeed c seed) :=
  SimOn.modify fun _ hs => ⟨rfl, hs⟩

theorem createPopulation_scales (hc : c.Scales S ck) : RScales S (createPopulation (c.scaled S ck)) (createPopulation c) := by
  unfold createPopulation
  refine SimOn.get_bind fun s _ => SimOn.bind (ρ := id) (world_scales ?_) fun is => SimOn.modify fun _ hs => ⟨rfl, hs⟩
  show Scales S (mapL _ ((c.subs.map (SubCfg.scaled S)).zip s.inds)) _
  rw [List.zip_map_left]
  have : ∀ l : List (SubCfg G × Option (List Nat)), (∀ p ∈ l, p.1.Scales S) →
      Scales S (mapL (fun (p : SubCfg G × Option (List Nat)) => createSub p.1 p.2) (l.map (Prod.map (SubCfg.scaled S) id)))
        (mapL (fun (p : SubCfg G × Option (List Nat)) => createSub p.1 p.2) l) := by
    intro l hl
    induction l with
    | nil => exact SimOn.pure rfl
    | cons p l ih =>
      exact SimOn.bind (createSub_scales (hl p (by simp)) p.2) fun is => SimOn.bind (ih fun q hq => hl q (by simp [hq])) fun rest =>
        SimOn.pure rfl
  exact this _ fun p hp => hc.subs p.1 (List.of_mem_zip hp).1

theorem evaluateBody_scales (hm : S.Monotone) : RScales S (evaluateBody (c.scaled S ck)) (evaluateBody c) := by
  unfold evaluateBody
  refine SimOn.get_bind fun s _ => ?_
  show SimOn _ _ _ (match c.subs.map (SubCfg.scaled S), s.inds with | [sub], [some is] => _ | [_], [none] => _ | _, _ => _) _
  rcases hs : c.subs with _ | ⟨sub, _ | ⟨sub2, rest⟩⟩
  · exact SimOn.raise
  · rcases hi : s.inds with _ | ⟨_ | is, _ | ⟨i2, irest⟩⟩
    · exact SimOn.raise
    · exact SimOn.raise
    · exact SimOn.raise
    · refine SimOn.ite Iff.rfl (fun _ => SimOn.raise) fun _ => world_scales ?_
      exact SimOn.ite Iff.rfl (fun _ => evaluateSubmit_scales hm _ _ _) fun _ => evaluateMap_scales hm _ _ _
    · exact SimOn.raise
  · exact SimOn.raise

theorem evaluatePopulation_scales (hm : S.Monotone) : RScales S (evaluatePopulation (c.scaled S ck)) (evaluatePopulation c) :=
  act_scales _ (evaluateBody_scales hm)

theorem breed_scales (hm : S.Monotone) (hc : c.Scales S ck) : RScales S (breed (c.scaled S ck)) (breed c) := by
  unfold breed
  refine act_scales _ ?_
  unfold breedBody
  refine SimOn.get_bind fun s _ => SimOn.bind (ρ := id) (world_scales ?_) fun is => SimOn.modify fun _ hs => ⟨rfl, hs⟩
  show Scales S (breedAll c.size ((c.subs.map (SubCfg.scaled S)).zip s.inds)) _
  rw [List.zip_map_left]
  exact breedAll_scales hm _ fun p hp => hc.subs p.1 (List.of_mem_zip hp).1

theorem initRun_scales (hm : S.Monotone) (hc : c.Scales S ck) : RScales S (initRun (c.scaled S ck)) (initRun c) := by
  unfold initRun
  exact SimOn.get_bind fun s _ => SimOn.bind (setSeed_scales _) fun _ => SimOn.bind (createPopulation_scales hc) fun _ =>
    SimOn.bind (evaluatePopulation_scales hm) fun b => SimOn.bind (SimOn.modify fun _ hs => ⟨rfl, hs⟩) fun _ => publish_scales _ _

theorem consult_scaled {ts' ts : List (Checker G κ)} (ht : List.Forall₂ (CheckerScales S) ts' ts) (ks : List κ)
    {heap : List (Ind G)} (hh : ∀ i ∈ heap, S.Suits i.fit.bloat) (inds : List (Option (List Nat))) (best : Option Nat) (gen : Nat) :
    consult (heap.map (Ind.scaled S)) inds best gen ts' ks = consult heap inds best gen ts ks := by
  induction ht generalizing ks with
  | nil => cases ks <;> rfl
  | cons h _ ih =>
    cases ks with
    | nil => rfl
    | cons k ks => simp only [consult, h k heap inds best gen hh, ih]

theorem shouldTerminate_scales (hc : c.Scales S ck) (gen : Nat) :
    RScales S (shouldTerminate (c.scaled S ck) gen) (shouldTerminate c gen) := by
  intro s hs
  have hk := hc.checkers
  unfold shouldTerminate
  show (match ck with | .none => _ | .one t => _ | .many ts => _) = _ ∧ _
  cases hcc : c.checker with
  | none =>
    rw [hcc] at hk
    cases hk
    exact ⟨rfl, hs⟩
  | one t =>
    rw [hcc] at hk
    cases hk with
    | one h =>
      dsimp only
      show (match s.checkers with | k :: ks => _ | [] => _) = _ ∧ _
      cases s.checkers with
      | nil => exact ⟨rfl, hs⟩
      | cons k ks =>
        dsimp only
        rw [show (Run.scaled S s).w.heap = s.w.heap.map (Ind.scaled S) from rfl,
          show (Run.scaled S s).inds = s.inds from rfl, show (Run.scaled S s).bestOfRun = s.bestOfRun from rfl,
          h k s.w.heap s.inds s.bestOfRun gen hs]
        rcases t k s.w.heap s.inds s.bestOfRun gen with ⟨r, k'⟩
        dsimp only
        rw [except_map_id]
        exact ⟨rfl, hs⟩
  | many ts =>
    rw [hcc] at hk
    cases hk with
    | many h =>
      dsimp only
      rw [show (Run.scaled S s).w.heap = s.w.heap.map (Ind.scaled S) from rfl,
        show (Run.scaled S s).inds = s.inds from rfl, show (Run.scaled S s).bestOfRun = s.bestOfRun from rfl,
        show (Run.scaled S s).checkers = s.checkers from rfl, consult_scaled h s.checkers hs]
      rcases consult s.w.heap s.inds s.bestOfRun gen ts s.checkers with ⟨r, ks⟩
      cases r <;> exact ⟨rfl, hs⟩

theorem updateGen_scales (gen : Nat) : RScales S (updateGen gen) (updateGen gen : RM G κ Unit) := by
  unfold updateGen
  refine SimOn.get_bind fun s _ => SimOn.forL s.inds fun is _ => ?_
  cases is with
  | none => exact SimOn.raise
  | some is => exact world_scales (SimOn.forL is fun r _ => update_scales r (fun _ => rfl) fun _ => rfl)

theorem recordBest_scales (hm : S.Monotone) (b : Nat) : RScales S (recordBest (c.scaled S ck) b) (recordBest c b) := by
  unfold recordBest
  refine SimOn.get_bind fun s _ => SimOn.bind (world_scales (betterOf_scales hm b s.bestOfRun)) fun v => ?_
  exact SimOn.ite Iff.rfl (fun _ => SimOn.modify fun _ hs => ⟨rfl, hs⟩) fun _ => SimOn.pure rfl

theorem recordWorst_scales (hm : S.Monotone) : RScales S (recordWorst (c.scaled S ck)) (recordWorst c) := by
  unfold recordWorst
  refine SimOn.get_bind fun s _ => ?_
  show SimOn _ _ _ (match c.subs.map (SubCfg.scaled S), s.inds with | sub :: _, some is :: _ => _ | _, _ => _) _
  rcases hs : c.subs with _ | ⟨sub, rest⟩
  · exact SimOn.raise
  · rcases hi : s.inds with _ | ⟨_ | is, irest⟩
    · exact SimOn.raise
    · exact SimOn.raise
    · refine SimOn.bind (ρ := id) (world_scales (reading_scales fun w hw => ?_)) fun w => SimOn.modify fun _ hs => ⟨rfl, hs⟩
      rw [except_map_id]
      exact worstIndividual_scaled hm hw _ is

theorem generationIteration_scales (hm : S.Monotone) (hc : c.Scales S ck) :
    RScales S (generationIteration (c.scaled S ck)) (generationIteration c) := by
  unfold generationIteration
  exact SimOn.bind (breed_scales hm hc) fun _ => SimOn.bind (evaluatePopulation_scales hm) fun b =>
    SimOn.bind (SimOn.modify fun _ hs => ⟨rfl, hs⟩) fun _ => SimOn.bind (recordBest_scales hm b) fun _ => recordWorst_scales hm

theorem mainLoop_scales (hm : S.Monotone) (hc : c.Scales S ck) (n gen : Nat) :
    RScales S (mainLoop (c.scaled S ck) n gen) (mainLoop c n gen) := by
  induction n generalizing gen with
  | zero => exact SimOn.pure rfl
  | succ n ih =>
    unfold mainLoop
    refine SimOn.bind (SimOn.modify fun _ hs => ⟨rfl, hs⟩) fun _ => SimOn.bind (updateGen_scales gen) fun _ => SimOn.get_bind fun s _ => ?_
    refine SimOn.bind (setSeed_scales _) fun _ => SimOn.bind (SimOn.modify fun _ hs => ⟨rfl, hs⟩) fun _ => ?_
    refine SimOn.bind (generationIteration_scales hm hc) fun _ => SimOn.bind (shouldTerminate_scales hc gen) fun stop => ?_
    exact SimOn.ite Iff.rfl (fun _ => SimOn.bind (SimOn.modify fun _ hs => ⟨rfl, hs⟩) fun _ => publish_scales _ _)
      fun _ => SimOn.bind (publish_scales _ _) fun _ => ih _

theorem evolve_scales (hm : S.Monotone) (hc : c.Scales S ck) : RScales S (evolve (c.scaled S ck)) (evolve c) := by
  unfold evolve
  refine SimOn.bind (initRun_scales hm hc) fun _ => SimOn.bind (ρ := id) ?_ fun _ => SimOn.bind (publish_scales _ _) fun _ =>
    SimOn.modify fun _ hs => ⟨rfl, hs⟩
  unfold afterInit
  refine SimOn.get_bind fun s _ => SimOn.bind (shouldTerminate_scales hc _) fun stop => ?_
  exact SimOn.ite Iff.rfl (fun _ => SimOn.bind (SimOn.modify fun _ hs => ⟨rfl, hs⟩) fun _ => publish_scales _ _)
    fun _ => mainLoop_scales hm hc _ _

end Verif.Evo
