import Verif.Model.NSGA2Library
import Verif.Lemmas.Reloc

/-! # NSGA-II with objectives measured in other units

Every objective `j` is replaced by `a j * x + b j` with `a j > 0`.  Domination, the order of each objective and the crowding
distances stay the same, so everything commutes with the change. -/

namespace Verif.Moo
open PyM
variable {G : Type}

/-- For each objective, a factor and an offset. -/
structure Units where
  factor : Nat → ℚ
  offset : Nat → ℚ

/-- The factors are positive. -/
def Units.Proper (U : Units) : Prop := ∀ j, 0 < U.factor j

/-- The value of objective `j` in the other units. -/
def Units.conv (U : Units) (j : Nat) (x : ℚ) : ℚ := U.factor j * x + U.offset j

/-- The values of all objectives in the other units. -/
def Units.all (U : Units) (v : List ℚ) : List ℚ := v.mapIdx U.conv

/-- The units of all objectives but the first. -/
def Units.tail (U : Units) : Units := ⟨fun j => U.factor (j + 1), fun j => U.offset (j + 1)⟩

variable {U : Units}

theorem Units.all_cons (x : ℚ) (v : List ℚ) : U.all (x :: v) = U.conv 0 x :: U.tail.all v := by
  unfold Units.all
  rw [List.mapIdx_cons]
  rfl

theorem Units.all_length (v : List ℚ) : (U.all v).length = v.length := by simp [Units.all]

theorem Units.all_get (v : List ℚ) (j : Nat) : (U.all v)[j]? = (v[j]?).map (U.conv j) := by simp [Units.all]

theorem Units.Proper.tail (h : U.Proper) : U.tail.Proper := fun j => h (j + 1)

theorem Units.conv_lt (h : U.Proper) (j : Nat) (x y : ℚ) : U.conv j x < U.conv j y ↔ x < y := by
  unfold Units.conv
  have := h j
  constructor
  · intro hxy
    exact lt_of_mul_lt_mul_left (by linarith) this.le
  · intro hxy
    have := mul_lt_mul_of_pos_left hxy this
    linarith

theorem Units.conv_le (h : U.Proper) (j : Nat) (x y : ℚ) : U.conv j x ≤ U.conv j y ↔ x ≤ y := by
  rw [← not_lt, ← not_lt, Units.conv_lt h]

theorem Units.conv_sub (j : Nat) (x y : ℚ) : U.conv j x - U.conv j y = U.factor j * (x - y) := by
  unfold Units.conv
  ring

/-- A fitness object in the other units. -/
def Fit.units (U : Units) (f : Fit) : Fit := { f with objs := f.objs.map U.all }

/-- The fitness objects in the other units. -/
def Heap.units (U : Units) (h : Heap) : Heap := fun r => (h r).units U

theorem pure_units (f : Fit) : (f.units U).pure = f.pure.map U.all := by
  unfold Fit.pure Fit.units
  cases f.objs <;> rfl

theorem isEvaluated_units (f : Fit) : (f.units U).isEvaluated = f.isEvaluated := by
  unfold Fit.isEvaluated Fit.units
  cases f.objs <;> rfl

theorem comparable_units (f g : Fit) :
    (f.units U).comparable (g.units U) = (f.comparable g).map fun p => (U.all p.1, U.all p.2) := by
  unfold Fit.comparable
  rw [isEvaluated_units, isEvaluated_units, pure_units, pure_units]
  split
  · rfl
  · cases g.pure with
    | error e => rfl
    | ok b =>
      cases f.pure with
      | error e => rfl
      | ok a =>
        simp only [Except.map, Units.all_length]
        split <;> rfl

theorem zip_units (h : U.Proper) (bs : List Bool) (a b : List ℚ) :
    (bs.zip ((U.all a).zip (U.all b))).all (fun z => atLeast z.1 z.2.1 z.2.2) = (bs.zip (a.zip b)).all (fun z => atLeast z.1 z.2.1 z.2.2) ∧
    (bs.zip ((U.all a).zip (U.all b))).any (fun z => betterObj z.1 z.2.1 z.2.2) = (bs.zip (a.zip b)).any (fun z => betterObj z.1 z.2.1 z.2.2) := by
  induction bs generalizing U a b with
  | nil => simp
  | cons d bs ih =>
    cases a with
    | nil => simp [Units.all]
    | cons x a =>
      cases b with
      | nil => simp [Units.all]
      | cons y b =>
        rw [Units.all_cons, Units.all_cons]
        simp only [List.zip_cons_cons, List.all_cons, List.any_cons, (ih h.tail a b).1, (ih h.tail a b).2]
        have h1 : atLeast d (U.conv 0 x) (U.conv 0 y) = atLeast d x y := by
          unfold atLeast
          simp only [Units.conv_le h]
        have h2 : betterObj d (U.conv 0 x) (U.conv 0 y) = betterObj d x y := by
          unfold betterObj
          simp only [Units.conv_lt h]
        exact ⟨by rw [h1], by rw [h2]⟩

theorem dominate_units (h : U.Proper) (f g : Fit) : (f.units U).dominate (g.units U) = f.dominate g := by
  unfold Fit.dominate
  rw [comparable_units]
  cases f.comparable g with
  | error e => rfl
  | ok p =>
    show (match f.dirs with | .same _ => _ | .each bs => _) = (match f.dirs with | .same _ => _ | .each bs => _)
    cases f.dirs with
    | same b => rfl
    | each bs =>
      dsimp only
      rw [(zip_units h bs p.1 p.2).1, (zip_units h bs p.1 p.2).2]

theorem betterThan_units (f g : Fit) : (f.units U).betterThan (g.units U) = f.betterThan g := by
  unfold Fit.betterThan
  rw [comparable_units]
  show (match f.rank with | none => _ | some r => _) = (match f.rank with | none => _ | some r => _)
  have hr : (f.units U).rank = f.rank := rfl
  rw [hr]
  cases f.rank with
  | none => rfl
  | some r =>
    dsimp only
    cases f.comparable g with
    | error e => rfl
    | ok p => rfl

/-! ## Front sorting -/

theorem initDom_units (h : U.Proper) (hp : Heap) (xs : List Nat) (d : Dom) : initDom (hp.units U) xs d = initDom hp xs d := by
  have h1 : ∀ d x y, handle (hp.units U) d x y = handle hp d x y := by
    intro d x y
    unfold handle Heap.units
    rw [dominate_units h, dominate_units h]
  have h2 : ∀ x ys d, handleAll (hp.units U) x ys d = handleAll hp x ys d := by
    intro x ys
    induction ys with
    | nil => intro d; rfl
    | cons y ys ih =>
      intro d
      unfold handleAll
      rw [h1]
      cases handle hp d x y with
      | error e => rfl
      | ok d' => exact ih d'
  induction xs generalizing d with
  | nil => rfl
  | cons x xs ih =>
    unfold initDom
    rw [h2]
    cases handleAll hp x xs d with
    | error e => rfl
    | ok d' => exact ih d'

theorem keys_units (hp : Heap) (j : Nat) (rs : List Nat) :
    keys (hp.units U) j rs = (keys hp j rs).map (List.map fun p => (p.1, U.conv j p.2)) := by
  induction rs with
  | nil => rfl
  | cons r rs ih =>
    unfold keys
    rw [show (hp.units U) r = (hp r).units U from rfl, pure_units, ih]
    cases (hp r).pure with
    | error e => rfl
    | ok v =>
      simp only [Except.map, Units.all_get]
      cases v[j]? with
      | none => rfl
      | some q =>
        simp only [Option.map]
        cases keys hp j rs <;> rfl

theorem set_units {f : Fit → Fit} (hf : ∀ g, f (g.units U) = (f g).units U) (hp : Heap) (r : Nat) :
    (hp.units U).set r f = (hp.set r f).units U := by
  funext x
  unfold Heap.set Heap.units
  dsimp only
  split
  · exact hf _
  · rfl

theorem setAll_units {f : Fit → Fit} (hf : ∀ g, f (g.units U) = (f g).units U) (rs : List Nat) (hp : Heap) :
    (hp.units U).setAll f rs = (hp.setAll f rs).units U := by
  induction rs generalizing hp with
  | nil => rfl
  | cons r rs ih =>
    unfold Heap.setAll
    rw [set_units hf, ih]

theorem setCrowd_units (hp : Heap) (c : Crowd) (r : Nat) : (hp.units U).setCrowd c r = (hp.setCrowd c r).units U :=
  set_units (f := fun f => { f with crowding := c }) (fun _ => rfl) hp r

theorem addCrowd_units (hp : Heap) (r : Nat) (q : ℚ) : (hp.units U).addCrowd r q = (hp.addCrowd r q).units U :=
  set_units (f := fun f => { f with crowding := f.crowding.add q }) (fun _ => rfl) hp r

theorem addGaps_units (h : U.Proper) (j : Nat) (d : ℚ) (l : List (Nat × ℚ)) (hp : Heap) :
    addGaps (U.factor j * d) (l.map fun p => (p.1, U.conv j p.2)) (hp.units U) = (addGaps d l hp).units U := by
  induction l generalizing hp with
  | nil => rfl
  | cons a l ih =>
    match l, ih with
    | [], _ => rfl
    | [b], _ => rfl
    | b :: c :: rest, ih =>
      have := ih (hp.addCrowd b.1 ((c.2 - a.2) / d))
      simp only [List.map_cons, addGaps] at this ⊢
      rw [Units.conv_sub, mul_div_mul_left _ _ (h j).ne', addCrowd_units, this]

theorem crowdObj_units (h : U.Proper) (hp : Heap) (front : List Nat) (j : Nat) :
    crowdObj (hp.units U) front j = (crowdObj hp front j).map fun p => (p.1.units U, p.2) := by
  unfold crowdObj
  rw [keys_units]
  cases keys hp j front with
  | error e => rfl
  | ok ks =>
    simp only [Except.map]
    rw [Py.sortBy_map (fun p : Nat × ℚ => (p.1, U.conv j p.2)) (le := fun a b => decide (a.2 ≤ b.2))
      (fun a b => by simp only [Units.conv_le h])]
    cases Py.sortBy (fun a b : Nat × ℚ => decide (a.2 ≤ b.2)) ks with
    | nil => rfl
    | cons k rest =>
      simp only [List.map_cons]
      have hl : (((k.1, U.conv j k.2) : Nat × ℚ) :: List.map (fun p => (p.1, U.conv j p.2)) rest).getLast (by simp) =
          (((k :: rest).getLast (by simp)).1, U.conv j ((k :: rest).getLast (by simp)).2) := by
        have := List.getLast_map (f := fun p : Nat × ℚ => (p.1, U.conv j p.2)) (l := k :: rest) (by simp)
        simpa using this
      rw [hl]
      generalize (k :: rest).getLast (by simp) = last
      simp only [Units.conv_sub, setCrowd_units, mul_eq_zero, (h j).ne', false_or]
      congr 2
      · split
        · rfl
        · exact addGaps_units h j _ (k :: rest) _
      · simp

theorem crowdObjs_units (h : U.Proper) (js : List Nat) (hp : Heap) (front : List Nat) :
    crowdObjs (hp.units U) front js = (crowdObjs hp front js).map fun p => (p.1.units U, p.2) := by
  induction js generalizing hp front with
  | nil => rfl
  | cons j js ih =>
    unfold crowdObjs
    rw [crowdObj_units h]
    cases crowdObj hp front j with
    | error e => rfl
    | ok p => exact ih p.1 p.2

theorem calcCrowding_units (h : U.Proper) (hp : Heap) (front : List Nat) :
    calcCrowding (hp.units U) front = (calcCrowding hp front).map fun p => (p.1.units U, p.2) := by
  unfold calcCrowding
  rw [setAll_units (f := fun f => { f with crowding := .fin 0 }) (fun _ => rfl)]
  cases front with
  | nil => rfl
  | cons r rs =>
    simp only
    rw [show ∀ (hp : Heap), (hp.units U) r = (hp r).units U from fun _ => rfl, pure_units]
    cases (Heap.setAll hp (fun f => { f with crowding := .fin 0 }) (r :: rs) r).pure with
    | error e => rfl
    | ok v =>
      simp only [Except.map, Units.all_length]
      exact crowdObjs_units h _ _ _

/-- The variables of the loop in the other units. -/
def SortState.units (U : Units) (s : SortState) : SortState := { s with heap := s.heap.units U }

theorem sortStep_units (h : U.Proper) (order : Nat → List Nat → List Nat) (n : Int) (s : SortState) :
    sortStep order n (s.units U) = (sortStep order n s).map (SortState.units U) := by
  unfold sortStep
  show (match calcCrowding (s.heap.units U) (paretoFront s.dom s.source) with | .error e => _ | .ok (h, front) => _) = _
  rw [calcCrowding_units h]
  cases calcCrowding s.heap (paretoFront s.dom s.source) with
  | error e => rfl
  | ok p =>
    simp only [Except.map]
    rw [setAll_units (f := fun f => { f with rank := some (s.units U).rank }) (fun _ => rfl)]
    rfl

theorem sortLoop_units (h : U.Proper) (order : Nat → List Nat → List Nat) (n : Int) (fuel : Nat) (s : SortState) :
    sortLoop order n fuel (s.units U) = (sortLoop order n fuel s).map (Except.map fun p => (p.1.units U, p.2)) := by
  induction fuel generalizing s with
  | zero =>
    unfold sortLoop
    show (if (s.dest.length : Int) < n then _ else _) = _
    split <;> rfl
  | succ fuel ih =>
    unfold sortLoop
    show (if (s.dest.length : Int) < n then _ else _) = _
    split
    · simp only [sortStep_units h]
      cases sortStep order n s with
      | error e => rfl
      | ok s' => exact ih s'
    · rfl

theorem select_units (h : U.Proper) (order : Nat → List Nat → List Nat) (fuel : Nat) (hp : Heap) (source dest : List Nat)
    (n : Option Int) : select order fuel (hp.units U) source dest n =
      (select order fuel hp source dest n).map (Except.map fun p => (p.1.units U, p.2)) := by
  unfold select
  rw [initDom_units h]
  cases initDom hp source Dom.empty with
  | error e => rfl
  | ok d => exact sortLoop_units h order _ fuel ⟨hp, d, source, dest, 1⟩

/-! ## Breeding and evaluation -/

/-- The world in the other units. -/
def MWorld.units (U : Units) (w : MWorld G) : MWorld G := { w with fits := w.fits.units U }

/-- The computation is the same in the other units. -/
abbrev MSame (U : Units) {α : Type} (m' m : MM G α) : Prop := Sim (MWorld.units U) id m' m

theorem mrand_units {α : Type} (m : Rand α) : MSame U (mrand m : MM G α) (mrand m) :=
  Sim.zoom (Sim.refl m) (fun _ => rfl) (fun _ _ => rfl)

theorem setFit_units (r : Nat) (f : Fit) : MSame U (setFit r (f.units U) : MM G Unit) (setFit r f) := by
  refine Sim.modify fun w => ?_
  unfold MWorld.units
  congr 1
  funext x
  unfold Heap.units
  simp only
  split <;> rfl

theorem resetFit_units (r : Nat) : MSame U (resetFit r : MM G Unit) (resetFit r) :=
  Sim.get_bind fun w => setFit_units r (w.fits r).reset

theorem copy_units (f : Fit) : (f.units U).copy = f.copy.units U := by
  unfold Fit.copy
  show (if f.cache then _ else _) = _
  split <;> rfl

theorem cloneM_units (r : Nat) : MSame U (cloneM r : MM G Nat) (cloneM r) := by
  refine Sim.get_bind fun w => Sim.bind (ρ := id) (Sim.set ?_) fun _ => Sim.pure rfl
  unfold MWorld.units
  congr 1
  funext x
  unfold Heap.units
  simp only
  split
  · exact copy_units _
  · rfl

theorem mapL_units {α β : Type} {f' f : α → MM G β} (h : ∀ x, MSame U (f' x) (f x)) (xs : List α) : MSame U (mapL f' xs) (mapL f xs) := by
  have := Sim.mapL (ζ := id) (ρ := id) (L := MWorld.units U) (f' := f') (f := f) xs fun x _ => h x
  rw [List.map_id] at this
  intro s
  have := this s
  rwa [show (List.map id : List β → List β) = id from funext List.map_id] at this

theorem forL_units {α : Type} {f' f : α → MM G Unit} (h : ∀ x, MSame U (f' x) (f x)) (xs : List α) : MSame U (forL f' xs) (forL f xs) := by
  have := Sim.forL (ζ := id) (L := MWorld.units U) (f' := f') (f := f) xs fun x _ => h x
  rwa [List.map_id] at this

/-- The operator does not look at fitness. -/
def MOp.Same (U : Units) (o : MOp G) : Prop := ∀ refs, MSame U (o.apply refs) (o.apply refs)

theorem applyOp_units {o : MOp G} (ho : o.Same U) (refs : List Nat) : MSame U (applyOp o refs) (applyOp o refs) := by
  refine Sim.bind (ρ := id) (mrand_units _) fun u => Sim.ite Iff.rfl (fun _ => ?_) fun _ => Sim.pure rfl
  refine Sim.bind (ρ := id) (forL_units resetFit_units _) fun _ => Sim.bind (ρ := id) (ho refs) fun r => ?_
  cases r with
  | none => exact Sim.raise
  | some res => exact Sim.pure rfl

theorem applyChunksM_units {o : MOp G} (ho : o.Same U) (is inds : List Nat) : MSame U (applyChunksM o is inds) (applyChunksM o is inds) := by
  induction is generalizing inds with
  | nil => exact Sim.pure rfl
  | cons i is ih => exact Sim.bind (ρ := id) (applyOp_units ho _) fun res => ih _

theorem applyOps_units {os : List (MOp G)} (ho : ∀ o ∈ os, o.Same U) (inds : List Nat) : MSame U (applyOps os inds) (applyOps os inds) := by
  induction os generalizing inds with
  | nil => exact Sim.pure rfl
  | cons o os ih =>
    exact Sim.ite Iff.rfl (fun _ => Sim.raise) fun _ => Sim.bind (ρ := id) (applyChunksM_units (ho o (by simp)) _ _) fun inds' =>
      ih (fun o h => ho o (by simp [h])) inds'

/-- The selection method looks at ranks and crowding at most. -/
def MSel.Same (U : Units) (s : MSel G) : Prop := ∀ source dest, MSame U (s.select source dest) (s.select source dest)

theorem winner_units (b : Nat) (ps : List Nat) : MSame U (winner b ps : MM G Nat) (winner b ps) := by
  induction ps generalizing b with
  | nil => exact Sim.pure rfl
  | cons p ps ih =>
    refine Sim.get_bind fun w => Sim.bind (ρ := id) ?_ fun x => ih _
    show MSame U (mrand (((w.fits p).units U).betterThan ((w.fits b).units U))) _
    rw [betterThan_units]
    exact mrand_units _

theorem pickM_units (t : List Nat) : MSame U (pickM t : MM G Nat) (pickM t) := by
  cases t with
  | nil => exact Sim.raise
  | cons x xs => exact Sim.bind (ρ := id) (winner_units _ _) fun w => cloneM_units w

theorem tournamentM_units (k : Nat) (rep : Bool) (source dest : List Nat) :
    MSame U (tournamentM k rep source dest : MM G (List Nat)) (tournamentM k rep source dest) :=
  Sim.ite Iff.rfl (fun _ => Sim.raise) fun _ => Sim.bind (ρ := id) (mrand_units _) fun tours =>
    Sim.bind (ρ := id) (mapL_units pickM_units _) fun ws => Sim.pure rfl

theorem lexLe_units (h : U.Proper) (a b : List ℚ) : lexLe (U.all a) (U.all b) = lexLe a b := by
  induction a generalizing U b with
  | nil => rfl
  | cons x a ih =>
    cases b with
    | nil => rw [Units.all_cons]; rfl
    | cons y b =>
      rw [Units.all_cons, Units.all_cons]
      simp only [lexLe, Units.conv_lt h, ih h.tail]

theorem lexKeys_units (hp : Heap) (rs : List Nat) :
    lexKeys (hp.units U) rs = (lexKeys hp rs).map (List.map fun p => (p.1, U.all p.2)) := by
  induction rs with
  | nil => rfl
  | cons r rs ih =>
    unfold lexKeys
    rw [show (hp.units U) r = (hp r).units U from rfl, pure_units, ih]
    cases (hp r).pure with
    | error e => rfl
    | ok v =>
      simp only [Except.map]
      cases lexKeys hp rs <;> rfl

theorem elitesM_units (h : U.Proper) (n : Int) (hib : Bool) (source dest : List Nat) :
    MSame U (elitesM n hib source dest : MM G (List Nat)) (elitesM n hib source dest) := by
  refine Sim.get_bind fun w => ?_
  refine Sim.bind (ρ := List.map fun p : Nat × List ℚ => (p.1, U.all p.2)) (Sim.ofExcept (lexKeys_units w.fits source)) fun ks => ?_
  have e : ((Py.sortBy (fun a b : Nat × List ℚ => if hib then lexLe b.2 a.2 else lexLe a.2 b.2) (ks.map fun p => (p.1, U.all p.2))).map Prod.fst) =
      ((Py.sortBy (fun a b : Nat × List ℚ => if hib then lexLe b.2 a.2 else lexLe a.2 b.2) ks).map Prod.fst) := by
    rw [Py.sortBy_map (fun p : Nat × List ℚ => (p.1, U.all p.2)) (le := fun a b : Nat × List ℚ => if hib then lexLe b.2 a.2 else lexLe a.2 b.2)
      (fun a b => by simp only [lexLe_units h])]
    simp
  simp only [e]
  exact Sim.bind (ρ := id) (mapL_units cloneM_units _) fun cs => Sim.pure rfl

/-- The sub-population in the other units: the values the evaluator returns are converted. -/
def MSub.units (U : Units) (c : MSub G) : MSub G := { c with evaluate := fun g => do let v ← c.evaluate g; PyM.pure (U.all v) }

/-- Creators, operators and selection methods do not look at the values of objectives, except through ranks and crowding. -/
structure MSub.Same (U : Units) (c : MSub G) : Prop where
  create : MSame U c.create c.create
  ops : ∀ o ∈ c.ops, o.Same U
  sels : ∀ s ∈ c.sels, s.Same U

theorem eliteStageM_units (h : U.Proper) (c : MSub G) (inds : List Nat) : MSame U (eliteStageM (c.units U) inds) (eliteStageM c inds) := by
  unfold eliteStageM
  exact Sim.ite Iff.rfl (fun _ => elitesM_units h _ _ _ _) fun _ => Sim.pure rfl

theorem nsga2Breed_units (h : U.Proper) {c : MSub G} (hc : c.Same U) (inds : List Nat) :
    MSame U (nsga2Breed (c.units U) inds) (nsga2Breed c inds) := by
  refine Sim.bind (ρ := id) (eliteStageM_units h c inds) fun _ => Sim.bind (ρ := id) ?_ fun p => ?_
  · exact Sim.bind (ρ := id) (mapL_units cloneM_units _) fun old => Sim.bind (ρ := id) (applyOps_units hc.ops inds) fun new =>
      Sim.bind (ρ := id) (forL_units resetFit_units _) fun _ => Sim.pure rfl
  · show MSame U (match c.sels with | [] => _ | s :: _ => _) _
    have := hc.sels
    cases hs : c.sels with
    | nil => exact Sim.raise
    | cons s rest => exact this s (by rw [hs]; simp) _ _

theorem checkArities_units {U : Units} (n : Nat) (as : List Nat) : MSame U (Evo.checkArities n as : MM G Unit) (Evo.checkArities n as) := by
  induction as with
  | nil => exact Sim.pure rfl
  | cons a as ih => exact Sim.ite Iff.rfl (fun _ => Sim.raise) fun _ => Sim.ite Iff.rfl (fun _ => Sim.raise) fun _ => ih

theorem simpleBreed_units (h : U.Proper) {c : MSub G} (hc : c.Same U) (inds : List Nat) :
    MSame U (simpleBreed (c.units U) inds) (simpleBreed c inds) := by
  refine Sim.bind (ρ := id) (checkArities_units _ _) fun _ => Sim.bind (ρ := id) (eliteStageM_units h c inds) fun es => ?_
  show MSame U (match c.sels with | [] => _ | s :: _ => _) _
  have := hc.sels
  cases hs : c.sels with
  | nil => exact Sim.raise
  | cons s rest =>
    exact Sim.bind (ρ := id) (this s (by rw [hs]; simp) _ _) fun sel => applyOps_units hc.ops sel

theorem runEvalM_units (c : MSub G) (r : Nat) : Sim (MWorld.units U) U.all (runEvalM (c.units U) r) (runEvalM c r) := by
  refine Sim.get_bind fun w => ?_
  refine Sim.zoom (L := id) ?_ (fun _ => rfl) (fun _ _ => rfl)
  intro t
  show ((do let v ← c.evaluate (w.genome r); PyM.pure (U.all v)) : Rand (List ℚ)) t = _
  rw [bind_run]
  rcases c.evaluate (w.genome r) t with ⟨v, t'⟩
  cases v <;> rfl

theorem fit_units (d : Dirs) (v : List ℚ) : d.fit (U.all v).length = d.fit v.length := by rw [Units.all_length]

theorem assign_units (r : Nat) (v : List ℚ) : MSame U (assign r (U.all v) : MM G Unit) (assign r v) := by
  refine Sim.get_bind fun w => Sim.bind (ρ := Fit.units U) (Sim.ofExcept ?_) fun f => setFit_units r f
  show ((w.fits r).units U).set (U.all v) = _
  unfold Fit.set Fit.units
  cases (w.fits r).objs with
  | some x => rfl
  | none => simp only [Option.map, Except.map, fit_units]

theorem executorMap_units {α β : Type} {ρ : α → β} {order : List Nat} {task' : Nat → MM G β} {task : Nat → MM G α}
    (ht : ∀ r, Sim (MWorld.units U) ρ (task' r) (task r)) (refs : List Nat) :
    Sim (MWorld.units U) (List.map ρ) (Evo.executorMap order task' refs) (Evo.executorMap order task refs) := by
  unfold Evo.executorMap
  have h1 := Sim.mapL (L := MWorld.units U) (ρ := fun p : Nat × α => (p.1, ρ p.2)) (ζ := id)
    (f' := Evo.runTask task' refs) (f := Evo.runTask task refs) order (fun i _ => by
      unfold Evo.runTask
      dsimp only [id]
      cases refs[i]? with
      | none => exact Sim.raise
      | some r => exact Sim.bind (ht r) fun v => Sim.pure rfl)
  rw [List.map_id] at h1
  refine Sim.bind h1 fun rs => ?_
  have h2 := Sim.mapL (L := MWorld.units U) (ρ := ρ) (ζ := id)
    (f' := (Evo.lookupResult (rs.map fun p => (p.1, ρ p.2)) : Nat → MM G β)) (f := (Evo.lookupResult rs : Nat → MM G α)) (List.range refs.length) (fun i _ => by
      unfold Evo.lookupResult
      rw [List.find?_map]
      dsimp only [id]
      have : ((fun p : Nat × β => p.1 == i) ∘ fun p : Nat × α => (p.1, ρ p.2)) = fun p => p.1 == i := rfl
      rw [this]
      cases rs.find? (fun p => p.1 == i) with
      | none => exact Sim.raise
      | some p => exact Sim.pure rfl)
  rwa [List.map_id] at h2

theorem evaluateM_units (c : MSub G) (order inds : List Nat) : MSame U (evaluateM (c.units U) order inds) (evaluateM c order inds) := by
  refine Sim.bind (ρ := List.map U.all) (executorMap_units (fun r => runEvalM_units c r) inds) fun scores => ?_
  refine Sim.bind (ρ := id) ?_ fun _ => ?_
  · rw [List.zip_map_right]
    exact Sim.forL (ζ := Prod.map id U.all) (inds.zip scores) fun p _ => assign_units p.1 p.2
  · cases inds with
    | nil => exact Sim.raise
    | cons b rest => exact winner_units b rest

theorem sortM_units (h : U.Proper) (order : Nat → List Nat → List Nat) (inds : List Nat) :
    MSame U (sortM order inds : MM G (List Nat)) (sortM order inds) := by
  refine Sim.get_bind fun w => ?_
  show MSame U (match select order (inds.length + 1) (w.fits.units U) inds [] none with | none => _ | some (.error e) => _ | some (.ok (h, dest)) => _) _
  rw [select_units h]
  cases select order (inds.length + 1) w.fits inds [] none with
  | none => exact Sim.raise
  | some r =>
    cases r with
    | error e => exact Sim.raise
    | ok p => exact Sim.bind (ρ := id) (Sim.set rfl) fun _ => Sim.pure rfl

/-! ## The loop -/

/-- An event in the other units. -/
def MEvent.units (U : Units) (e : MEvent) : MEvent := { e with fits := e.fits.units U }

/-- A run in the other units. -/
def MRun.units (U : Units) (s : MRun G) : MRun G := { s with w := s.w.units U, log := s.log.map (MEvent.units U) }

abbrev RSame (U : Units) {α : Type} (m' m : MRM G α) : Prop := Sim (MRun.units U) id m' m

/-- The checker gives the same answers in the other units. -/
def SameAnswers (U : Units) (ck' ck : (heap : Heap) → (inds : List Nat) → (best : Option Nat) → (gen : Nat) → Except Err Bool) : Prop :=
  ∀ heap inds best gen, ck' (heap.units U) inds best gen = ck heap inds best gen

/-- The configuration in the other units. -/
def MCfg.units (U : Units) (c : MCfg G) : MCfg G := { c with sub := c.sub.units U }

/-- The parts of the configuration do not depend on the units of the objectives. -/
structure MCfg.Same (U : Units) (c : MCfg G) : Prop where
  sub : c.sub.Same U
  checker : SameAnswers U c.checker c.checker

theorem mworld_units {α : Type} {m' m : MM G α} (h : MSame U m' m) : RSame U (mworld m') (mworld m) :=
  Sim.zoom h (fun _ => rfl) (fun _ _ => rfl)

theorem mpublish_units (p n : String) : RSame U (mpublish p n : MRM G Unit) (mpublish p n) := by
  refine Sim.modify fun s => ?_
  unfold MRun.units
  simp only [List.map_append, List.map_cons, List.map_nil]
  rfl

theorem mact_units {α : Type} (p : String) {m' m : MRM G α} (h : RSame U m' m) : RSame U (mact p m') (mact p m) :=
  Sim.bind (ρ := id) (mpublish_units _ _) fun _ => Sim.bind (ρ := id) h fun _ => Sim.bind (ρ := id) (mpublish_units _ _) fun _ => Sim.pure rfl

theorem individuals_units : RSame U (individuals : MRM G (List Nat)) individuals := by
  refine Sim.get_bind fun s => ?_
  show RSame U (match s.inds with | none => _ | some is => _) (match s.inds with | none => _ | some is => _)
  cases s.inds with
  | none => exact Sim.raise
  | some is => exact Sim.pure rfl

variable {c : MCfg G}

theorem mevaluate_units : RSame U (mevaluate (c.units U)) (mevaluate c) :=
  mact_units _ (Sim.bind (ρ := id) individuals_units fun is => Sim.get_bind fun s => mworld_units (evaluateM_units c.sub _ is))

theorem msetSeed_units (seed : Nat) : RSame U (msetSeed (c.units U) seed) (msetSeed c seed) := Sim.modify fun _ => rfl

theorem mcreate_units (hc : c.Same U) : RSame U (mcreate (c.units U)) (mcreate c) := by
  refine Sim.get_bind fun s => ?_
  show RSame U (match s.inds with | some _ => _ | none => _) (match s.inds with | some _ => _ | none => _)
  cases s.inds with
  | some is => exact Sim.pure rfl
  | none => exact Sim.bind (ρ := id) (mworld_units hc.sub.create) fun is => Sim.modify fun _ => rfl

theorem minit_units (hc : c.Same U) : RSame U (minit (c.units U)) (minit c) :=
  Sim.get_bind fun _ => Sim.bind (ρ := id) (msetSeed_units _) fun _ => Sim.bind (ρ := id) (mcreate_units hc) fun _ =>
    Sim.bind (ρ := id) mevaluate_units fun _ => Sim.bind (ρ := id) (Sim.modify fun _ => rfl) fun _ => mpublish_units _ _

theorem mgeneration_units (h : U.Proper) (hc : c.Same U) : RSame U (mgeneration (c.units U)) (mgeneration c) := by
  refine Sim.bind (ρ := id) ?_ fun _ => Sim.bind (ρ := id) mevaluate_units fun _ => Sim.bind (ρ := id) ?_ fun _ => ?_
  · refine mact_units _ (Sim.bind (ρ := id) individuals_units fun is => Sim.bind (ρ := id) (mworld_units ?_) fun is' => Sim.modify fun _ => rfl)
    exact Sim.ite Iff.rfl (fun _ => nsga2Breed_units h hc.sub is) fun _ => simpleBreed_units h hc.sub is
  · exact Sim.bind (ρ := id) individuals_units fun is => Sim.get_bind fun s => Sim.bind (ρ := id) (mworld_units (sortM_units h _ is)) fun is' =>
      Sim.modify fun _ => rfl
  · exact Sim.bind (ρ := id) individuals_units fun is => Sim.modify fun _ => rfl

theorem mstop_units (hc : c.Same U) (gen : Nat) : RSame U (mstop (c.units U) gen) (mstop c gen) := by
  refine Sim.get_bind fun s => Sim.ofExcept ?_
  rw [Evo.except_map_id]
  exact hc.checker _ _ _ _

theorem mloop_units (h : U.Proper) (hc : c.Same U) (n gen : Nat) : RSame U (mloop (c.units U) n gen) (mloop c n gen) := by
  induction n generalizing gen with
  | zero => exact Sim.pure rfl
  | succ n ih =>
    unfold mloop
    refine Sim.bind (ρ := id) (Sim.modify fun _ => rfl) fun _ => Sim.bind (ρ := id) individuals_units fun _ => Sim.get_bind fun s => ?_
    refine Sim.bind (ρ := id) (msetSeed_units _) fun _ => Sim.bind (ρ := id) (Sim.modify fun _ => rfl) fun _ => ?_
    refine Sim.bind (ρ := id) (mgeneration_units h hc) fun _ => Sim.bind (ρ := id) (mstop_units hc gen) fun stop => ?_
    refine Sim.ite Iff.rfl (fun _ => ?_) fun _ => ?_
    · exact Sim.bind (ρ := id) (Sim.modify fun _ => rfl) fun _ => mpublish_units _ _
    · exact Sim.bind (ρ := id) (mpublish_units _ _) fun _ => ih _

theorem mevolve_units (h : U.Proper) (hc : c.Same U) : RSame U (mevolve (c.units U)) (mevolve c) := by
  refine Sim.bind (ρ := id) (minit_units hc) fun _ => Sim.bind (ρ := id) ?_ fun _ => Sim.bind (ρ := id) (mpublish_units _ _) fun _ => ?_
  · refine Sim.get_bind fun s => Sim.bind (ρ := id) (mstop_units hc _) fun stop => Sim.ite Iff.rfl (fun _ => ?_) fun _ => mloop_units h hc _ _
    exact Sim.bind (ρ := id) (Sim.modify fun _ => rfl) fun _ => mpublish_units _ _
  · refine Sim.get_bind fun s => ?_
    show RSame U (match s.bestOfRun with | none => _ | some r => _) (match s.bestOfRun with | none => _ | some r => _)
    cases s.bestOfRun with
    | none => exact Sim.raise
    | some r => exact Sim.bind (ρ := U.all) (Sim.ofExcept (pure_units _)) fun _ => Sim.pure rfl

/-! ## The library -/

theorem putGenomesM_units (refs : List Nat) (gs : List G) : MSame U (putGenomesM refs gs) (putGenomesM refs gs) :=
  forL_units (f := fun (p : Nat × G) => modify fun w => { w with genome := fun x => if x = p.1 then p.2 else w.genome x })
    (fun _ => Sim.modify fun _ => rfl) _

theorem onGenomes_units (p : ℚ) (arity : Nat) (f : List G → Rand (Option (List G))) : (MOp.onGenomes p arity f).Same U := by
  intro refs
  refine Sim.get_bind fun w => Sim.bind (ρ := id) (mrand_units _) fun r => ?_
  cases r with
  | none => exact Sim.pure rfl
  | some gs => exact Sim.bind (ρ := id) (putGenomesM_units refs gs) fun _ => Sim.pure rfl

theorem newM_units (empty : G) {fit : Fit} (hf : fit.objs = none) : MSame U (newM empty fit) (newM empty fit) := by
  refine Sim.get_bind fun w => Sim.bind (ρ := id) (Sim.set ?_) fun _ => Sim.pure rfl
  unfold MWorld.units
  congr 1
  funext x
  unfold Heap.units
  simp only
  split
  · cases fit with
    | mk objs dirs cache relative crowding rank =>
      subst hf
      rfl
  · rfl

theorem drawAll_units (genome : Rand G) (refs : List Nat) :
    MSame U (forL (fun r => do
      let g ← mrand genome
      PyM.modify fun w => { w with genome := fun x => if x = r then g else w.genome x }) refs) (forL (fun r => do
      let g ← mrand genome
      PyM.modify fun w => { w with genome := fun x => if x = r then g else w.genome x }) refs) := by
  refine forL_units (fun r => ?_) _
  refine Sim.bind (ρ := id) (mrand_units _) fun g => ?_
  refine Sim.modify fun w => ?_
  rfl

theorem createM_units (empty : G) (genome : Rand G) {fit : Fit} (hf : fit.objs = none) (n : Nat) :
    MSame U (createM empty genome fit n) (createM empty genome fit n) :=
  Sim.bind (ρ := id) (mapL_units (fun _ => newM_units empty hf) _) fun refs => Sim.bind (ρ := id)
    (drawAll_units genome refs) fun _ => Sim.pure rfl

theorem halfM_units {grow full : Nat → Nat → MM G (List Nat)} (hg : ∀ d k, MSame U (grow d k) (grow d k)) (hf : ∀ d k, MSame U (full d k) (full d k))
    (lo ds n : Nat) : MSame U (halfM grow full lo ds n) (halfM grow full lo ds n) := by
  have hgr : ∀ k l, MSame U (halfGroupsM grow full k l) (halfGroupsM grow full k l) := by
    intro k l
    induction l with
    | nil => exact Sim.pure rfl
    | cons d l ih =>
      exact Sim.bind (ρ := id) (hg _ _) fun _ => Sim.bind (ρ := id) (hf _ _) fun _ => Sim.bind (ρ := id) ih fun _ => Sim.pure rfl
  unfold halfM
  refine Sim.ite Iff.rfl (fun _ => Sim.raise) fun _ => Sim.bind (ρ := id) (hgr _ _) fun inds => Sim.ite Iff.rfl (fun _ => ?_) fun _ => Sim.pure rfl
  exact Sim.bind (ρ := id) (hf _ _) fun _ => Sim.pure rfl

end Verif.Moo
