import Verif.Lemmas.Represent
import Verif.Lemmas.Renaming
import Verif.Spec.Library

/-! # Measuring the cells of vectors in other units -/

namespace Verif.GA
open PyM

/-- Other units: the cell `x` becomes `a * x + b`. -/
structure Units where
  a : ℚ
  b : ℚ
  pos : 0 < a

def Units.cell (A : Units) (x : ℚ) : ℚ := A.a * x + A.b

/-- Vectors of integers and bits can only be shifted by whole numbers. -/
def Units.Fits (A : Units) (k : Kind) : Prop := k = .float ∨ A.a = 1 ∧ ∃ z : ℤ, A.b = z

def Bounds.moved (A : Units) : Bounds → Bounds
  | .tup xs => .tup (xs.map A.cell)
  | .lst xs => .lst (xs.map (Prod.map A.cell A.cell))

/-- The vector with its cells and bounds in the other units. -/
def Vec.moved (A : Units) (v : Vec) : Vec := ⟨v.kind, v.bounds.moved A, v.length, v.vector.map A.cell⟩

variable {A : Units} {k : Kind}

theorem cell_lt (x y : ℚ) : A.cell x < A.cell y ↔ x < y := by
  unfold Units.cell
  have := A.pos
  constructor
  · intro h
    have : A.a * x < A.a * y := by linarith
    exact lt_of_mul_lt_mul_left this A.pos.le
  · intro h
    have := mul_lt_mul_of_pos_left h A.pos
    linarith

theorem cell_inj {x y : ℚ} : A.cell x = A.cell y ↔ x = y := by
  constructor
  · intro h
    rcases lt_trichotomy x y with hl | hl | hl
    · exact absurd h (ne_of_lt ((cell_lt x y).2 hl))
    · exact hl
    · exact absurd h.symm (ne_of_lt ((cell_lt y x).2 hl))
  · rintro rfl; rfl

theorem accepted_moved (b : Bounds) (n : Nat) : (b.moved A).accepted n = b.accepted n := by
  cases b <;> simp [Bounds.moved, Bounds.accepted]

theorem checkCell_moved (b : Bounds) (i : Nat) (x : ℚ) : checkCell (b.moved A) i (A.cell x) = checkCell b i x := by
  have h : ∀ lo hi : ℚ, (!decide (A.cell x < A.cell lo ∨ A.cell x > A.cell hi)) = !decide (x < lo ∨ x > hi) := by
    intro lo hi
    simp only [cell_lt, gt_iff_lt]
  cases b with
  | tup xs =>
    rcases xs with _ | ⟨lo, _ | ⟨hi, _ | ⟨y, ys⟩⟩⟩
    · rfl
    · rfl
    · exact congrArg Except.ok (h lo hi)
    · rfl
  | lst bs =>
    simp only [Bounds.moved, checkCell, List.length_map, List.getElem?_map]
    split
    · rfl
    · cases bs[i]? with
      | none => rfl
      | some p => exact congrArg Except.ok (h p.1 p.2)

theorem checkFrom_moved (b : Bounds) (i : Nat) (xs : List ℚ) : checkFrom (b.moved A) i (xs.map A.cell) = checkFrom b i xs := by
  induction xs generalizing i with
  | nil => rfl
  | cons x xs ih => simp only [List.map_cons, checkFrom, checkCell_moved, ih]

theorem checkIfInBounds_moved (v : Vec) : (v.moved A).checkIfInBounds = v.checkIfInBounds := checkFrom_moved v.bounds 0 v.vector

theorem cellValue_moved (v : Vec) (i : Int) : (v.moved A).cellValue i = (v.cellValue i).map A.cell :=
  GP.pyGet_renamed A.cell v.vector i

theorem uniform_sim (lo hi : ℚ) : Sim id A.cell (Rand.uniform (A.cell lo) (A.cell hi)) (Rand.uniform lo hi) := by
  unfold Rand.uniform
  refine Sim.bind (Sim.refl _) fun u => Sim.pure ?_
  simp only [id, Units.cell]
  ring

theorem randint_shift (lo hi : ℚ) (z : ℤ) : Sim id (fun y => y + z) (Rand.randint (lo + z) (hi + z)) (Rand.randint lo hi) := by
  unfold Rand.randint
  have hd : ∀ q : ℚ, (q + z).den = q.den := fun q => Rat.add_intCast_den q z
  have hn : ∀ q : ℚ, q.den = 1 → (q + z).num = q.num + z := by
    intro q hq
    have h1 : ((q + z).num : ℚ) = q + z := Rat.den_eq_one_iff _ |>.1 (by rw [hd, hq])
    have h2 : (q.num : ℚ) = q := Rat.den_eq_one_iff _ |>.1 hq
    have : ((q + z).num : ℚ) = ((q.num + z : ℤ) : ℚ) := by rw [h1, Int.cast_add, h2]
    exact_mod_cast this
  rw [hd, hd]
  by_cases h : lo.den ≠ 1 ∨ hi.den ≠ 1
  · rw [if_pos h, if_pos h]; exact Sim.raise
  · rw [if_neg h, if_neg h]
    push Not at h
    rw [hn lo h.1, hn hi h.2]
    refine Sim.ite (by constructor <;> intro h <;> omega) (fun _ => Sim.raise) fun _ => Sim.bind (Sim.refl _) fun d => Sim.pure ?_
    have : hi.num + z - (lo.num + z) + 1 = hi.num - lo.num + 1 := by ring
    rw [this]
    simp only [id]
    ring

theorem randCell_sim (ha : A.a = 1) {z : ℤ} (hb : A.b = z) (lo hi : ℚ) :
    Sim id A.cell (randCell (A.cell lo) (A.cell hi)) (randCell lo hi) := by
  unfold randCell
  have h : ∀ q, A.cell q = q + z := fun q => by unfold Units.cell; rw [ha, hb, one_mul]
  rw [h, h]
  refine Sim.bind (randint_shift lo hi z) fun y => Sim.pure ?_
  rw [h]
  push_cast
  rfl

theorem number_sim (hA : A.Fits k) (v : Vec) (hv : v.kind = k) (i : Int) :
    Sim id A.cell ((v.moved A).getRandomNumberInBounds i) (v.getRandomNumberInBounds i) := by
  obtain ⟨kind, bounds, length, vector⟩ := v
  simp only at hv
  subst hv
  cases kind with
  | float =>
    cases bounds with
    | tup xs =>
      rcases xs with _ | ⟨lo, _ | ⟨hi, _ | ⟨y, ys⟩⟩⟩
      · exact Sim.raise
      · exact Sim.raise
      · exact uniform_sim lo hi
      · exact Sim.raise
    | lst bs =>
      exact Sim.bind (Sim.ofExcept (GP.pyGet_renamed (Prod.map A.cell A.cell) bs i)) fun p => uniform_sim p.1 p.2
  | int =>
    obtain ⟨ha, z, hb⟩ := hA.resolve_left (by simp)
    cases bounds with
    | tup xs =>
      rcases xs with _ | ⟨lo, _ | ⟨hi, _ | ⟨y, ys⟩⟩⟩
      · exact Sim.raise
      · exact Sim.raise
      · exact randCell_sim ha hb lo hi
      · exact Sim.raise
    | lst bs =>
      exact Sim.bind (Sim.ofExcept (GP.pyGet_renamed (Prod.map A.cell A.cell) bs i)) fun p => randCell_sim ha hb p.1 p.2
  | bit =>
    obtain ⟨ha, z, hb⟩ := hA.resolve_left (by simp)
    cases bounds with
    | tup xs =>
      rcases xs with _ | ⟨lo, _ | ⟨hi, _ | ⟨y, ys⟩⟩⟩
      · exact Sim.raise
      · exact Sim.raise
      · exact randCell_sim ha hb lo hi
      · exact Sim.raise
    | lst bs =>
      rcases bs with _ | ⟨p, _ | ⟨q, bs⟩⟩
      · exact Sim.raise
      · exact Sim.raise
      · exact Sim.raise

theorem gauss_sim (mu sigma : ℚ) : Sim id (fun g => A.a * g) (Rand.gauss (A.a * mu) (A.a * sigma)) (Rand.gauss mu sigma) := by
  unfold Rand.gauss
  refine Sim.bind (Sim.refl _) fun s => Sim.bind (Sim.refl _) fun a => Sim.bind (Sim.refl _) fun b => Sim.pure ?_
  simp only [id]
  ring

theorem gaussNumber_sim (v : Vec) (i : Int) (mu sigma : ℚ) :
    Sim id A.cell ((v.moved A).getRandomNumberWithGauss i (A.a * mu) (A.a * sigma)) (v.getRandomNumberWithGauss i mu sigma) := by
  unfold Vec.getRandomNumberWithGauss
  show Sim id _ (match v.kind with | .float => _ | _ => _) _
  cases v.kind with
  | int => exact Sim.raise
  | bit => exact Sim.raise
  | float =>
    refine Sim.bind (Sim.ofExcept (cellValue_moved v i)) fun x => Sim.bind (gauss_sim mu sigma) fun g => Sim.pure ?_
    simp only [Units.cell]
    ring

theorem bitFlip_sim (v : Vec) (i : Int) : Sim id A.cell ((v.moved A).bitFlip i) (v.bitFlip i) := by
  obtain ⟨kind, bounds, length, vector⟩ := v
  cases kind with
  | int => exact Sim.raise
  | float => exact Sim.raise
  | bit =>
    cases bounds with
    | lst bs => exact Sim.raise
    | tup xs =>
      rcases xs with _ | ⟨lo, _ | ⟨hi, _ | ⟨y, ys⟩⟩⟩
      · exact Sim.raise
      · exact Sim.raise
      · refine Sim.bind (Sim.ofExcept (cellValue_moved ⟨.bit, .tup [lo, hi], length, vector⟩ i)) fun x => Sim.pure ?_
        simp only [cell_inj]
        split <;> rfl
      · exact Sim.raise

/-! ## Creation and crossover -/

theorem createVector_sim (hA : A.Fits k) (n : Nat) (v : Vec) (hv : v.kind = k) :
    Sim id (Vec.moved A) (createVector n defaultGeneCreator (v.moved A)) (createVector n defaultGeneCreator v) := by
  unfold createVector
  have := Sim.mapL (L := id) (ρ := A.cell) (ζ := id) (f' := fun i : Nat => defaultGeneCreator (v.moved A) i)
    (f := fun i : Nat => defaultGeneCreator v i) (List.range n) fun i _ => number_sim hA v hv i
  rw [List.map_id] at this
  refine Sim.bind this fun xs => Sim.pure ?_
  simp [Vec.moved, Vec.setVector]

theorem swapSlice_moved (a b : Int) (v1 v2 : List ℚ) :
    swapSlice a b (v1.map A.cell) (v2.map A.cell) = Prod.map (List.map A.cell) (List.map A.cell) (swapSlice a b v1 v2) := by
  simp only [swapSlice, Py.slice_map, Py.setSlice_map, Prod.map]

theorem swapLoop_moved (m : Nat) (start : Int) (pts : List Nat) (v1 v2 : List ℚ) :
    swapLoop m start pts (v1.map A.cell) (v2.map A.cell) =
      (swapLoop m start pts v1 v2).map (Prod.map (List.map A.cell) (List.map A.cell)) := by
  induction pts using List.twoStepInduction generalizing start v1 v2 with
  | nil => rfl
  | singleton e =>
    simp only [swapLoop, swapSlice_moved, Prod.map]
    split <;> rfl
  | cons_cons e nxt rest ih _ =>
    simp only [swapLoop, swapSlice_moved, Prod.map]
    exact ih _ _ _

theorem kPointApply_sim (n : Nat) (inds : List Vec) :
    Sim id (List.map (Vec.moved A)) (kPointApply n (inds.map (Vec.moved A))) (kPointApply n inds) := by
  cases inds with
  | nil => exact Sim.raise
  | cons a rest =>
    unfold kPointApply
    have hsz : (a.moved A).size = a.size := by simp [Vec.size, Vec.moved]
    show Sim id _ (Rand.sample n ((List.range ((a.moved A).size - 1)).map (· + 1)) >>= _) _
    rw [hsz]
    refine Sim.bind (Sim.refl _) fun s => ?_
    cases rest with
    | nil => exact Sim.raise
    | cons b others =>
      refine Sim.bind (ρ := Prod.map (List.map A.cell) (List.map A.cell)) (Sim.ofExcept ?_) fun w => Sim.pure rfl
      show swapVectorParts n (a.vector.map A.cell) (b.vector.map A.cell) _ = _
      unfold swapVectorParts
      simp only [List.length_map, id]
      exact swapLoop_moved _ _ _ _ _

/-! ## Mutations -/

/-- Corresponding parts of two mutations. -/
structure NPoint.Moves (A : Units) (k : Kind) (m' m : NPoint) : Prop where
  attempts : m'.attempts = m.attempts
  cells : ∀ v : Vec, Sim id id (m'.cellSelector (v.moved A)) (m.cellSelector v)
  value : ∀ v : Vec, v.kind = k → ∀ i, Sim id A.cell (m'.mutVal (v.moved A) i) (m.mutVal v i)
  checker : ∀ v w : Vec, Sim id id (m'.checker (v.moved A) (w.moved A)) (m.checker v w)

theorem setCells_moved (v : Vec) (l : List (Int × ℚ)) :
    setCells (v.moved A) (l.map (Prod.map id A.cell)) = (setCells v l).map (Vec.moved A) := by
  induction l generalizing v with
  | nil => rfl
  | cons p l ih =>
    obtain ⟨i, x⟩ := p
    have : (v.moved A).setCellValue i (A.cell x) = (v.setCellValue i x).map (Vec.moved A) := by
      unfold Vec.setCellValue
      show (match Py.index? (v.vector.map A.cell).length i with | none => _ | some k => _) = _
      rw [List.length_map]
      cases Py.index? v.vector.length i with
      | none => rfl
      | some j => simp [Vec.moved, Except.map, List.map_set]
    simp only [List.map_cons, Prod.map, setCells, id, this]
    cases v.setCellValue i x with
    | error e => rfl
    | ok v' => exact ih v'

theorem setCells_kind (v : Vec) (l : List (Int × ℚ)) (w : Vec) (h : setCells v l = .ok w) : w.kind = v.kind := by
  induction l generalizing v with
  | nil => cases h; rfl
  | cons p l ih =>
    obtain ⟨i, x⟩ := p
    unfold setCells at h
    cases hs : v.setCellValue i x with
    | error e => rw [hs] at h; cases h
    | ok v' =>
      rw [hs] at h
      rw [ih v' h]
      unfold Vec.setCellValue at hs
      cases hi : Py.index? v.vector.length i with
      | none => rw [hi] at hs; cases hs
      | some j => rw [hi] at hs; cases hs; rfl

theorem mutateOne_sim {m' m : NPoint} (hm : NPoint.Moves A k m' m) (v : Vec) (hv : v.kind = k) :
    Sim id (fun r : Bool × Vec => (r.1, r.2.moved A)) (mutateOne m' (v.moved A)) (mutateOne m v) := by
  unfold mutateOne
  refine Sim.bind (hm.cells v) fun pts => ?_
  have h1 := Sim.mapL (L := id) (ρ := A.cell) (ζ := id) (f' := m'.mutVal (v.moved A)) (f := m.mutVal v) pts fun i _ => hm.value v hv i
  rw [List.map_id] at h1
  refine Sim.bind h1 fun vals => ?_
  refine Sim.bind (ρ := Vec.moved A) (Sim.ofExcept ?_) fun v' => ?_
  · rw [show id pts = pts from rfl, List.zip_map_right]
    exact setCells_moved v _
  · refine Sim.bind (hm.checker v v') fun ok => ?_
    exact Sim.ite Iff.rfl (fun _ => Sim.pure rfl) fun _ => Sim.pure (by simp [Vec.moved, Vec.setVector])

theorem mutateOne_kind (m : NPoint) (v : Vec) : Post (mutateOne m v) fun r => r.2.kind = v.kind := by
  unfold mutateOne
  refine Post.bind Post.trivial fun pts _ => Post.bind Post.trivial fun vals _ => ?_
  refine Post.bind (Q := fun w => w.kind = v.kind) (Post.ofExcept fun w hw => setCells_kind v _ w hw) fun w hw => ?_
  refine Post.bind Post.trivial fun ok _ => ?_
  exact Post.ite (fun _ => Post.pure hw) fun _ => Post.pure hw

/-- All vectors are of the class `k`. -/
def AllKind (k : Kind) (l : List Vec) : Prop := ∀ v ∈ l, v.kind = k

theorem attemptOperator_sim {m' m : NPoint} (hm : NPoint.Moves A k m' m) (l : List Vec) (hl : AllKind k l) :
    Sim id (fun r : Bool × List Vec => (r.1, r.2.map (Vec.moved A))) (attemptOperator m' (l.map (Vec.moved A))) (attemptOperator m l) := by
  induction l with
  | nil => exact Sim.pure rfl
  | cons v l ih =>
    simp only [List.map_cons, attemptOperator]
    refine Sim.bind (mutateOne_sim hm v (hl v (by simp))) fun r => ?_
    refine Sim.ite Iff.rfl (fun _ => ?_) fun _ => Sim.pure rfl
    exact Sim.bind (ih fun w hw => hl w (by simp [hw])) fun r2 => Sim.pure rfl

theorem attemptOperator_kind (m : NPoint) (l : List Vec) (hl : AllKind k l) : Post (attemptOperator m l) fun r => AllKind k r.2 := by
  induction l with
  | nil => exact Post.pure (by simp [AllKind])
  | cons v l ih =>
    have hv := hl v (by simp)
    have hl' : AllKind k l := fun w hw => hl w (by simp [hw])
    unfold attemptOperator
    refine Post.bind (mutateOne_kind m v) fun r hr => ?_
    refine Post.ite (fun _ => ?_) fun _ => Post.pure ?_
    · refine Post.bind (ih hl') fun r2 hr2 => Post.pure ?_
      intro w hw
      rcases List.mem_cons.1 hw with rfl | hw
      · rw [hr, hv]
      · exact hr2 w hw
    · intro w hw
      rcases List.mem_cons.1 hw with rfl | hw
      · rw [hr, hv]
      · exact hl' w hw

theorem failableLoop_simQ {α β : Type} {ρ : α → β} {Q : α → Prop} {attempt' : β → Nat → Rand (Bool × β)}
    {attempt : α → Nat → Rand (Bool × α)} {onFail' : β → Rand β} {onFail : α → Rand α}
    (h : ∀ a i, Q a → Sim id (fun r => (r.1, ρ r.2)) (attempt' (ρ a) i) (attempt a i)) (hq : ∀ a i, Q a → Post (attempt a i) fun r => Q r.2)
    (hf : ∀ a, Q a → Sim id ρ (onFail' (ρ a)) (onFail a)) (n i : Nat) (a : α) (ha : Q a) :
    Sim id ρ (failableLoop attempt' onFail' n i (ρ a)) (failableLoop attempt onFail n i a) := by
  induction n generalizing i a with
  | zero => exact hf a ha
  | succ n ih =>
    unfold failableLoop
    intro t
    rw [bind_run, bind_run, h a i ha t]
    rcases hr : attempt a i t with ⟨r, t'⟩
    cases r with
    | error e => rfl
    | ok p =>
      have := hq a i ha t p t' hr
      exact (Sim.ite Iff.rfl (fun _ => Sim.pure rfl) fun _ => ih _ p.2 this) t'

theorem failableLoop_post {α : Type} {Q : α → Prop} {attempt : α → Nat → Rand (Bool × α)} {onFail : α → Rand α}
    (hq : ∀ a i, Q a → Post (attempt a i) fun r => Q r.2) (hf : ∀ a, Q a → Post (onFail a) Q) (n i : Nat) (a : α) (ha : Q a) :
    Post (failableLoop attempt onFail n i a) Q := by
  induction n generalizing i a with
  | zero => exact hf a ha
  | succ n ih =>
    unfold failableLoop
    refine Post.bind (hq a i ha) fun r hr => ?_
    exact Post.ite (fun _ => Post.pure hr) fun _ => ih _ _ hr

/-- What the attempts are given. -/
def OptKind (k : Kind) : Option (List Vec) → Prop
  | none => True
  | some l => AllKind k l

theorem npApply_sim {m' m : NPoint} (hm : NPoint.Moves A k m' m) (hf' : m'.onFail = defaultOnFail) (hf : m.onFail = defaultOnFail)
    (l : List Vec) (hl : AllKind k l) :
    Sim id (Option.map (List.map (Vec.moved A))) (npApply m' (l.map (Vec.moved A))) (npApply m l) := by
  unfold npApply failableApply
  rw [hm.attempts, hf', hf]
  refine failableLoop_simQ (ρ := Option.map (List.map (Vec.moved A))) (Q := OptKind k) (fun p i hp => ?_) (fun p i hp => ?_) (fun p hp => ?_)
    m.attempts 0 (some l) hl
  · cases p with
    | none => exact Sim.raise
    | some l => exact Sim.bind (attemptOperator_sim hm l hp) fun r => Sim.pure rfl
  · cases p with
    | none => exact Post.raise
    | some l => exact Post.bind (attemptOperator_kind m l hp) fun r hr => Post.pure hr
  · cases p with
    | none => exact Sim.raise
    | some l => exact Sim.pure rfl

theorem npApply_kind (m : NPoint) (hf : m.onFail = defaultOnFail) (l : List Vec) (hl : AllKind k l) : Post (npApply m l) (OptKind k) := by
  unfold npApply failableApply
  rw [hf]
  refine failableLoop_post (Q := OptKind k) (fun p i hp => ?_) (fun p hp => ?_) m.attempts 0 (some l) hl
  · cases p with
    | none => exact Post.raise
    | some l => exact Post.bind (attemptOperator_kind m l hp) fun r hr => Post.pure hr
  · cases p with
    | none => exact Post.raise
    | some l => exact Post.pure trivial

theorem npTry_sim {m' m : NPoint} (hm : NPoint.Moves A k m' m) (l : List Vec) (hl : AllKind k l) :
    Sim id (fun r : Bool × List Vec => (r.1, r.2.map (Vec.moved A))) (npTry m' (l.map (Vec.moved A))) (npTry m l) := by
  unfold npTry failableApply
  rw [hm.attempts]
  refine failableLoop_simQ (ρ := fun r : Bool × List Vec => (r.1, r.2.map (Vec.moved A))) (Q := fun r => AllKind k r.2)
    (fun p i hp => ?_) (fun p i hp => ?_) (fun p _ => Sim.pure rfl) m.attempts 0 (false, l) hl
  · exact Sim.bind (attemptOperator_sim hm p.2 hp) fun r => Sim.pure rfl
  · exact Post.bind (attemptOperator_kind m p.2 hp) fun r hr => Post.pure hr

theorem npTry_kind (m : NPoint) (l : List Vec) (hl : AllKind k l) : Post (npTry m l) fun r => AllKind k r.2 := by
  unfold npTry failableApply
  refine failableLoop_post (Q := fun r : Bool × List Vec => AllKind k r.2) (fun p i hp => ?_) (fun p hp => Post.pure hp)
    m.attempts 0 (false, l) hl
  exact Post.bind (attemptOperator_kind m p.2 hp) fun r hr => Post.pure hr

/-! ## The library's operators and creators -/

theorem defaultCells_sim (n : Nat) (v : Vec) : Sim id id (defaultCellSelector n (v.moved A)) (defaultCellSelector n v) := by
  unfold defaultCellSelector
  rw [show (v.moved A).size = v.size by simp [Vec.size, Vec.moved]]
  exact Sim.refl _

theorem defaultChecker_sim (v w : Vec) : Sim id id (defaultSuccessChecker (v.moved A) (w.moved A)) (defaultSuccessChecker v w) := by
  unfold defaultSuccessChecker
  rw [checkIfInBounds_moved]
  exact Sim.refl _

theorem uniformNPoint_moves (hA : A.Fits k) (n : Nat) : NPoint.Moves A k (uniformNPoint n) (uniformNPoint n) :=
  ⟨rfl, defaultCells_sim n, fun v hv i => number_sim hA v hv i, defaultChecker_sim⟩

theorem gaussNPoint_moves (n : Nat) (p mu sigma : ℚ) (a : Nat) :
    NPoint.Moves A k (gaussNPoint n p (A.a * mu) (A.a * sigma) a) (gaussNPoint n p mu sigma a) :=
  ⟨rfl, defaultCells_sim n, fun v _ i => gaussNumber_sim v i mu sigma, defaultChecker_sim⟩

theorem intOnePoint_moves (hA : A.Fits k) (q : ℚ) : NPoint.Moves A k (intOnePoint q) (intOnePoint q) where
  attempts := rfl
  cells := fun v => by
    show Sim id id (pure ((List.range (v.moved A).size).map _)) _
    rw [show (v.moved A).size = v.size by simp [Vec.size, Vec.moved]]
    exact Sim.refl _
  value := fun v hv i => by
    refine Sim.bind (Sim.refl _) fun u => ?_
    exact Sim.ite Iff.rfl (fun _ => number_sim hA v hv i) fun _ => Sim.ofExcept (cellValue_moved v i)
  checker := defaultChecker_sim

theorem bitFlipOne_moves : NPoint.Moves A k bitFlipOne bitFlipOne :=
  ⟨rfl, defaultCells_sim 1, fun v _ i => bitFlip_sim v i, defaultChecker_sim⟩

theorem bitNFlip_moves (n : Nat) (q : ℚ) : NPoint.Moves A k (bitNFlip n q) (bitNFlip n q) where
  attempts := rfl
  cells := defaultCells_sim n
  value := fun v _ i => by
    refine Sim.bind (Sim.refl _) fun u => ?_
    exact Sim.ite Iff.rfl (fun _ => bitFlip_sim v i) fun _ => Sim.ofExcept (cellValue_moved v i)
  checker := defaultChecker_sim

/-- The same mutation for the other units: mean and deviation of Gaussian noise are converted. -/
def MutationClass.moved (A : Units) : MutationClass → MutationClass
  | .floatGaussOne mu sigma a => .floatGaussOne (A.a * mu) (A.a * sigma) a
  | .floatGaussN n mu sigma a => .floatGaussN n (A.a * mu) (A.a * sigma) a
  | c => c

/-- The same operator for the other units. -/
inductive OpMoved (A : Units) : Evo.Op Vec → Evo.Op Vec → Prop
  | crossover (p : ℚ) (arity n : Nat) : OpMoved A (crossoverOp p arity n) (crossoverOp p arity n)
  | mutation (c : MutationClass) (p : ℚ) (arity : Nat) : OpMoved A ((c.moved A).asOp p arity) (c.asOp p arity)

theorem mutationOp_maps {m' m : NPoint} (hm : NPoint.Moves A k m' m) (hf' : m'.onFail = defaultOnFail) (hf : m.onFail = defaultOnFail)
    (name : String) (p : ℚ) (arity : Nat) :
    Evo.Op.Maps (Vec.moved A) (fun v => v.kind = k) (mutationOp name p arity m') (mutationOp name p arity m) := by
  refine Evo.inPlace_maps (fun gs hgs => npApply_sim hm hf' hf gs hgs) fun gs hgs t gs' h => ?_
  exact npApply_kind m hf gs hgs t (some gs') _ (Prod.ext h rfl)

theorem gaussOp_maps (hA : A.Fits k) (n : Nat) (name name' : String) (p : ℚ) (arity : Nat) (mu sigma : ℚ) (a : Nat) :
    Evo.Op.Maps (Vec.moved A) (fun v => v.kind = k)
      (Evo.Op.withFallback name p arity (npTry (gaussNPoint n p (A.a * mu) (A.a * sigma) a)) (mutationOp name' p arity (uniformNPoint n)))
      (Evo.Op.withFallback name p arity (npTry (gaussNPoint n p mu sigma a)) (mutationOp name' p arity (uniformNPoint n))) := by
  refine Evo.withFallback_maps (fun gs hgs => npTry_sim (gaussNPoint_moves n p mu sigma a) gs hgs) (fun gs hgs t r h => ?_)
    (mutationOp_maps (uniformNPoint_moves hA n) rfl rfl name' p arity)
  exact npTry_kind _ gs hgs t r _ (Prod.ext h rfl)

theorem OpMoved.maps (hA : A.Fits k) {o' o : Evo.Op Vec} (h : OpMoved A o' o) : Evo.Op.Maps (Vec.moved A) (fun v => v.kind = k) o' o := by
  cases h with
  | crossover p arity n =>
    refine Evo.inPlace_maps (fun gs _ => Sim.bind (kPointApply_sim n gs) fun out => Sim.pure rfl) fun gs hgs t gs' h => ?_
    have : Post (kPointApply n gs >>= fun out => pure (some out)) (OptKind k) := by
      refine Post.bind (Q := AllKind k) ?_ fun out ho => Post.pure ho
      unfold kPointApply
      rcases gs with _ | ⟨a, _ | ⟨b, others⟩⟩
      · exact Post.raise
      · exact Post.bind Post.trivial fun _ _ => Post.raise
      · refine Post.bind Post.trivial fun s _ => Post.bind Post.trivial fun w _ => Post.pure ?_
        intro v hv
        rcases List.mem_cons.1 hv with rfl | hv
        · exact hgs a (by simp)
        · rcases List.mem_cons.1 hv with rfl | hv
          · exact hgs b (by simp)
          · exact hgs v (by simp [hv])
    exact this t (some gs') _ (Prod.ext h rfl)
  | mutation c p arity =>
    cases c with
    | floatUniformOne => exact mutationOp_maps (uniformNPoint_moves hA 1) rfl rfl _ _ _
    | floatUniformN n => exact mutationOp_maps (uniformNPoint_moves hA n) rfl rfl _ _ _
    | floatGaussOne mu sigma a => exact gaussOp_maps hA 1 _ _ p arity mu sigma a
    | floatGaussN n mu sigma a => exact gaussOp_maps hA n _ _ p arity mu sigma a
    | intOne q => exact mutationOp_maps (intOnePoint_moves hA q) rfl rfl _ _ _
    | intN n => exact mutationOp_maps (uniformNPoint_moves hA n) rfl rfl _ _ _
    | bitFlip => exact mutationOp_maps bitFlipOne_moves rfl rfl _ _ _
    | bitNFlip n q => exact mutationOp_maps (bitNFlip_moves n q) rfl rfl _ _ _

/-- The same creator for the converted bounds. -/
inductive CreatorMoved (A : Units) (k : Kind) : (Nat → Bool → Evo.WM Vec (List Nat)) → (Nat → Bool → Evo.WM Vec (List Nat)) → Prop
  | mk (length : Nat) (bounds : Bounds) (fit : Bool → Evo.Fit) (up : Bool) :
      CreatorMoved A k (vectorCreator k length (bounds.moved A) fit up) (vectorCreator k length bounds fit up)

theorem createVector_kind (n : Nat) (v : Vec) : Post (createVector n defaultGeneCreator v) fun w => w.kind = v.kind :=
  Post.bind Post.trivial fun _ _ => Post.pure rfl

theorem CreatorMoved.maps (hA : A.Fits k) {create' create : Nat → Bool → Evo.WM Vec (List Nat)} (h : CreatorMoved A k create' create) :
    Evo.CreatorMaps (Vec.moved A) (fun v => v.kind = k) create' create := by
  cases h with
  | mk length bounds fit up =>
    intro n hib
    unfold vectorCreator
    rw [accepted_moved]
    refine SimOn.ite Iff.rfl (fun _ => SimOn.raise) fun _ => ?_
    refine Evo.createIndividuals_maps (f := Vec.moved A) (P := fun v => v.kind = k) (empty := ⟨k, bounds, length, []⟩) fit up rfl rfl
      (createVector_sim hA length ⟨k, bounds, length, []⟩ rfl) (fun t g h => ?_) n hib
    exact createVector_kind length ⟨k, bounds, length, []⟩ t g _ (Prod.ext h rfl)

end Verif.GA
