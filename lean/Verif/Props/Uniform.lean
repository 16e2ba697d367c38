import Verif.Props.Pressure
import Verif.Props.GACrossover
import Verif.Props.GAMutation
import Mathlib.Data.List.Permutation

/-! # C119: random vectors, cells and cut points are drawn without bias -/

namespace Verif.GA
open PyM Verif.Evo
variable {v : Vec} {lo hi : Nat → ℤ} {n : Nat}

/-- Cells `0 … n-1` of the vector are integers (or bits), cell `i` from `lo i` to `hi i`. -/
structure IntBox (v : Vec) (n : Nat) (lo hi : Nat → ℤ) : Prop where
  kind : v.kind ≠ .float
  bit : v.kind = .bit → ∃ l h, v.bounds = .tup [l, h]
  bounds : ∀ i < n, v.bounds.At i (lo i) (hi i)
  ordered : ∀ i < n, lo i ≤ hi i

/-- A choice for each of the cells: a number below the number of values of the cell. -/
def IsChoice (n : Nat) (lo hi : Nat → ℤ) (ds : List Nat) : Prop :=
  List.Forall₂ (fun i (d : Nat) => (d : ℤ) ≤ hi i - lo i) (List.range n) ds

/-- A vector of the box. -/
def InBox (n : Nat) (lo hi : Nat → ℤ) (zs : List ℤ) : Prop :=
  List.Forall₂ (fun i z => lo i ≤ z ∧ z ≤ hi i) (List.range n) zs

theorem randCell_prepend {a b : ℤ} {d : Nat} (hd : (d : ℤ) ≤ b - a) (ds : List Nat) (t : Tape) :
    randCell a b (prepend (d :: ds) t) = (.ok (((a + d : ℤ)) : ℚ), prepend ds t) := by
  have h1 : Rand.randint (a : ℚ) (b : ℚ) (prepend (d :: ds) t) = (.ok (a + (d : ℤ)), prepend ds t) := by
    unfold Rand.randint
    rw [if_neg (by simp), if_neg (by simp; omega)]
    have : (Rand.next : Rand Nat) (prepend (d :: ds) t) = (.ok d, prepend ds t) := rfl
    rw [bind_of_ok this]
    rw [Nat.mod_eq_of_lt (by simp; omega)]
    simp
  unfold randCell
  rw [bind_of_ok h1]
  rfl

theorem gene_prepend (hb : IntBox v n lo hi) {i : Nat} (hi' : i < n) {d : Nat} (hd : (d : ℤ) ≤ hi i - lo i) (ds : List Nat) (t : Tape) :
    v.getRandomNumberInBounds i (prepend (d :: ds) t) = (.ok (((lo i + d : ℤ)) : ℚ), prepend ds t) := by
  have hat := hb.bounds i hi'
  have hk := hb.kind
  have hbit := hb.bit
  unfold Vec.getRandomNumberInBounds
  cases hv : v.kind with
  | float => exact absurd hv hk
  | int =>
    cases hbd : v.bounds with
    | tup xs =>
      rw [hbd] at hat
      simp only [Bounds.At] at hat
      subst hat
      exact randCell_prepend hd ds t
    | lst bs =>
      rw [hbd] at hat
      simp only [Bounds.At] at hat
      have h1 := py_get_nat bs i _ hat
      dsimp only
      rw [h1]
      exact randCell_prepend hd ds t
  | bit =>
    obtain ⟨l, h, hlh⟩ := hbit hv
    rw [hlh] at hat
    simp only [Bounds.At, List.cons.injEq, and_true] at hat
    rw [hlh, hat.1, hat.2]
    exact randCell_prepend hd ds t

theorem genes_prepend (hb : IntBox v n lo hi) {is ds : List Nat} (his : ∀ i ∈ is, i < n)
    (hd : List.Forall₂ (fun i (d : Nat) => (d : ℤ) ≤ hi i - lo i) is ds) (t : Tape) :
    mapL (fun (i : Nat) => defaultGeneCreator v i) is (prepend ds t) =
      (.ok (List.zipWith (fun i d => ((lo i + (d : Nat) : ℤ) : ℚ)) is ds), t) := by
  induction hd with
  | nil => rfl
  | @cons i d is ds h hrest ih =>
    unfold mapL
    have h1 : defaultGeneCreator v i (prepend (d :: ds) t) = _ := gene_prepend hb (his i (by simp)) h ds t
    rw [bind_of_ok h1, bind_of_ok (ih fun j hj => his j (by simp [hj]))]
    rfl

/-- C119: creation is uniform.  Every possible choice of a value for each cell leads to a vector of the box, and every vector
of the box is the result of exactly one choice. -/
theorem C119_created (hb : IntBox v n lo hi) :
    (∀ ds, IsChoice n lo hi ds → ∃ zs, InBox n lo hi zs ∧
      ∀ t, createVector n defaultGeneCreator v (prepend ds t) = (.ok (v.setVector (zs.map fun (z : ℤ) => (z : ℚ))), t)) ∧
    ∀ zs, InBox n lo hi zs → ∃! ds, IsChoice n lo hi ds ∧
      ∀ t, createVector n defaultGeneCreator v (prepend ds t) = (.ok (v.setVector (zs.map fun (z : ℤ) => (z : ℚ))), t) := by
  have run : ∀ ds, IsChoice n lo hi ds → ∀ t, createVector n defaultGeneCreator v (prepend ds t) =
      (.ok (v.setVector ((List.zipWith (fun i (d : Nat) => lo i + d) (List.range n) ds).map fun (z : ℤ) => (z : ℚ))), t) := by
    intro ds hd t
    unfold createVector
    rw [bind_of_ok (genes_prepend hb (fun i hi => List.mem_range.1 hi) hd t), List.map_zipWith]
    rfl
  have out : ∀ (is ds : List Nat), List.Forall₂ (fun i (d : Nat) => (d : ℤ) ≤ hi i - lo i) is ds →
      List.Forall₂ (fun i z => lo i ≤ z ∧ z ≤ hi i) is (List.zipWith (fun i (d : Nat) => lo i + d) is ds) := by
    intro is ds h
    induction h with
    | nil => exact .nil
    | cons h _ ih => exact .cons ⟨by dsimp only; omega, by dsimp only; omega⟩ ih
  have inj : ∀ (is ds ds' : List Nat), List.Forall₂ (fun i (d : Nat) => (d : ℤ) ≤ hi i - lo i) is ds →
      List.Forall₂ (fun i (d : Nat) => (d : ℤ) ≤ hi i - lo i) is ds' →
      List.zipWith (fun i (d : Nat) => lo i + d) is ds = List.zipWith (fun i (d : Nat) => lo i + d) is ds' → ds = ds' := by
    intro is ds ds' h h' he
    induction h generalizing ds' with
    | nil => cases h'; rfl
    | cons h _ ih =>
      cases h' with
      | cons h₁ h₂ =>
        simp only [List.zipWith_cons_cons, List.cons.injEq, add_right_inj, Nat.cast_inj] at he
        rw [he.1, ih _ h₂ he.2]
  have surj : ∀ (is : List Nat) (zs : List ℤ), List.Forall₂ (fun i z => lo i ≤ z ∧ z ≤ hi i) is zs →
      ∃ ds, List.Forall₂ (fun i (d : Nat) => (d : ℤ) ≤ hi i - lo i) is ds ∧
        List.zipWith (fun i (d : Nat) => lo i + d) is ds = zs := by
    intro is zs h
    induction h with
    | nil => exact ⟨[], .nil, rfl⟩
    | @cons i z is zs h _ ih =>
      obtain ⟨ds, h1, h2⟩ := ih
      refine ⟨(z - lo i).toNat :: ds, .cons (by omega) h1, ?_⟩
      rw [List.zipWith_cons_cons, h2]
      congr 1
      omega
  refine ⟨fun ds hd => ⟨_, out _ _ hd, run ds hd⟩, fun zs hz => ?_⟩
  obtain ⟨ds, h1, h2⟩ := surj _ zs hz
  refine ⟨ds, ⟨h1, fun t => by rw [run ds h1, h2]⟩, ?_⟩
  rintro ds' ⟨h1', h2'⟩
  refine inj _ _ _ h1' h1 ?_
  have := h2' fun _ => 0
  rw [run ds' h1'] at this
  simp only [Vec.setVector, Prod.mk.injEq, Except.ok.injEq, Vec.mk.injEq, and_true, true_and] at this
  rw [h2]
  exact List.map_injective_iff.2 Int.cast_injective this.2

/-! ## Cells and cut points -/

theorem sample_succ_prepend {ds : List Nat} {m : Nat} (hd : IsDraws false m ds) (t : Tape) :
    Rand.sample ds.length (List.range m) (prepend ds t) = (.ok (tourOf false (List.range m) ds), t) :=
  sample_prepend ds (by simpa using hd) t

/-- C119: the cells that an n-point mutation changes are drawn uniformly: each arrangement of `n` different cells of the
vector is the result of exactly one of the possible draws. -/
theorem C119_cells (v : Vec) (n : Nat) :
    (∀ ds, ds.length = n → IsDraws false v.size ds → ∃ cells : List Nat, cells.length = n ∧ cells.Nodup ∧ (∀ c ∈ cells, c < v.size) ∧
      ∀ t, defaultCellSelector n v (prepend ds t) = (.ok (cells.map fun (i : Nat) => (i : Int)), t)) ∧
    ∀ cells : List Nat, cells.length = n → cells.Nodup → (∀ c ∈ cells, c < v.size) →
      ∃! ds, (ds.length = n ∧ IsDraws false v.size ds) ∧
        ∀ t, defaultCellSelector n v (prepend ds t) = (.ok (cells.map fun (i : Nat) => (i : Int)), t) := by
  have hn : (List.range v.size).Nodup := List.nodup_range
  have run : ∀ ds, ds.length = n → IsDraws false v.size ds → ∀ t, defaultCellSelector n v (prepend ds t) =
      (.ok ((tourOf false (List.range v.size) ds).map fun (i : Nat) => (i : Int)), t) := by
    rintro ds rfl hd t
    unfold defaultCellSelector
    rw [bind_of_ok (sample_succ_prepend hd t)]
    rfl
  constructor
  · rintro ds rfl hd
    obtain ⟨h1, h2, h3⟩ := tourOf_isTournament (replace := false) hn (by simpa using hd)
    refine ⟨_, h1, ?_, fun c hc => by simpa using h2 c hc, run ds rfl hd⟩
    obtain ⟨l, hl, hs⟩ := h3 rfl
    exact hl.nodup_iff.1 (hn.sublist hs)
  · intro cells h1 h2 h3
    have ht : IsTournament n false (List.range v.size) cells :=
      ⟨h1, fun p hp => List.mem_range.2 (h3 p hp), fun _ => List.subperm_of_subset h2 fun p hp => List.mem_range.2 (h3 p hp)⟩
    obtain ⟨ds, e1, e2, e3⟩ := tourOf_surj hn ht
    rw [List.length_range] at e2
    refine ⟨ds, ⟨⟨e1, e2⟩, fun t => by rw [run ds e1 e2, e3]⟩, ?_⟩
    rintro ds' ⟨⟨e1', e2'⟩, e3'⟩
    refine tourOf_inj hn (by simpa using e2') (by simpa using e2) ?_
    have := e3' fun _ => 0
    rw [run ds' e1' e2'] at this
    simp only [Prod.mk.injEq, Except.ok.injEq, and_true] at this
    rw [e3]
    exact List.map_injective_iff.2 (fun a b h => by simpa using h) this

/-- C119: flipping one bit.  Of the equally likely draws — one for each cell — draw `d` flips cell `d` and no other. -/
theorem C119_flip (v : Vec) {a b : ℚ} (hk : v.kind = .bit) (hb : v.bounds = .tup [a, b]) (hin : v.InBounds) {d : Nat} {x : ℚ}
    (hx : v.vector[d]? = some x) (t : Tape) :
    npApply bitFlipOne [v] (prepend [d] t) =
      (.ok (some [{ v with vector := v.vector.set d (if x = a then b else a) }]), t) := by
  have hd : d < v.vector.length := (List.getElem?_eq_some_iff.1 hx).1
  have e1 : bitFlipOne.cellSelector v (prepend [d] t) = (.ok [(d : Int)], t) := by
    show defaultCellSelector 1 v (prepend [d] t) = _
    unfold defaultCellSelector
    have h0 : Rand.sample 1 (List.range v.size) (prepend [d] t) = _ := sample_succ_prepend (m := v.size) (ds := [d]) ⟨hd, trivial⟩ t
    rw [bind_of_ok h0]
    rw [tourOf, getD_of_lt (by rw [List.length_range]; exact hd), List.getElem_range]
    rfl
  have e2 : mapL (bitFlipOne.mutVal v) [(d : Int)] t = (.ok [if x = a then b else a], t) := by
    have h1 : v.bitFlip (d : Int) t = (.ok (if x = a then b else a), t) := by
      unfold Vec.bitFlip
      rw [hk, hb]
      have h2 : (ofExcept (v.cellValue (d : Int)) : Rand ℚ) t = (.ok x, t) := by
        unfold Vec.cellValue
        rw [py_get_nat _ d x hx]; rfl
      dsimp only
      rw [bind_of_ok h2]; rfl
    unfold mapL
    have h1' : bitFlipOne.mutVal v (d : Int) t = _ := h1
    rw [bind_of_ok h1']
    rfl
  have e3 : setCells v ([(d : Int)].zip [if x = a then b else a]) = .ok { v with vector := v.vector.set d (if x = a then b else a) } := by
    have : Py.index? v.vector.length (d : Int) = some d := by
      unfold Py.index?
      rw [if_pos (by omega), Int.toNat_natCast, if_pos hd]
    simp [setCells, Vec.setCellValue, this]
  have e4 : ({ v with vector := v.vector.set d (if x = a then b else a) } : Vec).checkIfInBounds = .ok true := by
    refine checkIfInBounds_of_inBounds (notTwo_of_tup ⟨a, b, hb⟩) fun i y hy => ?_
    obtain ⟨l, h, hat, h1, h2⟩ := hin d x hx
    have hat' := hat
    rw [hb] at hat'
    simp only [Bounds.At, List.cons.injEq, and_true] at hat'
    obtain ⟨rfl, rfl⟩ := hat'
    by_cases hid : d = i
    · subst hid
      simp only [List.getElem?_set_self hd, Option.some.injEq] at hy
      refine ⟨a, b, by rw [hb]; rfl, ?_⟩
      subst hy
      split
      · exact ⟨h1.trans h2, le_refl _⟩
      · exact ⟨le_refl _, h1.trans h2⟩
    · rw [List.getElem?_set_ne hid] at hy
      exact hin i y hy
  have e5 : mutateOne bitFlipOne v (prepend [d] t) = (.ok (true, { v with vector := v.vector.set d (if x = a then b else a) }), t) := by
    unfold mutateOne
    rw [bind_of_ok e1, bind_of_ok e2]
    have h1 : (ofExcept (setCells v ([(d : Int)].zip [if x = a then b else a])) : Rand Vec) t = _ := congrArg (fun m => (ofExcept m : Rand Vec) t) e3
    rw [bind_of_ok h1]
    have h2 : bitFlipOne.checker v { v with vector := v.vector.set d (if x = a then b else a) } t = (.ok true, t) := by
      show (ofExcept _ : Rand Bool) t = _
      rw [e4]; rfl
    rw [bind_of_ok h2]
    rfl
  unfold npApply failableApply
  show failableLoop _ _ 5 0 (some [v]) _ = _
  unfold failableLoop
  have e6 : attemptOperator bitFlipOne [v] (prepend [d] t) = (.ok (true, [{ v with vector := v.vector.set d (if x = a then b else a) }]), t) := by
    unfold attemptOperator
    rw [bind_of_ok e5]
    rfl
  dsimp only
  have e7 : (do
      let (s, l') ← attemptOperator bitFlipOne [v]
      pure (s, some l') : Rand (Bool × Option (List Vec))) (prepend [d] t) =
        (.ok (true, some [{ v with vector := v.vector.set d (if x = a then b else a) }]), t) := by
    rw [bind_of_ok e6]
    rfl
  rw [bind_of_ok e7]
  rfl

/-- C119: one-point crossover.  Of the equally likely draws — one for each place between two neighbouring cells — draw `d`
exchanges the first `d + 1` cells. -/
theorem C119_one_point (a b : Vec) (others : List Vec) (hab : a.size = b.size) {d : Nat} (hd : d + 1 < a.size) (t : Tape) :
    kPointApply 1 (a :: b :: others) (prepend [d] t) =
      (.ok ({ a with vector := b.vector.take (d + 1) ++ a.vector.drop (d + 1) } ::
        { b with vector := a.vector.take (d + 1) ++ b.vector.drop (d + 1) } :: others), t) := by
  have hs : Rand.sample 1 ((List.range (a.size - 1)).map (· + 1)) (prepend [d] t) = (.ok [d + 1], t) := by
    have := sample_prepend (source := (List.range (a.size - 1)).map (· + 1)) [d] ⟨by simp; omega, trivial⟩ t
    rw [tourOf, getD_of_lt (by simp; omega)] at this
    simpa [tourOf] using this
  obtain ⟨w1, w2, h1, h2⟩ := C17_one_point_partial a b others _ t (d + 1) hab (by omega) hs
  have key : ∀ (w u x : List ℚ), x.length = u.length → w.length = u.length → (∀ i, i < d + 1 → w[i]? = x[i]?) →
      (∀ i, ¬ i < d + 1 → w[i]? = u[i]?) → d + 1 ≤ u.length → w = x.take (d + 1) ++ u.drop (d + 1) := by
    intro w u x hxu hwu h1 h2 hle
    apply List.ext_getElem?
    intro i
    by_cases hi : i < d + 1
    · rw [h1 i hi, List.getElem?_append_left (by rw [List.length_take]; omega), List.getElem?_take_of_lt hi]
    · rw [h2 i hi, List.getElem?_append_right (by rw [List.length_take]; omega), List.length_take, List.getElem?_drop]
      congr 1
      omega
  have ha : a.vector.length = b.vector.length := hab
  have hd' : d + 1 < a.vector.length := hd
  rw [h1, key w1 a.vector b.vector ha.symm h2.1 (fun i hi => ((h2.2.2 i).1 hi).1) (fun i hi => ((h2.2.2 i).2 hi).1) (by omega),
    key w2 b.vector a.vector ha h2.2.1 (fun i hi => ((h2.2.2 i).1 hi).2) (fun i hi => ((h2.2.2 i).2 hi).2) (by omega)]

theorem sorted_eq_iff {s pts : List Nat} (hp : pts.Pairwise (· < ·)) : Py.sorted s = pts ↔ s.Perm pts := by
  constructor
  · rintro rfl
    exact (Py.sorted_perm s).symm
  · intro h
    exact List.Perm.eq_of_pairwise (le := (· ≤ ·)) (fun a b _ _ h1 h2 => by omega) (Py.sorted_pairwise s) (hp.imp fun h => by omega)
      ((Py.sorted_perm s).trans h)

/-- C119: k-point crossover.  Each of the possible draws determines `k` cut points between the cells — the exchange is the one
that the crossover makes at these points — and every set of `k` cut points is determined by equally many of the draws,
`k!` of them. -/
theorem C119_points (k : Nat) (a b : Vec) (others : List Vec) :
    ∃ points : List Nat → List Nat,
      (∀ ds, ds.length = k → IsDraws false (a.size - 1) ds →
        (points ds).length = k ∧ (points ds).Pairwise (· < ·) ∧ (∀ p ∈ points ds, 1 ≤ p ∧ p < a.size) ∧
        ∀ t, kPointApply k (a :: b :: others) (prepend ds t) =
          ((swapVectorParts k a.vector b.vector (points ds)).map
            fun w => { a with vector := w.1 } :: { b with vector := w.2 } :: others, t)) ∧
      ∀ pts, pts.length = k → pts.Pairwise (· < ·) → (∀ p ∈ pts, 1 ≤ p ∧ p < a.size) →
        {ds | ds.length = k ∧ IsDraws false (a.size - 1) ds ∧ points ds = pts}.ncard = k.factorial := by
  set source := (List.range (a.size - 1)).map (· + 1) with hsource
  have hlen : source.length = a.size - 1 := by simp [hsource]
  have hn : source.Nodup := by
    rw [hsource, List.nodup_map_iff (fun a b h => by simpa using h)]
    exact List.nodup_range
  have hmem : ∀ p, p ∈ source ↔ 1 ≤ p ∧ p < a.size := by
    intro p
    simp only [hsource, List.mem_map, List.mem_range]
    constructor
    · rintro ⟨q, h, rfl⟩; omega
    · intro h; exact ⟨p - 1, by omega, by omega⟩
  refine ⟨fun ds => Py.sorted (tourOf false source ds), ?_, ?_⟩
  · rintro ds rfl hd
    rw [← hlen] at hd
    have hrun := fun t => sample_prepend ds hd t
    obtain ⟨hsub, hl⟩ := Rand.sample_post _ _ _ _ _ (hrun fun _ => 0)
    obtain ⟨h1, h2, h3⟩ := sorted_points (n := a.size) hsub hl
    refine ⟨h2, h1, h3, fun t => ?_⟩
    simp only [kPointApply]
    rw [← hsource, bind_of_ok (hrun t)]
    cases hw : swapVectorParts ds.length a.vector b.vector (Py.sorted (tourOf false source ds)) with
    | error e => exact bind_of_error rfl
    | ok w => exact bind_of_ok rfl
  · intro pts h1 h2 h3
    have hnd : pts.Nodup := h2.imp fun h => by omega
    have himg : {ds | ds.length = k ∧ IsDraws false (a.size - 1) ds ∧ Py.sorted (tourOf false source ds) = pts}.ncard
        = {tour : List Nat | tour.Perm pts}.ncard := by
      refine Set.ncard_congr (fun ds _ => tourOf false source ds) ?_ ?_ ?_
      · rintro ds ⟨-, -, h⟩
        exact (sorted_eq_iff h2).1 h
      · rintro ds ds' ⟨-, hd, -⟩ ⟨-, hd', -⟩ h
        rw [← hlen] at hd hd'
        exact tourOf_inj hn hd hd' h
      · intro tour ht
        have ht' : tour.Perm pts := ht
        obtain ⟨ds, e1, e2, e3⟩ := tourOf_surj (replace := false) (k := k) hn (t := tour) ⟨by rw [ht'.length_eq, h1],
          fun p hp => (hmem p).2 (h3 p (ht'.mem_iff.1 hp)),
          fun _ => List.subperm_of_subset (ht'.nodup_iff.2 hnd) fun p hp => (hmem p).2 (h3 p (ht'.mem_iff.1 hp))⟩
        exact ⟨ds, ⟨e1, by rwa [hlen] at e2, by rw [e3]; exact (sorted_eq_iff h2).2 ht'⟩, e3⟩
    rw [himg]
    have : {tour : List Nat | tour.Perm pts} = ((pts.permutations.toFinset : Finset (List Nat)) : Set (List Nat)) := by
      ext tour
      simp only [Set.mem_ofPred_eq, List.coe_toFinset, List.mem_permutations]
    rw [this, Set.ncard_coe_finset, List.toFinset_card_of_nodup (List.nodup_permutations pts hnd), List.length_permutations, h1]

/-! ## Examples -/

def Sample.bits : Vec := ⟨.bit, .tup [0, 1], 3, [0, 1, 1]⟩

theorem Sample.bits_box : IntBox Sample.bits 3 (fun _ => 0) (fun _ => 1) where
  kind := by decide
  bit := fun _ => ⟨0, 1, rfl⟩
  bounds := fun i _ => by simp [Sample.bits, Bounds.At]
  ordered := by intros; decide

example : ∃! ds, IsChoice 3 (fun _ => 0) (fun _ => 1) ds ∧
    ∀ t, createVector 3 defaultGeneCreator Sample.bits (prepend ds t) = (.ok (Sample.bits.setVector ([1, 0, 1].map fun (z : ℤ) => (z : ℚ))), t) :=
  (C119_created Sample.bits_box).2 [1, 0, 1] (by unfold InBox; simp [List.range_succ])

example : ∃! ds, (ds.length = 2 ∧ IsDraws false 3 ds) ∧
    ∀ t, defaultCellSelector 2 Sample.bits (prepend ds t) = (.ok [2, 0], t) :=
  (C119_cells Sample.bits 2).2 [2, 0] rfl (by decide) (by decide)

example (t : Tape) : npApply bitFlipOne [Sample.bits] (prepend [1] t) = (.ok (some [{ Sample.bits with vector := [0, 0, 1] }]), t) := by
  refine (C119_flip Sample.bits rfl rfl ?_ rfl t).trans ?_
  · intro i x hx
    refine ⟨0, 1, rfl, ?_⟩
    have := List.mem_of_getElem? hx
    simp only [Sample.bits, List.mem_cons, List.not_mem_nil, or_false] at this
    rcases this with rfl | rfl | rfl <;> norm_num
  · simp [Sample.bits]

example (t : Tape) := C119_one_point Sample.six1 Sample.six2 [] (by decide) (d := 3) (by decide) t

example := C119_points 2 Sample.six1 Sample.six2 []

end Verif.GA
