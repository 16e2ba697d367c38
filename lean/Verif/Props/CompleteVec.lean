import Verif.Py.Reach
import Verif.Props.GAMutation
import Mathlib.Logic.Relation

/-!
# C86: the vector creators and mutations cover the search space
-/

namespace Verif.GA
open PyM

/-- The value `x` can be drawn for cell `i`: floats from the lower bound (included) to the upper bound
(excluded, unless both are equal), integers with both bounds. -/
def Bounds.Value (b : Bounds) (kind : Kind) (i : Nat) (x : ℚ) : Prop :=
  ∃ lo hi, b.At i lo hi ∧
    match kind with
    | .float => (lo ≤ x ∧ x < hi) ∨ x = lo
    | _ => (∃ z : ℤ, x = z) ∧ lo ≤ x ∧ x ≤ hi

/-- A point of the search space: as many cells as declared, every one with a value of its cell. -/
def Vec.Point (v : Vec) : Prop :=
  v.length = v.vector.length ∧ ∀ (i : Nat) x, v.vector[i]? = some x → v.bounds.Value v.kind i x

theorem randCell_reach {lo hi x : ℚ} (hlo : ∃ z : ℤ, lo = z) (hhi : ∃ z : ℤ, hi = z)
    (hx : (∃ z : ℤ, x = z) ∧ lo ≤ x ∧ x ≤ hi) : Reach (randCell lo hi) x := by
  obtain ⟨a, rfl⟩ := hlo
  obtain ⟨b, rfl⟩ := hhi
  obtain ⟨⟨z, rfl⟩, h1, h2⟩ := hx
  exact (Reach.randint (by exact_mod_cast h1) (by exact_mod_cast h2)).bind (Reach.pure _)

theorem getRandomNumberInBounds_reach {v : Vec} {i : Nat} {x : ℚ} (hx : v.bounds.Value v.kind i x)
    (hint : v.kind ≠ .float → v.bounds.Integral)
    (hbit : v.kind = .bit → ∃ lo hi, v.bounds = .tup [lo, hi]) :
    Reach (v.getRandomNumberInBounds (i : Int)) x := by
  obtain ⟨lo, hi, hat, hx⟩ := hx
  have hint' : v.kind ≠ .float → (∃ z : ℤ, lo = z) ∧ ∃ z : ℤ, hi = z := fun h => hint h i lo hi hat
  clear hint
  obtain ⟨kind, bounds, length, vector⟩ := v
  simp only at *
  unfold Vec.getRandomNumberInBounds
  cases bounds with
  | tup xs =>
    simp only [Bounds.At] at hat
    subst hat
    cases kind with
    | int => exact randCell_reach (hint' (by simp)).1 (hint' (by simp)).2 hx
    | float => exact Reach.uniform hx
    | bit => exact randCell_reach (hint' (by simp)).1 (hint' (by simp)).2 hx
  | lst bs =>
    simp only [Bounds.At] at hat
    cases kind with
    | int =>
      refine (Reach.ofExcept (py_get_nat bs i _ hat)).bind ?_
      exact randCell_reach (hint' (by simp)).1 (hint' (by simp)).2 hx
    | float =>
      refine (Reach.ofExcept (py_get_nat bs i _ hat)).bind ?_
      exact Reach.uniform hx
    | bit => obtain ⟨_, _, h⟩ := hbit rfl; simp at h

theorem randCell_value {lo hi : ℚ} :
    Post (randCell lo hi) fun x => (∃ z : ℤ, x = z) ∧ lo ≤ x ∧ x ≤ hi :=
  Post.bind Rand.randint_post fun z hz => Post.pure ⟨⟨z, rfl⟩, hz⟩

theorem uniform_value {lo hi : ℚ} (hle : lo ≤ hi) :
    Post (Rand.uniform lo hi) fun x => (lo ≤ x ∧ x < hi) ∨ x = lo := by
  unfold Rand.uniform
  refine Post.bind Rand.random_post fun u hu => Post.pure ?_
  rcases eq_or_lt_of_le hle with h | h
  · right; rw [h]; ring
  · left
    constructor <;> nlinarith [hu.1, hu.2]

theorem getRandomNumberInBounds_value {v : Vec} {i : Nat} {lo hi : ℚ} (hat : v.bounds.At i lo hi)
    (hle : lo ≤ hi) (hbit : v.kind = .bit → ∃ lo hi, v.bounds = .tup [lo, hi]) :
    Post (v.getRandomNumberInBounds (i : Int)) fun x => v.bounds.Value v.kind i x := by
  suffices Post (v.getRandomNumberInBounds (i : Int)) fun x =>
      match v.kind with
      | .float => (lo ≤ x ∧ x < hi) ∨ x = lo
      | _ => (∃ z : ℤ, x = z) ∧ lo ≤ x ∧ x ≤ hi from
    this.mono fun x hx => ⟨lo, hi, hat, hx⟩
  obtain ⟨kind, bounds, length, vector⟩ := v
  simp only at *
  unfold Vec.getRandomNumberInBounds
  cases bounds with
  | tup xs =>
    simp only [Bounds.At] at hat
    subst hat
    cases kind with
    | int => exact randCell_value
    | float => exact uniform_value hle
    | bit => exact randCell_value
  | lst bs =>
    simp only [Bounds.At] at hat
    cases kind with
    | int =>
      refine Post.bind (Post.ofExcept (Q := (· = (lo, hi))) fun a ha => ?_) ?_
      · rw [py_get_nat bs i _ hat] at ha; simpa using ha.symm
      · intro p hp; subst hp; exact randCell_value
    | float =>
      refine Post.bind (Post.ofExcept (Q := (· = (lo, hi))) fun a ha => ?_) ?_
      · rw [py_get_nat bs i _ hat] at ha; simpa using ha.symm
      · intro p hp; subst hp; exact uniform_value hle
    | bit => obtain ⟨_, _, h⟩ := hbit rfl; simp at h

/-- **C86, creation.** A list of vectors can be the outcome of a vector creator if and only if it has
the requested number of individuals, and each of them has the configured class, bounds and length and
is a point of the search space: every vector can appear, next to any other ones. -/
theorem C86_created (kind : Kind) (length : Nat) (bounds : Bounds) (n : Nat)
    (hleg : bounds.Legal length) (hint : kind ≠ .float → bounds.Integral)
    (hbit : kind = .bit → ∃ lo hi, bounds = .tup [lo, hi]) (inds : List Vec) :
    (∃ tape tape', createIndividuals kind length bounds defaultGeneCreator n tape = (.ok inds, tape')) ↔
      inds.length = n ∧ ∀ v ∈ inds, v.kind = kind ∧ v.bounds = bounds ∧ v.length = length ∧ v.Point := by
  have hacc : bounds.accepted length = true := by
    cases bounds with
    | tup xs => simpa [Bounds.accepted] using hleg.1
    | lst bs => simpa [Bounds.accepted] using hleg.1
  have hat : ∀ i, i < length → ∃ lo hi, bounds.At i lo hi := by
    intro i hi
    cases bounds with
    | tup xs =>
      have hl := hleg.1
      simp only at hl
      match xs, hl with
      | [a, b], _ => exact ⟨a, b, rfl⟩
    | lst bs =>
      have hl := hleg.1
      simp only at hl
      exact ⟨_, _, List.getElem?_eq_getElem (by omega)⟩
  constructor
  · rintro ⟨t, t', h⟩
    refine (show Post _ (fun inds => List.length inds = n ∧ ∀ v ∈ inds, v.kind = kind ∧
      v.bounds = bounds ∧ v.length = length ∧ v.Point) from ?_) t inds t' h
    unfold createIndividuals
    refine Post.bind (replicateM_post n (Post.ofExcept (Q := (· = ⟨kind, bounds, length, []⟩)) ?_))
      fun vs hvs => ?_
    · intro a ha; simp [mkVec, hacc] at ha; exact ha.symm
    refine (mapL_post (R := fun _ v => v.kind = kind ∧ v.bounds = bounds ∧ v.length = length ∧ v.Point)
      vs fun v hv => ?_).mono fun out hout => ?_
    · rw [hvs.2 v hv]
      unfold createVector
      refine Post.bind (mapL_post (R := fun i x => bounds.Value kind i x) _ fun i hi => ?_)
        fun xs hxs => Post.pure ?_
      · obtain ⟨lo, hi', h1⟩ := hat i (List.mem_range.1 hi)
        exact getRandomNumberInBounds_value (v := ⟨kind, bounds, length, []⟩) h1 (hleg.2 i lo hi' h1)
          hbit
      · have hl : xs.length = length := by rw [← hxs.length_eq]; simp
        refine ⟨rfl, rfl, hl, rfl, fun i x hx => ?_⟩
        simp only [Vec.setVector] at hx ⊢
        obtain ⟨hi, rfl⟩ := List.getElem?_eq_some_iff.1 hx
        have := (List.forall₂_iff_get.1 hxs).2 i (by simpa [← hl] using hi) hi
        simpa using this
    · refine ⟨by rw [← hout.length_eq]; exact hvs.1, fun v hv => ?_⟩
      obtain ⟨i, hi, rfl⟩ := List.getElem_of_mem hv
      exact (List.forall₂_iff_get.1 hout).2 i (by rw [hout.length_eq]; exact hi) hi
  · rintro ⟨rfl, h⟩
    suffices Reach (createIndividuals kind length bounds defaultGeneCreator inds.length) inds by
      obtain ⟨t, ht⟩ := this (fun _ => 0)
      exact ⟨t, _, ht⟩
    unfold createIndividuals
    have hrep : Reach (replicateM inds.length (ofExcept (mkVec kind bounds length none)))
        (List.replicate inds.length ⟨kind, bounds, length, []⟩) := by
      have := Reach.replicateM (f := ofExcept (mkVec kind bounds length none))
        (ys := List.replicate inds.length ⟨kind, bounds, length, []⟩) fun y hy => by
          rw [List.eq_of_mem_replicate hy]
          exact Reach.ofExcept (by simp [mkVec, hacc])
      rwa [List.length_replicate] at this
    refine hrep.bind (Reach.mapL ?_)
    refine List.forall₂_iff_get.2 ⟨by simp, fun k h1 h2 => ?_⟩
    have hv := h _ (List.get_mem inds ⟨k, h2⟩)
    simp only [List.get_eq_getElem, List.getElem_replicate] at hv ⊢
    generalize inds[k] = v at hv
    obtain ⟨k', b', l', xs⟩ := v
    obtain ⟨rfl, rfl, rfl, hl, hp⟩ := hv
    simp only at hl hp
    unfold createVector
    refine Reach.bind (a := xs) (Reach.mapL ?_) ((Reach.pure _).of_eq ?_)
    · refine List.forall₂_iff_get.2 ⟨by simpa using hl, fun i h1 h2 => ?_⟩
      simp only [List.get_eq_getElem, List.getElem_range]
      exact getRandomNumberInBounds_reach (v := ⟨k', b', l', []⟩)
        (hp i _ (List.getElem?_eq_getElem h2)) hint hbit
    · simp [Vec.setVector, hl]

/-! ## Mutations -/

theorem Vec.Point.inBounds {v : Vec} (h : v.Point) (hleg : v.bounds.Legal v.length) : v.InBounds := by
  intro i x hx
  obtain ⟨lo, hi, hat, hv⟩ := h.2 i x hx
  have hle := hleg.2 i lo hi hat
  refine ⟨lo, hi, hat, ?_⟩
  cases hk : v.kind with
  | float =>
    rw [hk] at hv
    rcases hv with ⟨h1, h2⟩ | rfl
    · exact ⟨h1, h2.le⟩
    · exact ⟨le_rfl, hle⟩
  | int => rw [hk] at hv; exact hv.2
  | bit => rw [hk] at hv; exact hv.2

/-- Setting some cells of `v` to the values they have in `w` gives `w`, if the others agree. -/
theorem setCells_to {v w : Vec} (hs : SameShape v w) {pts : List Nat} (hnd : pts.Nodup)
    (hlt : ∀ i ∈ pts, i < v.vector.length) {vals : List ℚ}
    (hvals : List.Forall₂ (fun (i : Nat) x => w.vector[i]? = some x) pts vals)
    (hsame : ∀ i, i ∉ pts → w.vector[i]? = v.vector[i]?) :
    setCells v ((pts.map fun (i : Nat) => (i : Int)).zip vals) = .ok w := by
  have hzip : (pts.map fun (i : Nat) => (i : Int)).zip vals =
      (pts.zip vals).map fun p => ((p.1 : Int), p.2) := by
    rw [List.zip_map_left]
    rfl
  rw [hzip]
  have hfst : (pts.zip vals).map Prod.fst = pts := by
    rw [List.map_fst_zip]; rw [hvals.length_eq]
  obtain ⟨v', hv'⟩ := setCells_ok ((pts.zip vals).map fun p => ((p.1 : Int), p.2)) v (by
    intro p hp
    simp only [List.mem_map] at hp
    obtain ⟨q, hq, rfl⟩ := hp
    exact ⟨q.1, rfl, hlt _ (by rw [← hfst]; exact List.mem_map_of_mem hq)⟩)
  rw [hv']
  obtain ⟨h1, h2, h3, h4, h5⟩ := setCells_spec _ _ _ hv'
  have hget := setCells_get (pts.zip vals) v v' (by rw [hfst]; exact hnd) hv'
  have hvec : v'.vector = w.vector := by
    refine List.ext_getElem? fun i => ?_
    by_cases hi : i ∈ pts
    · rw [← hfst] at hi
      obtain ⟨p, hp, rfl⟩ := List.mem_map.1 hi
      rw [hget p hp]
      have := (List.forall₂_iff_zip.1 hvals).2 (show (p.1, p.2) ∈ pts.zip vals from hp)
      exact this.symm
    · rw [hsame i hi]
      refine h5 i fun hc => hi ?_
      simp only [positions, List.mem_filterMap, List.map_map, List.mem_map, Function.comp] at hc
      obtain ⟨z, ⟨p, hp, rfl⟩, hz⟩ := hc
      have := index?_nat hz
      rw [← hfst]
      exact List.mem_map.2 ⟨p, hp, this⟩
  obtain ⟨k1, k2, k3, -⟩ := hs
  obtain ⟨a, b, c, d⟩ := v'
  obtain ⟨a', b', c', d'⟩ := w
  simp only at *
  rw [h1, h2, h3, k1, k2, k3, hvec]

theorem attempt_reach {m : NPoint} {v w : Vec} {pts : List Nat}
    (hchk : m.checker = defaultSuccessChecker) (hs : SameShape v w) (hnd : pts.Nodup)
    (hlt : ∀ i ∈ pts, i < v.vector.length)
    (hsel : Reach (m.cellSelector v) (pts.map fun (i : Nat) => (i : Int)))
    (hval : ∀ i ∈ pts, ∀ x, w.vector[i]? = some x → Reach (m.mutVal v i) x)
    (hsame : ∀ i, i ∉ pts → w.vector[i]? = v.vector[i]?)
    (hw : w.checkIfInBounds = .ok true) : Reach (attemptOperator m [v]) (true, [w]) := by
  have hex : ∃ vals : List ℚ, List.Forall₂ (fun (i : Nat) x => w.vector[i]? = some x) pts vals := by
    clear hsel hnd hval hsame
    induction pts with
    | nil => exact ⟨[], .nil⟩
    | cons i pts ih =>
      obtain ⟨vals, h⟩ := ih fun j hj => hlt j (by simp [hj])
      have hi : i < w.vector.length := by rw [hs.2.2.2]; exact hlt i (by simp)
      exact ⟨w.vector[i] :: vals, .cons (List.getElem?_eq_getElem hi) h⟩
  obtain ⟨vals, hvals⟩ := hex
  have hone : Reach (mutateOne m v) (true, w) := by
    unfold mutateOne
    refine hsel.bind ?_
    refine Reach.bind (a := vals) (Reach.mapL ?_) ?_
    · rw [List.forall₂_map_left_iff]
      refine List.forall₂_iff_get.2 ⟨hvals.length_eq, fun k h1 h2 => ?_⟩
      exact hval _ (List.get_mem _ _) _ ((List.forall₂_iff_get.1 hvals).2 k h1 h2)
    refine (Reach.ofExcept (setCells_to hs hnd hlt hvals hsame)).bind ?_
    rw [hchk]
    refine Reach.bind (a := true) (Reach.ofExcept hw) ?_
    exact Reach.pure _
  unfold attemptOperator
  refine hone.bind ?_
  exact Reach.bind (a := (true, [])) (Reach.pure _) (Reach.pure _)

theorem npApply_reach {m : NPoint} {v w : Vec} {pts : List Nat} (ha : 0 < m.attempts)
    (hchk : m.checker = defaultSuccessChecker) (hs : SameShape v w) (hnd : pts.Nodup)
    (hlt : ∀ i ∈ pts, i < v.vector.length)
    (hsel : Reach (m.cellSelector v) (pts.map fun (i : Nat) => (i : Int)))
    (hval : ∀ i ∈ pts, ∀ x, w.vector[i]? = some x → Reach (m.mutVal v i) x)
    (hsame : ∀ i, i ∉ pts → w.vector[i]? = v.vector[i]?)
    (hw : w.checkIfInBounds = .ok true) : Reach (npApply m [v]) (some [w]) := by
  obtain ⟨a, ha'⟩ : ∃ a, m.attempts = a + 1 := ⟨m.attempts - 1, by omega⟩
  have hatt := attempt_reach hchk hs hnd hlt hsel hval hsame hw
  unfold npApply failableApply
  rw [ha']
  refine Reach.bind (a := (true, some [w])) ?_ ?_
  · exact hatt.bind (Reach.pure _)
  · exact Reach.pure _

/-- The first attempt may succeed. -/
theorem npTry_reach {m : NPoint} {v w : Vec} (ha : 0 < m.attempts) (hatt : Reach (attemptOperator m [v]) (true, [w])) :
    Reach (npTry m [v]) (true, [w]) := by
  obtain ⟨a, ha'⟩ : ∃ a, m.attempts = a + 1 := ⟨m.attempts - 1, by omega⟩
  unfold npTry failableApply
  rw [ha']
  refine Reach.bind (a := (true, (true, [w]))) ?_ ?_
  · exact hatt.bind (Reach.pure _)
  · exact Reach.pure _

theorem applyOperator_reach {p : ℚ} (hp : 0 ≤ p) {apply : List Vec → Rand (Option (List Vec))}
    {inds out : List Vec} (h : Reach (apply inds) (some out)) : Reach (applyOperator p apply inds) out := by
  unfold applyOperator
  refine (Reach.random (u := 0) le_rfl (by norm_num)).bind ?_
  rw [if_pos hp]
  exact h.bind (Reach.pure _)

theorem defaultCellSelector_reach {n : Nat} {v : Vec} {pts : List Nat} (hl : pts.length = n)
    (hnd : pts.Nodup) (hlt : ∀ i ∈ pts, i < v.vector.length) :
    Reach (defaultCellSelector n v) (pts.map fun (i : Nat) => (i : Int)) := by
  subst hl
  unfold defaultCellSelector
  refine (Reach.sample (List.subperm_of_subset hnd fun i hi => ?_)).bind (Reach.pure _)
  exact List.mem_range.2 (hlt i hi)

/-- Cells to mutate: the differing ones, filled up to `n` with others. -/
theorem exists_points {v w : Vec} (hs : SameShape v w) {n : Nat}
    (hd : (diffs v.vector w.vector).length ≤ n) (hn : n ≤ v.vector.length) :
    ∃ pts : List Nat, pts.length = n ∧ pts.Nodup ∧ (∀ i ∈ pts, i < v.vector.length) ∧
      ∀ i, i ∉ pts → w.vector[i]? = v.vector[i]? := by
  have hnd : (diffs v.vector w.vector).Nodup := List.nodup_range.filter _
  let rest := (List.range v.vector.length).filter fun i => i ∉ diffs v.vector w.vector
  have hperm : (diffs v.vector w.vector ++ rest).Perm (List.range v.vector.length) := by
    have : diffs v.vector w.vector = (List.range v.vector.length).filter
        fun i => i ∈ diffs v.vector w.vector := by
      conv_lhs => unfold diffs
      rw [hs.2.2.2, max_self]
      refine List.filter_congr fun i hi => ?_
      simp [diffs, hs.2.2.2, List.mem_range.1 hi]
    have h2 := List.filter_append_perm (fun i => decide (i ∈ diffs v.vector w.vector))
      (List.range v.vector.length)
    rw [← this] at h2
    refine List.Perm.trans ?_ h2
    refine List.Perm.append_left _ ?_
    refine List.Perm.of_eq (List.filter_congr fun i _ => ?_)
    simp
  have hnd2 : (diffs v.vector w.vector ++ rest).Nodup := hperm.nodup_iff.2 List.nodup_range
  have hlen : (diffs v.vector w.vector ++ rest).length = v.vector.length := by
    rw [hperm.length_eq, List.length_range]
  refine ⟨(diffs v.vector w.vector ++ rest).take n, ?_, ?_, ?_, ?_⟩
  · rw [List.length_take, hlen]; omega
  · exact hnd2.sublist (List.take_sublist _ _)
  · intro i hi
    exact List.mem_range.1 (hperm.mem_iff.1 (List.mem_of_mem_take hi))
  · intro i hi
    by_contra hne
    apply hi
    rw [List.take_append]
    refine List.mem_append_left _ ?_
    rw [List.take_of_length_le hd]
    simp only [diffs, List.mem_filter, List.mem_range, decide_eq_true_eq]
    refine ⟨?_, fun h => hne h.symm⟩
    by_contra hge
    apply hne
    rw [List.getElem?_eq_none (by omega), List.getElem?_eq_none (by omega)]

/-- Parameters with which the mutation class searches: at least one mutation point, at least one
attempt, a standard deviation other than 0, a probability per cell from 0 on; for the multiple bit flip less than 1. -/
def MutationClass.Searches : MutationClass → Prop
  | .floatUniformOne | .bitFlip => True
  | .floatUniformN n | .intN n => 0 < n
  | .floatGaussOne _ sigma a => sigma ≠ 0 ∧ 0 < a
  | .floatGaussN n _ sigma a => 0 < n ∧ sigma ≠ 0 ∧ 0 < a
  | .intOne q => 0 ≤ q
  | .bitNFlip n q => 0 < n ∧ 0 ≤ q ∧ q < 1

/-- A bit string with its two bounds one apart (such as the default `(0, 1)`). -/
def Vec.Bits (v : Vec) : Prop := ∃ z : ℤ, v.bounds = .tup [(z : ℚ), (z : ℚ) + 1]

theorem Vec.Bits.two {v : Vec} {z : ℤ} (hb : v.bounds = .tup [(z : ℚ), (z : ℚ) + 1])
    (hk : v.kind = .bit) (hp : v.Point) {i : Nat} {x : ℚ} (hx : v.vector[i]? = some x) :
    x = z ∨ x = z + 1 := by
  obtain ⟨lo, hi, hat, hv⟩ := hp.2 i x hx
  rw [hb] at hat
  simp only [Bounds.At, List.cons.injEq, and_true] at hat
  obtain ⟨rfl, rfl⟩ := hat
  rw [hk] at hv
  obtain ⟨⟨y, rfl⟩, h1, h2⟩ := hv
  have h1' : z ≤ y := by exact_mod_cast h1
  have h2' : y ≤ z + 1 := by exact_mod_cast h2
  rcases eq_or_lt_of_le h1' with h | h
  · left; rw [h]
  · right
    have : y = z + 1 := by omega
    rw [this]; push_cast; rfl

theorem bitFlip_reach {v w : Vec} (hb : v.Bits) (hk : v.kind = .bit) (hp : v.Point)
    (hs : SameShape v w) (hw : w.Point) {i : Nat} {x y : ℚ} (hx : v.vector[i]? = some x)
    (hy : w.vector[i]? = some y) (hne : x ≠ y) : Reach (v.bitFlip (i : Int)) y := by
  obtain ⟨z, hb⟩ := hb
  have h1 := Vec.Bits.two hb hk hp hx
  have h2 := Vec.Bits.two (v := w) (hs.2.1.trans hb) (hs.1.trans hk) hw hy
  unfold Vec.bitFlip
  rw [hk, hb]
  simp only
  refine (Reach.ofExcept (py_get_nat _ _ _ hx)).bind ((Reach.pure _).of_eq ?_)
  rcases h1 with rfl | rfl <;> rcases h2 with rfl | rfl
  · exact absurd rfl hne
  · simp
  · simp
  · exact absurd rfl hne

/-- The first attempt of a Gaussian mutation can make every point that differs in at most `n` cells. -/
theorem gauss_try_reach {n attempts : Nat} {p mu sigma : ℚ} {v w : Vec} (hk : v.kind = .float) (hs : SameShape v w)
    (hsig : sigma ≠ 0) (ha : 0 < attempts) (hleg : v.bounds.Legal v.length) (h2 : ¬ v.bounds.TwoPairs) (hwp : w.Point)
    (hd : (diffs v.vector w.vector).length ≤ n) (hn : n ≤ v.vector.length) :
    Reach (npTry (gaussNPoint n p mu sigma attempts) [v]) (true, [w]) := by
  have hchk : w.checkIfInBounds = .ok true := by
    refine checkIfInBounds_of_inBounds (by rw [hs.2.1]; exact h2) (hwp.inBounds ?_)
    rw [hs.2.1, hs.2.2.1]; exact hleg
  obtain ⟨pts, h1, h3, h4, h5⟩ := exists_points hs hd hn
  refine npTry_reach (m := gaussNPoint n p mu sigma attempts) ha (attempt_reach rfl hs h3 h4
    (defaultCellSelector_reach h1 h3 h4) (fun i _ x hx => ?_) h5 hchk)
  have hi : i < v.vector.length := by
    rw [← hs.2.2.2]; exact (List.getElem?_eq_some_iff.1 hx).1
  show Reach (v.getRandomNumberWithGauss (i : Int) mu sigma) x
  unfold Vec.getRandomNumberWithGauss
  rw [hk]
  simp only
  refine (Reach.ofExcept (py_get_nat _ _ _ (List.getElem?_eq_getElem hi))).bind ?_
  refine (Reach.gauss mu hsig (x - v.vector[i])).bind ?_
  exact (Reach.pure _).of_eq (by ring)

/-- The draws of one application (see `C86_one_application`), whatever is to be drawn afterwards. -/
theorem MutationClass.op_reach (c : MutationClass) (p : ℚ) (hc : c.Searches) (v w : Vec)
    (hv : c.Suits v) (hs : SameShape v w) (hleg : v.bounds.Legal v.length) (h2 : ¬ v.bounds.TwoPairs)
    (hvp : v.kind = .bit → v.Point) (hwp : w.Point) (hbits : v.kind = .bit → v.Bits)
    (hd : ∀ n, c.points = some n → (diffs v.vector w.vector).length ≤ n)
    (hone : c = .bitFlip → (diffs v.vector w.vector).length = 1) : Reach (npApply (c.op p) [v]) (some [w]) := by
  have hchk : w.checkIfInBounds = .ok true := by
    refine checkIfInBounds_of_inBounds (by rw [hs.2.1]; exact h2) (hwp.inBounds ?_)
    rw [hs.2.1, hs.2.2.1]; exact hleg
  have hint : v.kind ≠ .float → v.bounds.Integral := by
    intro hk
    cases hkind : v.kind with
    | float => exact absurd hkind hk
    | int => exact hv.integral hkind
    | bit =>
      obtain ⟨z, hb⟩ := hbits hkind
      intro i lo hi hat
      rw [hb] at hat
      simp only [Bounds.At, List.cons.injEq, and_true] at hat
      obtain ⟨rfl, rfl⟩ := hat
      exact ⟨⟨z, rfl⟩, z + 1, by push_cast; rfl⟩
  have hvalue : ∀ (i : Nat) x, w.vector[i]? = some x → v.bounds.Value v.kind i x := by
    intro i x hx
    have := hwp.2 i x hx
    rwa [hs.1, hs.2.1] at this
  have huni : ∀ (i : Nat) x, w.vector[i]? = some x → Reach (v.getRandomNumberInBounds (i : Int)) x :=
    fun i x hx => getRandomNumberInBounds_reach (hvalue i x hx) hint hv.pair
  have hgauss : v.kind = .float → ∀ mu sigma, sigma ≠ 0 → ∀ (i : Nat) x, w.vector[i]? = some x →
      Reach (v.getRandomNumberWithGauss (i : Int) mu sigma) x := by
    intro hk mu sigma hsig i x hx
    have hi : i < v.vector.length := by
      rw [← hs.2.2.2]; exact (List.getElem?_eq_some_iff.1 hx).1
    unfold Vec.getRandomNumberWithGauss
    rw [hk]
    simp only
    refine (Reach.ofExcept (py_get_nat _ _ _ (List.getElem?_eq_getElem hi))).bind ?_
    refine (Reach.gauss mu hsig (x - v.vector[i])).bind ?_
    exact (Reach.pure _).of_eq (by ring)
  cases c with
  | floatUniformOne =>
    obtain ⟨pts, h1, h3, h4, h5⟩ := exists_points hs (hd 1 rfl) (hv.enough 1 rfl)
    exact npApply_reach (m := uniformNPoint 1) (by show 0 < 5; decide) rfl hs h3 h4 (defaultCellSelector_reach h1 h3 h4)
      (fun i _ => huni i) h5 hchk
  | floatUniformN n =>
    obtain ⟨pts, h1, h3, h4, h5⟩ := exists_points hs (hd n rfl) (hv.enough n rfl)
    exact npApply_reach (m := uniformNPoint n) (by show 0 < 5; decide) rfl hs h3 h4
      (defaultCellSelector_reach h1 h3 h4) (fun i _ => huni i) h5 hchk
  | intN n =>
    obtain ⟨pts, h1, h3, h4, h5⟩ := exists_points hs (hd n rfl) (hv.enough n rfl)
    exact npApply_reach (m := uniformNPoint n) (by show 0 < 5; decide) rfl hs h3 h4
      (defaultCellSelector_reach h1 h3 h4) (fun i _ => huni i) h5 hchk
  | floatGaussOne mu sigma a =>
    obtain ⟨pts, h1, h3, h4, h5⟩ := exists_points hs (hd 1 rfl) (hv.enough 1 rfl)
    exact npApply_reach (m := gaussNPoint 1 p mu sigma a) hc.2 rfl hs h3 h4
      (defaultCellSelector_reach h1 h3 h4) (fun i _ => hgauss hv.kind mu sigma hc.1 i) h5 hchk
  | floatGaussN n mu sigma a =>
    obtain ⟨pts, h1, h3, h4, h5⟩ := exists_points hs (hd n rfl) (hv.enough n rfl)
    exact npApply_reach (m := gaussNPoint n p mu sigma a) hc.2.2 rfl hs h3 h4
      (defaultCellSelector_reach h1 h3 h4) (fun i _ => hgauss hv.kind mu sigma hc.2.1 i) h5 hchk
  | intOne q =>
    refine npApply_reach (m := intOnePoint q) (pts := List.range v.vector.length) (by show 0 < 5; decide)
      rfl hs List.nodup_range (fun i hi => List.mem_range.1 hi) (Reach.pure _) (fun i _ x hx => ?_)
      (fun i hi => ?_) hchk
    · refine (Reach.random (u := 0) le_rfl (by norm_num)).bind ?_
      rw [if_pos (show 0 ≤ q from hc)]
      exact huni i x hx
    · have hge : v.vector.length ≤ i := by simpa using hi
      rw [List.getElem?_eq_none hge, List.getElem?_eq_none (by rw [hs.2.2.2]; exact hge)]
  | bitFlip =>
    have h1 := hone rfl
    have hnd : (diffs v.vector w.vector).Nodup := List.nodup_range.filter _
    have hlt : ∀ i ∈ diffs v.vector w.vector, i < v.vector.length := by
      intro i hi
      simp only [diffs, List.mem_filter, List.mem_range, hs.2.2.2, max_self] at hi
      exact hi.1
    refine npApply_reach (m := bitFlipOne) (pts := diffs v.vector w.vector) (by show 0 < 5; decide)
      rfl hs hnd hlt (defaultCellSelector_reach h1 hnd hlt) (fun i hi y hy => ?_) (fun i hi => ?_) hchk
    · have hx := List.getElem?_eq_getElem (hlt i hi)
      refine bitFlip_reach (hbits hv.kind) hv.kind (hvp hv.kind) hs hwp hx hy fun he => ?_
      simp only [diffs, List.mem_filter, decide_eq_true_eq] at hi
      exact hi.2 (by rw [hx, hy, he])
    · by_contra hne
      apply hi
      simp only [diffs, List.mem_filter, List.mem_range, decide_eq_true_eq]
      refine ⟨?_, fun h => hne h.symm⟩
      by_contra hge
      have := hs.2.2.2
      exact hne (by rw [List.getElem?_eq_none (by omega), List.getElem?_eq_none (by omega)])
  | bitNFlip n q =>
    obtain ⟨pts, h1, h3, h4, h5⟩ := exists_points hs (hd n rfl) (hv.enough n rfl)
    refine npApply_reach (m := _root_.Verif.GA.bitNFlip n q) (by show 0 < 5; decide) rfl hs h3 h4
      (defaultCellSelector_reach h1 h3 h4) (fun i hi y hy => ?_) h5 hchk
    obtain ⟨-, hq0, hq1⟩ := hc
    have hx := List.getElem?_eq_getElem (h4 i hi)
    by_cases he : v.vector[i]'(h4 i hi) = y
    · refine (Reach.random (u := (1 + q) / 2) (by linarith) (by linarith)).bind ?_
      rw [if_neg (by linarith)]
      refine Reach.ofExcept (py_get_nat _ _ _ ?_)
      rw [hx, he]
    · refine (Reach.random (u := 0) le_rfl (by norm_num)).bind ?_
      rw [if_pos hq0]
      exact bitFlip_reach (hbits hv.kind) hv.kind (hvp hv.kind) hs hwp hx hy he

/-- **C86, one application.** Let `v` be an individual the mutation class is meant for and `w` another
point of the search space of the same shape.  If they differ in at most as many cells as the class has
mutation points (exactly one for the single bit flip), then some draws turn `v` into `w`. -/
theorem C86_one_application (c : MutationClass) (p : ℚ) (hp : 0 ≤ p) (hc : c.Searches) (v w : Vec)
    (hv : c.Suits v) (hs : SameShape v w) (hleg : v.bounds.Legal v.length) (h2 : ¬ v.bounds.TwoPairs)
    (hvp : v.kind = .bit → v.Point) (hwp : w.Point) (hbits : v.kind = .bit → v.Bits)
    (hd : ∀ n, c.points = some n → (diffs v.vector w.vector).length ≤ n)
    (hone : c = .bitFlip → (diffs v.vector w.vector).length = 1) :
    ∃ tape tape', c.run p [v] tape = (.ok [w], tape') := by
  suffices Reach (c.run p [v]) [w] by
    obtain ⟨t, ht⟩ := this (fun _ => 0)
    exact ⟨t, _, ht⟩
  rw [c.run_eq]
  exact applyOperator_reach hp (c.op_reach p hc v w hv hs hleg h2 hvp hwp hbits hd hone)

/-- **C86, connectedness.** Applying a mutation class again and again, every point of the search space
can be reached from every other one: mutation alone never confines the search. -/
theorem C86_connected (c : MutationClass) (p : ℚ) (hp : 0 ≤ p) (hc : c.Searches) (v w : Vec)
    (hv : c.Suits v) (hs : SameShape v w) (hleg : v.bounds.Legal v.length) (h2 : ¬ v.bounds.TwoPairs)
    (hvp : v.Point) (hwp : w.Point) (hbits : v.kind = .bit → v.Bits) :
    Relation.ReflTransGen (fun a b => ∃ tape tape', c.run p [a] tape = (.ok [b], tape')) v w := by
  have hpts : ∀ n, c.points = some n → 1 ≤ n := by
    intro n hn
    cases c <;> simp only [MutationClass.points, Option.some.injEq, reduceCtorEq] at hn <;>
      simp only [MutationClass.Searches] at hc <;> omega
  obtain ⟨k, hk⟩ : ∃ k, (diffs v.vector w.vector).length = k := ⟨_, rfl⟩
  induction k generalizing v with
  | zero =>
    have hnil := List.eq_nil_of_length_eq_zero hk
    have hvec : v.vector = w.vector := by
      refine List.ext_getElem? fun i => ?_
      by_contra hne
      have : i ∈ diffs v.vector w.vector := by
        simp only [diffs, List.mem_filter, List.mem_range, decide_eq_true_eq]
        refine ⟨?_, hne⟩
        by_contra hge
        exact hne (by rw [List.getElem?_eq_none (by omega), List.getElem?_eq_none (by omega)])
      rw [hnil] at this; simp at this
    obtain ⟨a, b, c', d⟩ := v
    obtain ⟨a', b', c'', d'⟩ := w
    obtain ⟨k1, k2, k3, -⟩ := hs
    simp only at k1 k2 k3 hvec
    subst k1 k2 k3 hvec
    exact .refl
  | succ k ih =>
    obtain ⟨i, rest, hcons⟩ : ∃ i rest, diffs v.vector w.vector = i :: rest := by
      cases h : diffs v.vector w.vector with
      | nil => rw [h] at hk; simp at hk
      | cons i rest => exact ⟨i, rest, rfl⟩
    have hi : i ∈ diffs v.vector w.vector := by rw [hcons]; simp
    have hi' := hi
    simp only [diffs, List.mem_filter, List.mem_range, decide_eq_true_eq, hs.2.2.2, max_self] at hi'
    obtain ⟨hlt, hne⟩ := hi'
    have hltw : i < w.vector.length := by rw [hs.2.2.2]; exact hlt
    let u : Vec := { v with vector := v.vector.set i w.vector[i] }
    have hget : ∀ j, u.vector[j]? = if j = i then some w.vector[i] else v.vector[j]? := by
      intro j
      show (v.vector.set i w.vector[i])[j]? = _
      split
      · rename_i h; subst h; rw [List.getElem?_set_self hlt]
      · rename_i h; rw [List.getElem?_set_ne (by omega)]
    have hvu : SameShape v u := ⟨rfl, rfl, rfl, by show (v.vector.set i _).length = _; simp⟩
    have huw : SameShape u w := ⟨hs.1, hs.2.1, hs.2.2.1, by rw [hs.2.2.2, hvu.2.2.2]⟩
    have hup : u.Point := by
      refine ⟨hvp.1.trans hvu.2.2.2.symm, fun j x hx => ?_⟩
      rw [hget] at hx
      split at hx
      · rename_i h
        have := hwp.2 j x (by rw [h, List.getElem?_eq_getElem hltw]; exact hx)
        rwa [hs.1, hs.2.1] at this
      · exact hvp.2 j x hx
    have hdvu : diffs v.vector u.vector = [i] := by
      unfold diffs
      rw [hvu.2.2.2, max_self]
      have : (List.range v.vector.length).filter (fun j => decide (v.vector[j]? ≠ u.vector[j]?)) =
          (List.range v.vector.length).filter (fun j => j == i) := by
        refine List.filter_congr fun j _ => ?_
        rw [hget]
        by_cases h : j = i
        · subst h
          simp only [if_true, beq_self_eq_true, decide_eq_true_eq]
          rw [← List.getElem?_eq_getElem hltw]; exact hne
        · simp [h]
      rw [this, List.filter_beq, List.count_eq_one_of_mem List.nodup_range (List.mem_range.2 hlt)]
      rfl
    have hduw : (diffs u.vector w.vector).length = k := by
      have : diffs u.vector w.vector = (diffs v.vector w.vector).filter fun j => j != i := by
        unfold diffs
        rw [List.filter_filter, hs.2.2.2, hvu.2.2.2]
        refine List.filter_congr fun j _ => ?_
        rw [hget]
        by_cases h : j = i
        · subst h
          simp [List.getElem?_eq_getElem hltw]
        · simp [h]
      have hnd : (diffs v.vector w.vector).Nodup := List.nodup_range.filter _
      rw [this, ← hnd.erase_eq_filter, List.length_erase_of_mem hi, hk]
      rfl
    refine Relation.ReflTransGen.head ?_ (ih u (hv.sameShape hvu) huw hleg h2 hup
      (fun h => hbits h) hduw)
    refine C86_one_application c p hp hc v u hv hvu hleg h2 (fun _ => hvp) hup hbits (fun n hn => ?_) fun _ => ?_
    · rw [hdvu]; exact hpts n hn
    · rw [hdvu]; rfl

/-! ## Non-vacuity -/

namespace Sample

/-- Two bit strings of length 3 that differ everywhere. -/
def bits0 : Vec := ⟨.bit, .tup [((0 : ℤ) : ℚ), ((0 : ℤ) : ℚ) + 1], 3, [0, 0, 0]⟩
def bits1 : Vec := { bits0 with vector := [1, 1, 1] }

theorem bits_point (xs : List ℚ) (hl : xs.length = 3) (h : ∀ x ∈ xs, x = 0 ∨ x = 1) :
    ({ bits0 with vector := xs } : Vec).Point := by
  refine ⟨hl.symm, fun i x hx => ⟨_, _, rfl, ?_⟩⟩
  rcases h x (List.mem_of_getElem? hx) with rfl | rfl
  · exact ⟨⟨0, by simp⟩, by simp, by simp⟩
  · exact ⟨⟨1, by simp⟩, by simp, by simp⟩

example : MutationClass.bitFlip.Searches ∧ MutationClass.bitFlip.Suits bits0 ∧ SameShape bits0 bits1 ∧
    bits0.bounds.Legal bits0.length ∧ ¬ bits0.bounds.TwoPairs ∧ bits0.Point ∧ bits1.Point ∧
    bits0.Bits ∧ (diffs bits0.vector bits1.vector).length = 3 := by
  refine ⟨trivial, ⟨rfl, rfl, by simp [bits0], fun _ => ⟨_, _, rfl⟩, ?_⟩, ⟨rfl, rfl, rfl, rfl⟩,
    ⟨rfl, ?_⟩, by rintro ⟨p, q, h⟩; simp [bits0] at h, bits_point _ rfl (by simp),
    bits_point _ rfl (by simp), ⟨0, rfl⟩, by decide +kernel⟩
  · intro n hn; simp [MutationClass.points] at hn; subst hn; decide
  · intro i lo hi hat
    simp only [bits0, Bounds.At, List.cons.injEq, and_true] at hat
    obtain ⟨rfl, rfl⟩ := hat
    simp

/-- A creator configuration to which `C86_created` applies, with per-cell bounds. -/
example : (Bounds.lst [(0, 1), (-2, 5)]).Legal 2 ∧
    (⟨.float, .lst [(0, 1), (-2, 5)], 2, [1/2, 4]⟩ : Vec).Point := by
  refine ⟨⟨rfl, ?_⟩, rfl, ?_⟩
  · intro i lo hi hat
    simp only [Bounds.At] at hat
    have := List.mem_of_getElem? hat
    simp only [List.mem_cons, Prod.mk.injEq, List.not_mem_nil, or_false] at this
    rcases this with ⟨rfl, rfl⟩ | ⟨rfl, rfl⟩ <;> norm_num
  · intro i x hx
    match i, hx with
    | 0, hx =>
      simp only [List.getElem?_cons_zero, Option.some.injEq] at hx; subst hx
      exact ⟨0, 1, rfl, .inl ⟨by norm_num, by norm_num⟩⟩
    | 1, hx =>
      simp only [List.getElem?_cons_succ, List.getElem?_cons_zero, Option.some.injEq] at hx; subst hx
      exact ⟨-2, 5, rfl, .inl ⟨by norm_num, by norm_num⟩⟩

end Sample
end Verif.GA
