import Verif.Spec.Vector
import Verif.Py.Ensures
import Mathlib.Tactic.Tauto

/-! # Vector creation and mutation -/

namespace Verif.GA
open PyM

theorem checkFrom_true {b : Bounds} {xs : List ℚ} {i : Nat} (h : checkFrom b i xs = .ok true) :
    ∀ j x, xs[j]? = some x → ∃ lo hi, b.At (i + j) lo hi ∧ lo ≤ x ∧ x ≤ hi := by
  induction xs generalizing i with
  | nil => intro j x hx; simp at hx
  | cons y ys ih =>
    unfold checkFrom at h
    split at h
    · simp at h
    · simp at h
    · rename_i hc
      intro j x hx
      cases j with
      | zero =>
        simp at hx; subst hx
        unfold checkCell at hc
        split at hc
        · rename_i lo hi
          refine ⟨lo, hi, rfl, ?_⟩
          simpa using hc
        · simp at hc
        · rename_i bs
          split at hc
          · simp at hc
          · split at hc
            · simp at hc
            · rename_i lo hi hbs
              refine ⟨lo, hi, hbs, ?_⟩
              simpa using hc
      | succ j =>
        obtain ⟨lo, hi, h1, h2⟩ := ih h j x (by simpa using hx)
        exact ⟨lo, hi, by rw [show i + (j + 1) = i + 1 + j by omega]; exact h1, h2⟩

theorem checkFrom_of_inBounds {b : Bounds} (h2 : ¬ b.TwoPairs) {xs : List ℚ} {i : Nat}
    (h : ∀ j x, xs[j]? = some x → ∃ lo hi, b.At (i + j) lo hi ∧ lo ≤ x ∧ x ≤ hi) :
    checkFrom b i xs = .ok true := by
  induction xs generalizing i with
  | nil => rfl
  | cons y ys ih =>
    unfold checkFrom
    obtain ⟨lo, hi, hat, hle⟩ := h 0 y rfl
    have hc : checkCell b i y = .ok true := by
      cases b with
      | tup xs =>
        simp only [Bounds.At] at hat
        subst hat
        simp [checkCell, hle.1, hle.2]
      | lst bs =>
        simp only [Bounds.At, Nat.add_zero] at hat
        have : bs.length ≠ 2 := by
          intro hl
          match bs, hl with
          | [p, q], _ => exact h2 ⟨p, q, rfl⟩
        simp [checkCell, this, hat, hle.1, hle.2]
    rw [hc]
    exact ih fun j x hx => by
      have := h (j + 1) x (by simpa using hx)
      rw [show i + 1 + j = i + (j + 1) by omega]; exact this

theorem checkIfInBounds_true {v : Vec} (h : v.checkIfInBounds = .ok true) : v.InBounds :=
  fun i x hx => by
    have := checkFrom_true h i x hx
    rwa [Nat.zero_add] at this

theorem checkIfInBounds_of_inBounds {v : Vec} (h2 : ¬ v.bounds.TwoPairs) (h : v.InBounds) :
    v.checkIfInBounds = .ok true :=
  checkFrom_of_inBounds h2 fun j x hx => by rw [Nat.zero_add]; exact h j x hx

/-- With one pair per cell and exactly two cells, the check raises. -/
theorem checkIfInBounds_twoPairs {v : Vec} (h2 : v.bounds.TwoPairs) (h : v.vector ≠ []) :
    v.checkIfInBounds = .error .typeError := by
  obtain ⟨p, q, hb⟩ := h2
  unfold Vec.checkIfInBounds
  obtain ⟨x, xs, hv⟩ := List.exists_cons_of_ne_nil h
  rw [hb, hv]
  simp [checkFrom, checkCell]

/-- When bounds are not a pair of pairs the check does not raise on suitable shapes. -/
theorem checkFrom_total {b : Bounds} (h2 : ¬ b.TwoPairs) {xs : List ℚ} {i : Nat}
    (h : ∀ j, j < xs.length → ∃ lo hi, b.At (i + j) lo hi) :
    ∃ r, checkFrom b i xs = .ok r := by
  induction xs generalizing i with
  | nil => exact ⟨true, rfl⟩
  | cons y ys ih =>
    unfold checkFrom
    obtain ⟨lo, hi, hat⟩ := h 0 (by simp)
    have hc : ∃ r, checkCell b i y = .ok r := by
      cases b with
      | tup xs =>
        simp only [Bounds.At] at hat
        subst hat
        exact ⟨_, rfl⟩
      | lst bs =>
        simp only [Bounds.At, Nat.add_zero] at hat
        have : bs.length ≠ 2 := by
          intro hl
          match bs, hl with
          | [p, q], _ => exact h2 ⟨p, q, rfl⟩
        simp [checkCell, this, hat]
    obtain ⟨r, hr⟩ := hc
    rw [hr]
    cases r with
    | false => exact ⟨false, rfl⟩
    | true =>
      refine ih fun j hj => ?_
      have := h (j + 1) (by simpa using hj)
      rw [show i + 1 + j = i + (j + 1) by omega]
      exact this

/-- Every cell of an in-bounds vector has bounds in ascending order. -/
theorem Vec.InBounds.at {v : Vec} (h : v.InBounds) {i : Nat} (hi : i < v.vector.length) :
    ∃ lo hi, v.bounds.At i lo hi ∧ lo ≤ hi := by
  obtain ⟨lo, hi', h1, h2, h3⟩ := h i _ (List.getElem?_eq_getElem hi)
  exact ⟨lo, hi', h1, le_trans h2 h3⟩

theorem py_get_nat {α : Type} (xs : List α) (i : Nat) (x : α) (h : xs[i]? = some x) :
    Py.get xs (i : Int) = .ok x := by
  obtain ⟨hi, rfl⟩ := List.getElem?_eq_some_iff.1 h
  unfold Py.get Py.index?
  rw [if_pos (by omega), Int.toNat_natCast, if_pos hi]
  simp [List.getElem?_eq_getElem hi]

/-- A draw within the bounds of a cell succeeds and stays in the bounds. -/
theorem getRandomNumberInBounds_ensures {v : Vec} {i : Nat} {lo hi : ℚ} (hat : v.bounds.At i lo hi)
    (hle : lo ≤ hi) (hint : v.kind ≠ .float → (∃ z : ℤ, lo = z) ∧ ∃ z : ℤ, hi = z)
    (hbit : v.kind = .bit → ∃ lo hi, v.bounds = .tup [lo, hi]) :
    Ensures (v.getRandomNumberInBounds (i : Int)) (fun x => lo ≤ x ∧ x ≤ hi) := by
  have hcell : v.kind ≠ .float → Ensures (randCell lo hi) (fun x => lo ≤ x ∧ x ≤ hi) := by
    intro hk
    obtain ⟨⟨a, rfl⟩, b, rfl⟩ := hint hk
    refine Ensures.bind (Rand.randint_ensures (by exact_mod_cast hle)) fun z hz => Ensures.pure ?_
    exact ⟨by exact_mod_cast hz.1, by exact_mod_cast hz.2⟩
  obtain ⟨kind, bounds, length, vector⟩ := v
  simp only at *
  unfold Vec.getRandomNumberInBounds
  cases bounds with
  | tup xs =>
    simp only [Bounds.At] at hat
    subst hat
    cases kind with
    | int => exact hcell (by simp)
    | float => exact Rand.uniform_ensures hle
    | bit => exact hcell (by simp)
  | lst bs =>
    simp only [Bounds.At] at hat
    cases kind with
    | int =>
      refine Ensures.bind (Ensures.ofExcept (py_get_nat bs i _ hat) (Q := (· = (lo, hi))) rfl) ?_
      intro p hp; subst hp; exact hcell (by simp)
    | float =>
      refine Ensures.bind (Ensures.ofExcept (py_get_nat bs i _ hat) (Q := (· = (lo, hi))) rfl) ?_
      intro p hp; subst hp; exact Rand.uniform_ensures hle
    | bit => obtain ⟨_, _, h⟩ := hbit rfl; simp at h

/-! ## Setting cells -/

theorem index?_lt {n : Nat} {i : Int} {k : Nat} (h : Py.index? n i = some k) : k < n := by
  unfold Py.index? at h
  split at h
  · split at h
    · simp at h; omega
    · simp at h
  · split at h
    · simp at h; omega
    · simp at h

/-- Positions addressed by Python indices. -/
def positions (n : Nat) (pts : List Int) : List Nat := pts.filterMap (Py.index? n)

theorem positions_length (n : Nat) (pts : List Int) : (positions n pts).length ≤ pts.length :=
  List.length_filterMap_le _ _

theorem setCells_spec : ∀ (ps : List (Int × ℚ)) (v v' : Vec), setCells v ps = .ok v' →
    v'.kind = v.kind ∧ v'.bounds = v.bounds ∧ v'.length = v.length ∧
    v'.vector.length = v.vector.length ∧
    ∀ i, i ∉ positions v.vector.length (ps.map Prod.fst) → v'.vector[i]? = v.vector[i]? := by
  intro ps
  induction ps with
  | nil => intro v v' h; simp [setCells] at h; subst h; simp
  | cons p ps ih =>
    intro v v' h
    obtain ⟨i, x⟩ := p
    unfold setCells at h
    split at h
    · simp at h
    · rename_i v₁ h1
      unfold Vec.setCellValue at h1
      split at h1
      · simp at h1
      · rename_i k hk
        simp at h1; subst h1
        obtain ⟨a, b, c, d, e⟩ := ih _ _ h
        simp only [List.length_set] at a b c d e
        refine ⟨a, b, c, d, fun j hj => ?_⟩
        simp only [positions, List.map_cons, List.filterMap_cons, hk, List.mem_cons, not_or] at hj
        rw [e j hj.2, List.getElem?_set_ne (by omega)]

theorem setCells_ok : ∀ (ps : List (Int × ℚ)) (v : Vec),
    (∀ p ∈ ps, ∃ k : Nat, p.1 = k ∧ k < v.vector.length) → ∃ v', setCells v ps = .ok v' := by
  intro ps
  induction ps with
  | nil => intro v _; exact ⟨v, rfl⟩
  | cons p ps ih =>
    intro v h
    obtain ⟨i, x⟩ := p
    obtain ⟨k, hk, hlt⟩ := h (i, x) (by simp)
    simp only at hk; subst hk
    have : Py.index? v.vector.length (k : Int) = some k := by
      unfold Py.index?; rw [if_pos (by omega)]; simp [hlt]
    unfold setCells Vec.setCellValue
    rw [this]
    exact ih _ fun p hp => by
      obtain ⟨k', h1, h2⟩ := h p (by simp [hp])
      exact ⟨k', h1, by simpa using h2⟩

/-- Cells set at distinct positions hold the given values. -/
theorem setCells_get : ∀ (ps : List (Nat × ℚ)) (v v' : Vec), (ps.map Prod.fst).Nodup →
    setCells v (ps.map fun p => ((p.1 : Int), p.2)) = .ok v' →
    ∀ p ∈ ps, v'.vector[p.1]? = some p.2 := by
  intro ps
  induction ps with
  | nil => intro v v' _ _ p hp; simp at hp
  | cons q ps ih =>
    intro v v' hnd h p hp
    obtain ⟨i, x⟩ := q
    simp only [List.map_cons, List.nodup_cons] at hnd
    simp only [List.map_cons] at h
    unfold setCells at h
    split at h
    · simp at h
    · rename_i v₁ h1
      rcases List.mem_cons.1 hp with rfl | hp
      · have h5 := (setCells_spec _ _ _ h).2.2.2.2 i
        unfold Vec.setCellValue at h1
        split at h1
        · simp at h1
        · rename_i k hk
          have hki : k = i := by
            unfold Py.index? at hk
            rw [if_pos (by omega)] at hk
            split at hk
            · simp at hk; omega
            · simp at hk
          have hlt := index?_lt hk
          simp at h1; subst h1 hki
          rw [h5]
          · simp [hlt]
          · simp only [positions, List.mem_filterMap, not_exists, not_and]
            intro z hz
            simp only [List.map_map, List.mem_map, Function.comp] at hz
            obtain ⟨p', hp', rfl⟩ := hz
            intro hc
            have : p'.1 = k := by
              unfold Py.index? at hc
              rw [if_pos (by omega)] at hc
              split at hc
              · simp at hc; omega
              · simp at hc
            exact hnd.1 (List.mem_map.2 ⟨p', hp', this⟩)
      · exact ih v₁ v' hnd.2 h p hp

/-! ## One attempt on one individual -/

/-- Whatever the callables, one attempt on an individual either returns it with at most the selected
cells changed, or returns it as it was. -/
theorem mutateOne_post (m : NPoint) (v : Vec) :
    Post (mutateOne m v) fun r =>
      r.2.kind = v.kind ∧ r.2.bounds = v.bounds ∧ r.2.vector.length = v.vector.length ∧
      (v.length = v.vector.length → r.2.length = v.length) ∧
      (r.1 = false → r.2 = v.setVector v.vector) := by
  unfold mutateOne
  refine Post.bind Post.trivial fun pts _ => Post.bind Post.trivial fun vals _ => ?_
  refine Post.bind (Post.ofExcept (Q := fun v' => setCells v (pts.zip vals) = .ok v')
    fun a h => h) fun v' hv' => ?_
  obtain ⟨h1, h2, h3, h4, -⟩ := setCells_spec _ _ _ hv'
  refine Post.bind Post.trivial fun ok _ => Post.ite (fun _ => ?_) fun _ => ?_
  · exact Post.pure ⟨h1, h2, h4, fun _ => h3, by simp⟩
  · refine Post.pure ⟨h1, h2, rfl, fun h => h.symm, fun _ => ?_⟩
    simp only [Vec.setVector, Vec.mk.injEq, and_true]
    exact ⟨h1, h2⟩

theorem mutateOne_diffs {m : NPoint} {n : Nat} {v : Vec}
    (hsel : Post (m.cellSelector v) fun pts => pts.length ≤ n) :
    Post (mutateOne m v) fun r => (diffs v.vector r.2.vector).length ≤ n := by
  unfold mutateOne
  refine Post.bind hsel fun pts hpts => Post.bind Post.trivial fun vals _ => ?_
  refine Post.bind (Post.ofExcept (Q := fun v' => setCells v (pts.zip vals) = .ok v')
    fun a h => h) fun v' hv' => ?_
  obtain ⟨-, -, -, h4, h5⟩ := setCells_spec _ _ _ hv'
  refine Post.bind Post.trivial fun ok _ => Post.ite (fun _ => ?_) fun _ => ?_
  · refine Post.pure ?_
    have hsub : diffs v.vector v'.vector ⊆ positions v.vector.length ((pts.zip vals).map Prod.fst) := by
      intro i hi
      simp only [diffs, List.mem_filter, List.mem_range, decide_eq_true_eq] at hi
      by_contra hc
      exact hi.2 (h5 i hc).symm
    have hnd : (diffs v.vector v'.vector).Nodup := List.nodup_range.filter _
    calc (diffs v.vector v'.vector).length
        ≤ (positions v.vector.length ((pts.zip vals).map Prod.fst)).length :=
          (List.subperm_of_subset hnd hsub).length_le
      _ ≤ ((pts.zip vals).map Prod.fst).length := positions_length _ _
      _ ≤ pts.length := by simp
      _ ≤ n := hpts
  · refine Post.pure ?_
    have : diffs v.vector v.vector = [] := by simp [diffs]
    simp only [Vec.setVector]
    rw [this]
    simp

/-- The rejected individual is rolled back, the ones before it keep what was accepted, the ones after
it are untouched. -/
theorem attemptOperator_post (m : NPoint) : ∀ inds : List Vec,
    Post (attemptOperator m inds) fun r =>
      (r.1 = true ∧ r.2.length = inds.length) ∨
      (r.1 = false ∧ ∃ pre v post pre', inds = pre ++ v :: post ∧ pre'.length = pre.length ∧
        r.2 = pre' ++ v.setVector v.vector :: post) := by
  intro inds
  induction inds with
  | nil => exact Post.pure (.inl ⟨rfl, rfl⟩)
  | cons v rest ih =>
    unfold attemptOperator
    refine Post.bind (mutateOne_post m v) fun r hr => ?_
    obtain ⟨ok, v'⟩ := r
    simp only at hr ⊢
    refine Post.ite (fun hok => ?_) fun hok => ?_
    · refine Post.bind ih fun r' hr' => ?_
      obtain ⟨s, rest'⟩ := r'
      refine Post.pure ?_
      simp only at hr' ⊢
      rcases hr' with ⟨h1, h2⟩ | ⟨h1, pre, w, post, pre', h2, h3, h4⟩
      · exact .inl ⟨h1, by simp [h2]⟩
      · exact .inr ⟨h1, v :: pre, w, post, v' :: pre', by simp [h2], by simp [h3], by simp [h4]⟩
    · refine Post.pure (.inr ⟨rfl, [], v, rest, [], rfl, rfl, ?_⟩)
      have hok' : ok = false := by simpa using hok
      rw [hr.2.2.2.2 hok']
      rfl

/-! ## Total correctness -/

theorem setCells_val : ∀ (ps : List (Int × ℚ)) (v v' : Vec), setCells v ps = .ok v' →
    ∀ (i : Nat) x, v'.vector[i]? = some x →
      v.vector[i]? = some x ∨ ∃ z, (z, x) ∈ ps ∧ Py.index? v.vector.length z = some i := by
  intro ps
  induction ps with
  | nil => intro v v' h i x hx; simp [setCells] at h; subst h; exact .inl hx
  | cons p ps ih =>
    intro v v' h i x hx
    obtain ⟨z, y⟩ := p
    unfold setCells at h
    split at h
    · simp at h
    · rename_i v₁ h1
      unfold Vec.setCellValue at h1
      split at h1
      · simp at h1
      · rename_i k hk
        simp at h1; subst h1
        rcases ih _ _ h i x hx with h2 | ⟨z', hz', hi⟩
        · simp only at h2
          by_cases hki : k = i
          · subst hki
            rw [List.getElem?_set_self (index?_lt hk)] at h2
            simp at h2; subst h2
            exact .inr ⟨z, by simp, hk⟩
          · rw [List.getElem?_set_ne hki] at h2
            exact .inl h2
        · exact .inr ⟨z', by simp [hz'], by simpa using hi⟩

theorem index?_nat {n k i : Nat} (h : Py.index? n (k : Int) = some i) : k = i := by
  unfold Py.index? at h
  rw [if_pos (by omega)] at h
  split at h
  · simp at h; omega
  · simp at h

/-- What the operator needs from an individual to work on it. -/
structure Ready (m : NPoint) (V : Vec → Nat → ℚ → Prop) (v : Vec) : Prop where
  length : v.length = v.vector.length
  inb : v.InBounds
  notTwo : ¬ v.bounds.TwoPairs
  sel : Ensures (m.cellSelector v) fun pts => ∀ z ∈ pts, ∃ k : Nat, z = k ∧ k < v.vector.length
  val : ∀ k : Nat, k < v.vector.length → Ensures (m.mutVal v k) (V v k)
  chk : m.checker = defaultSuccessChecker

/-- Values that are within the bounds of their cell. -/
def SafeValues (V : Vec → Nat → ℚ → Prop) (v : Vec) : Prop :=
  ∀ k x lo hi, V v k x → v.bounds.At k lo hi → lo ≤ x ∧ x ≤ hi

theorem mutateOne_ensures {m : NPoint} {V : Vec → Nat → ℚ → Prop} {v : Vec} (h : Ready m V v) :
    Ensures (mutateOne m v) fun r =>
      SameShape v r.2 ∧ r.2.InBounds ∧ (SafeValues V v → r.1 = true) := by
  refine Ensures.mono (Q := fun r => (r.2.InBounds ∧ (SafeValues V v → r.1 = true)) ∧ _)
    (Ensures.and ?_ (mutateOne_post m v)) fun r hr =>
      ⟨⟨hr.2.1, hr.2.2.1, hr.2.2.2.2.1 h.length, hr.2.2.2.1⟩, hr.1⟩
  unfold mutateOne
  refine Ensures.bind h.sel fun pts hpts => ?_
  refine Ensures.bind (mapL_ensures (R := fun z x => ∃ k : Nat, z = (k : Int) ∧ k < v.vector.length ∧ V v k x)
    pts fun z hz => ?_) fun vals hvals => ?_
  · obtain ⟨k, rfl, hk⟩ := hpts z hz
    exact (h.val k hk).mono fun x hx => ⟨k, rfl, hk, hx⟩
  have hzip : ∀ p ∈ pts.zip vals, ∃ k : Nat, p.1 = (k : Int) ∧ k < v.vector.length ∧ V v k p.2 := by
    intro p hp
    obtain ⟨a, b⟩ := p
    exact (List.forall₂_iff_zip.1 hvals).2 hp
  obtain ⟨v', hv'⟩ := setCells_ok (pts.zip vals) v fun p hp => by
    obtain ⟨k, h1, h2, -⟩ := hzip p hp
    exact ⟨k, h1, h2⟩
  refine Ensures.bind (Ensures.ofExcept hv' (Q := (· = v')) rfl) fun w hw => ?_
  subst hw
  obtain ⟨h1, h2, h3, h4, -⟩ := setCells_spec _ _ _ hv'
  obtain ⟨ok, hok⟩ := checkFrom_total (b := w.bounds) (xs := w.vector) (i := 0) (h2 ▸ h.notTwo)
    (fun j hj => by
      rw [h4] at hj
      obtain ⟨lo, hi, hat, -⟩ := h.inb.at hj
      rw [Nat.zero_add, h2]; exact ⟨lo, hi, hat⟩)
  rw [h.chk]
  refine Ensures.bind (Ensures.ofExcept hok (Q := (· = ok)) rfl) fun ok' hok' => ?_
  subst hok'
  refine Ensures.ite (fun ht => ?_) fun hf => ?_
  · subst ht
    exact Ensures.pure ⟨checkIfInBounds_true hok, fun _ => rfl⟩
  · have hf' : ok' = false := by simpa using hf
    subst hf'
    refine Ensures.pure ⟨?_, fun hsafe => absurd hok ?_⟩
    · intro i x hx
      obtain ⟨lo, hi, hat, hle⟩ := h.inb i x hx
      exact ⟨lo, hi, h2 ▸ hat, hle⟩
    · have : w.checkIfInBounds = .ok true := by
        refine checkIfInBounds_of_inBounds (h2 ▸ h.notTwo) fun i x hx => ?_
        rcases setCells_val _ _ _ hv' i x hx with hv | ⟨z, hz, hi⟩
        · rw [h2]; exact h.inb i x hv
        · obtain ⟨k, hzk, hk, hV⟩ := hzip _ hz
          simp only at hzk hV
          subst hzk
          have := index?_nat hi
          subst this
          obtain ⟨lo, hi', hat, -⟩ := h.inb.at hk
          rw [h2]
          exact ⟨lo, hi', hat, hsafe _ _ _ _ hV hat⟩
      unfold Vec.checkIfInBounds at this
      rw [this]; simp

theorem attemptOperator_ensures {m : NPoint} {V : Vec → Nat → ℚ → Prop} : ∀ {inds : List Vec},
    (∀ v ∈ inds, Ready m V v) → Ensures (attemptOperator m inds) fun r =>
      List.Forall₂ (fun v w => SameShape v w ∧ w.InBounds) inds r.2 ∧
      ((∀ v ∈ inds, SafeValues V v) → r.1 = true) := by
  intro inds
  induction inds with
  | nil => intro _; exact Ensures.pure ⟨.nil, fun _ => rfl⟩
  | cons v rest ih =>
    intro h
    unfold attemptOperator
    refine Ensures.bind (mutateOne_ensures (h v (by simp))) fun r hr => ?_
    obtain ⟨ok, v'⟩ := r
    simp only at hr ⊢
    refine Ensures.ite (fun hok => ?_) fun hok => ?_
    · refine Ensures.bind (ih fun w hw => h w (by simp [hw])) fun r' hr' => ?_
      obtain ⟨s, rest'⟩ := r'
      exact Ensures.pure ⟨.cons ⟨hr.1, hr.2.1⟩ hr'.1, fun hs => hr'.2 fun w hw => hs w (by simp [hw])⟩
    · refine Ensures.pure ⟨.cons ⟨hr.1, hr.2.1⟩ ?_, fun hs => absurd (hr.2.2 (hs v (by simp))) hok⟩
      rw [List.forall₂_same]
      exact fun w hw => ⟨⟨rfl, rfl, rfl, rfl⟩, (h w (by simp [hw])).inb⟩

theorem SameShape.trans {u v w : Vec} (h1 : SameShape u v) (h2 : SameShape v w) : SameShape u w :=
  ⟨h2.1.trans h1.1, h2.2.1.trans h1.2.1, h2.2.2.1.trans h1.2.2.1, h2.2.2.2.trans h1.2.2.2⟩

/-- The invariant of the retry loop. -/
abbrev Keeps (inds out : List Vec) : Prop :=
  List.Forall₂ (fun v w => SameShape v w ∧ w.InBounds) inds out

theorem Keeps.trans {a b c : List Vec} (h1 : Keeps a b) (h2 : Keeps b c) : Keeps a c := by
  induction h1 generalizing c with
  | nil => exact h2
  | cons h _ ih =>
    cases h2 with
    | cons h' hs' => exact .cons ⟨h.1.trans h'.1, h'.2⟩ (ih hs')

theorem Keeps.refl {a : List Vec} (h : ∀ v ∈ a, v.InBounds) : Keeps a a := by
  rw [Keeps, List.forall₂_same]; exact fun v hv => ⟨⟨rfl, rfl, rfl, rfl⟩, h v hv⟩

/-- Retrying, with a repair that keeps the bounds. -/
theorem npApply_ensures {m : NPoint} {V : Vec → Nat → ℚ → Prop} {inds : List Vec}
    (hinb : ∀ v ∈ inds, v.InBounds)
    (hready : ∀ l, Keeps inds l → ∀ v ∈ l, Ready m V v)
    (hfail : ∀ l, Keeps inds l → Ensures (m.onFail l) fun r => ∃ out, r = some out ∧ Keeps inds out) :
    Ensures (npApply m inds) fun r => ∃ out, r = some out ∧ Keeps inds out := by
  unfold npApply failableApply
  suffices ∀ n i l, Keeps inds l → Ensures (failableLoop (α := Option (List Vec))
      (fun p _ => match p with
        | none => raise .typeError
        | some l => do
          let (s, l') ← attemptOperator m l
          pure (s, some l'))
      (fun p => match p with
        | none => raise .typeError
        | some l => m.onFail l) n i (some l)) fun r => ∃ out, r = some out ∧ Keeps inds out from
    this _ _ _ (Keeps.refl hinb)
  intro n
  induction n with
  | zero => intro i l hl; exact hfail l hl
  | succ n ih =>
    intro i l hl
    refine Ensures.bind (Q := fun r => ∃ l', r.2 = some l' ∧ Keeps inds l') ?_ fun r hr => ?_
    · refine Ensures.bind (attemptOperator_ensures (hready l hl)) fun r hr => ?_
      obtain ⟨s, l'⟩ := r
      exact Ensures.pure ⟨l', rfl, hl.trans hr.1⟩
    · obtain ⟨s, p⟩ := r
      obtain ⟨l', rfl, hl'⟩ := hr
      exact Ensures.ite (fun _ => Ensures.pure ⟨l', rfl, hl'⟩) fun _ => ih (i + 1) l' hl'

/-- The attempts alone. -/
theorem npTry_ensures {m : NPoint} {V : Vec → Nat → ℚ → Prop} {inds : List Vec}
    (hinb : ∀ v ∈ inds, v.InBounds) (hready : ∀ l, Keeps inds l → ∀ v ∈ l, Ready m V v) :
    Ensures (npTry m inds) fun r => Keeps inds r.2 := by
  unfold npTry failableApply
  suffices ∀ n i b l, Keeps inds l → Ensures (failableLoop (α := Bool × List Vec)
      (fun p _ => do
        let (s, l') ← attemptOperator m p.2
        pure (s, (s, l'))) pure n i (b, l)) fun r => Keeps inds r.2 from
    this _ _ _ _ (Keeps.refl hinb)
  intro n
  induction n with
  | zero => intro i b l hl; exact Ensures.pure hl
  | succ n ih =>
    intro i b l hl
    refine Ensures.bind (Q := fun r => Keeps inds r.2.2) ?_ fun r hr => ?_
    · refine Ensures.bind (attemptOperator_ensures (hready l hl)) fun r hr => ?_
      obtain ⟨s, l'⟩ := r
      exact Ensures.pure (hl.trans hr.1)
    · obtain ⟨s, b', l'⟩ := r
      exact Ensures.ite (fun _ => Ensures.pure hr) fun _ => ih (i + 1) b' l' hr

/-- If the new values are always legal the first attempt succeeds. -/
theorem npApply_safe {m : NPoint} {V : Vec → Nat → ℚ → Prop} {inds : List Vec}
    (hready : ∀ v ∈ inds, Ready m V v) (hsafe : ∀ v ∈ inds, SafeValues V v) (ha : 0 < m.attempts) :
    Ensures (npApply m inds) (fun r => ∃ out, r = some out ∧ Keeps inds out) ∧
    ∀ R : List Vec → Prop, Post (attemptOperator m inds) (fun r => R r.2) →
      Post (npApply m inds) (fun r => ∃ out, r = some out ∧ R out) := by
  obtain ⟨a, ha'⟩ : ∃ a, m.attempts = a + 1 := ⟨m.attempts - 1, by omega⟩
  have key : ∀ R : List Vec → Prop, Ensures (attemptOperator m inds) (fun r => r.1 = true ∧ R r.2) →
      Ensures (npApply m inds) (fun r => ∃ out, r = some out ∧ R out) := by
    intro R hR
    unfold npApply failableApply
    rw [ha']
    refine Ensures.bind (Q := fun r => r.1 = true ∧ ∃ out, r.2 = some out ∧ R out) ?_ fun r hr => ?_
    · refine Ensures.bind hR fun r hr => ?_
      obtain ⟨s, l'⟩ := r
      exact Ensures.pure ⟨hr.1, l', rfl, hr.2⟩
    · obtain ⟨s, p⟩ := r
      obtain ⟨hs, out, rfl, hq⟩ := hr
      simp only at hs
      subst hs
      exact Ensures.ite (fun _ => Ensures.pure ⟨out, rfl, hq⟩) fun h => absurd rfl h
  have h1 := attemptOperator_ensures hready
  refine ⟨key _ (h1.mono fun r hr => ⟨hr.2 hsafe, hr.1⟩), fun R hR => ?_⟩
  exact (key R ((h1.and hR).mono fun r hr => ⟨hr.1.2 hsafe, hr.2⟩)).post

theorem applyOperator_ensures {p : ℚ} {apply : List Vec → Rand (Option (List Vec))} {inds : List Vec}
    {R : List Vec → Prop} (hid : R inds)
    (h : Ensures (apply inds) fun r => ∃ out, r = some out ∧ R out) :
    Ensures (applyOperator p apply inds) R := by
  unfold applyOperator
  refine Ensures.bind Rand.random_ensures fun u _ => Ensures.ite (fun _ => ?_) fun _ => Ensures.pure hid
  refine Ensures.bind h fun r hr => ?_
  obtain ⟨out, rfl, hq⟩ := hr
  exact Ensures.pure hq

theorem applyOperator_post {p : ℚ} {apply : List Vec → Rand (Option (List Vec))} {inds : List Vec}
    {R : List Vec → Prop} (hid : R inds)
    (h : Post (apply inds) fun r => ∀ out, r = some out → R out) :
    Post (applyOperator p apply inds) R := by
  unfold applyOperator
  refine Post.bind Post.trivial fun u _ => Post.ite (fun _ => ?_) fun _ => Post.pure hid
  refine Post.bind h fun r hr => ?_
  cases r with
  | none => exact Post.raise
  | some out => exact Post.pure (hr out rfl)

/-! ## The selectors and value getters of the library classes -/

theorem defaultCellSelector_post (n : Nat) (v : Vec) :
    Post (defaultCellSelector n v) fun pts => pts.length ≤ n := by
  unfold defaultCellSelector
  exact Post.bind (Rand.sample_post n _) fun s hs => Post.pure (by simp [hs.2])

theorem defaultCellSelector_ensures {n : Nat} {v : Vec} (h : n ≤ v.vector.length) :
    Ensures (defaultCellSelector n v) fun pts =>
      ∀ z ∈ pts, ∃ k : Nat, z = k ∧ k < v.vector.length := by
  unfold defaultCellSelector
  refine Ensures.bind (Rand.sample_ensures n _ (by simpa [Vec.size] using h)) fun s hs => Ensures.pure ?_
  intro z hz
  obtain ⟨k, hk, hzk⟩ := List.mem_map.1 hz
  exact ⟨k, hzk.symm, by simpa [Vec.size] using hs.1.subset hk⟩

/-- A value within the bounds of cell `k`. -/
def InCell (v : Vec) (k : Nat) (x : ℚ) : Prop := ∃ lo hi, v.bounds.At k lo hi ∧ lo ≤ x ∧ x ≤ hi

theorem Bounds.At.unique {b : Bounds} {k : Nat} {lo hi lo' hi' : ℚ} (h : b.At k lo hi)
    (h' : b.At k lo' hi') : lo = lo' ∧ hi = hi' := by
  cases b with
  | tup xs => simp only [Bounds.At] at h h'; subst h; simpa using h'
  | lst bs => simp only [Bounds.At] at h h'; rw [h] at h'; simpa using h'

theorem inCell_safe (v : Vec) : SafeValues InCell v := by
  rintro k x lo hi ⟨lo', hi', h1, h2⟩ hat
  obtain ⟨rfl, rfl⟩ := h1.unique hat
  exact h2

theorem uniform_val {v : Vec} (hinb : v.InBounds) (hint : v.kind ≠ .float → v.bounds.Integral)
    (hbit : v.kind = .bit → ∃ lo hi, v.bounds = .tup [lo, hi]) {k : Nat} (hk : k < v.vector.length) :
    Ensures (v.getRandomNumberInBounds (k : Int)) (InCell v k) := by
  obtain ⟨lo, hi, hat, hle⟩ := hinb.at hk
  exact (getRandomNumberInBounds_ensures hat hle (fun h => hint h k lo hi hat) hbit).mono
    fun x hx => ⟨lo, hi, hat, hx⟩

theorem gauss_val {v : Vec} (hkind : v.kind = .float) (mu sigma : ℚ) {k : Nat}
    (hk : k < v.vector.length) :
    Ensures (v.getRandomNumberWithGauss (k : Int) mu sigma) (fun _ => True) := by
  unfold Vec.getRandomNumberWithGauss
  rw [hkind]
  refine Ensures.bind (Ensures.ofExcept (py_get_nat _ k _ (List.getElem?_eq_getElem hk)) (Q := fun _ => True) trivial)
    fun _ _ => Ensures.bind (Rand.gauss_ensures _ _) fun _ _ => Ensures.pure trivial

theorem flip_val {v : Vec} (hinb : v.InBounds) (hkind : v.kind = .bit)
    (hbit : ∃ lo hi, v.bounds = .tup [lo, hi]) {k : Nat} (hk : k < v.vector.length) :
    Ensures (v.bitFlip (k : Int)) (InCell v k) := by
  obtain ⟨lo, hi, hat, hle⟩ := hinb.at hk
  obtain ⟨lo', hi', hb⟩ := hbit
  have hat' := hat
  rw [hb] at hat'
  simp only [Bounds.At, List.cons.injEq, and_true] at hat'
  obtain ⟨rfl, rfl⟩ := hat'
  unfold Vec.bitFlip
  rw [hkind, hb]
  refine Ensures.bind (Ensures.ofExcept (py_get_nat _ k _ (List.getElem?_eq_getElem hk)) (Q := fun _ => True) trivial)
    fun x _ => Ensures.pure ⟨_, _, hat, ?_⟩
  split
  · exact ⟨hle, le_refl _⟩
  · exact ⟨le_refl _, hle⟩

theorem cell_val {v : Vec} (hinb : v.InBounds) {k : Nat} (hk : k < v.vector.length) :
    Ensures (PyM.ofExcept (v.cellValue (k : Int)) : Rand ℚ) (InCell v k) :=
  Ensures.ofExcept (py_get_nat _ k _ (List.getElem?_eq_getElem hk))
    (hinb k _ (List.getElem?_eq_getElem hk))

theorem notTwo_of_tup {v : Vec} (h : ∃ lo hi, v.bounds = .tup [lo, hi]) : ¬ v.bounds.TwoPairs := by
  rintro ⟨p, q, hb⟩
  obtain ⟨lo, hi, h⟩ := h
  rw [h] at hb; simp at hb

end Verif.GA
