import Verif.Lemmas.VecMutation

/-! # C18–C22, C63–C66: vector creation, mutation, part replacement -/

namespace Verif.GA
open PyM

/-! ## C18 -/

theorem createVector_ensures {kind : Kind} {length : Nat} {bounds : Bounds}
    (hleg : bounds.Legal length) (hint : kind ≠ .float → bounds.Integral)
    (hbit : kind = .bit → ∃ lo hi, bounds = .tup [lo, hi]) :
    Ensures (createVector length defaultGeneCreator ⟨kind, bounds, length, []⟩) fun v =>
      v.kind = kind ∧ v.bounds = bounds ∧ v.length = length ∧ v.vector.length = length ∧
        v.InBounds := by
  unfold createVector
  refine Ensures.bind (mapL_ensures
    (R := fun (i : Nat) x => ∃ lo hi, bounds.At i lo hi ∧ lo ≤ x ∧ x ≤ hi) _ fun i hi => ?_)
    fun xs hxs => ?_
  · have hi' : i < length := by simpa using hi
    have : ∃ lo hi, bounds.At i lo hi := by
      cases bounds with
      | tup ys =>
        have := hleg.1
        match ys, this with
        | [a, b], _ => exact ⟨a, b, rfl⟩
      | lst bs =>
        have h2 : bs.length = length := hleg.1
        exact ⟨_, _, by simp only [Bounds.At]; rw [List.getElem?_eq_getElem (by omega)]⟩
    obtain ⟨lo, hi, hat⟩ := this
    exact (getRandomNumberInBounds_ensures (v := ⟨kind, bounds, length, []⟩) hat
      (hleg.2 _ _ _ hat) (fun h => hint h _ _ _ hat) hbit).mono fun x hx => ⟨lo, hi, hat, hx⟩
  · have hl : xs.length = length := by simpa using hxs.length_eq.symm
    refine Ensures.pure ⟨rfl, rfl, hl, hl, fun i x hx => ?_⟩
    simp only [Vec.setVector] at hx ⊢
    obtain ⟨hlt, rfl⟩ := List.getElem?_eq_some_iff.1 hx
    have := (List.forall₂_iff_get.1 hxs).2 i (by simp; omega) hlt
    simpa using this

/-- **C18.** With legal bounds (one pair, or one pair per cell; integers for integer vectors and bit
strings; a single pair for bit strings) the GA vector creators never raise, create exactly the
requested number of individuals, each of the configured class, bounds and length, and every cell lies
within its bounds. -/
theorem C18_created_in_bounds (kind : Kind) (length : Nat) (bounds : Bounds) (n : Nat)
    (hleg : bounds.Legal length) (hint : kind ≠ .float → bounds.Integral)
    (hbit : kind = .bit → ∃ lo hi, bounds = .tup [lo, hi]) :
    Ensures (createIndividuals kind length bounds defaultGeneCreator n) fun inds =>
      inds.length = n ∧ ∀ v ∈ inds, v.kind = kind ∧ v.bounds = bounds ∧ v.length = length ∧
        v.vector.length = length ∧ v.InBounds := by
  unfold createIndividuals
  have hacc : bounds.accepted length = true := by
    cases bounds with
    | tup xs => simpa [Bounds.accepted] using hleg.1
    | lst bs => simpa [Bounds.accepted] using hleg.1
  refine Ensures.bind (replicateM_ensures n (Ensures.ofExcept (a := ⟨kind, bounds, length, []⟩)
    (Q := (· = ⟨kind, bounds, length, []⟩)) (by simp [mkVec, hacc]) rfl)) fun vs hvs => ?_
  refine (mapL_ensures (R := fun _ v => v.kind = kind ∧ v.bounds = bounds ∧ v.length = length ∧
    v.vector.length = length ∧ v.InBounds) vs fun v hv => ?_).mono fun out hout => ?_
  · rw [hvs.2 v hv]; exact createVector_ensures hleg hint hbit
  · refine ⟨by rw [← hout.length_eq]; exact hvs.1, fun v hv => ?_⟩
    obtain ⟨i, hi, rfl⟩ := List.getElem_of_mem hv
    exact (List.forall₂_iff_get.1 hout).2 i (by rw [hout.length_eq]; exact hi) hi

/-- Per-cell bounds of three cells, as used with `C18_created_in_bounds`. -/
def Sample.cells : Bounds := .lst [(0, 1), (-5, 5), (2, 2)]

example : Sample.cells.Legal 3 ∧ Sample.cells.Integral := by
  have h : ∀ i lo hi, Sample.cells.At i lo hi →
      (lo = 0 ∧ hi = 1) ∨ (lo = -5 ∧ hi = 5) ∨ (lo = 2 ∧ hi = 2) := by
    intro i lo hi h
    simp only [Bounds.At, Sample.cells] at h
    match i, h with
    | 0, h => simp at h; exact .inl ⟨h.1.symm, h.2.symm⟩
    | 1, h => simp at h; exact .inr (.inl ⟨h.1.symm, h.2.symm⟩)
    | 2, h => simp at h; exact .inr (.inr ⟨h.1.symm, h.2.symm⟩)
    | n + 3, h => simp at h
  refine ⟨⟨rfl, fun i lo hi hat => ?_⟩, fun i lo hi hat => ?_⟩
  · rcases h i lo hi hat with ⟨rfl, rfl⟩ | ⟨rfl, rfl⟩ | ⟨rfl, rfl⟩ <;> norm_num
  · rcases h i lo hi hat with ⟨rfl, rfl⟩ | ⟨rfl, rfl⟩ | ⟨rfl, rfl⟩
    · exact ⟨⟨0, by norm_num⟩, 1, by norm_num⟩
    · exact ⟨⟨-5, by norm_num⟩, 5, by norm_num⟩
    · exact ⟨⟨2, by norm_num⟩, 2, by norm_num⟩

/-- Illegal bounds (a tuple that is not a pair, or a list of the wrong length) are rejected with
`ValueError` as soon as one individual is to be created. -/
theorem C18_illegal_bounds_rejected (kind : Kind) (length : Nat) (bounds : Bounds)
    (gene : Vec → Int → Rand ℚ) (n : Nat)
    (h : (∃ xs, bounds = .tup xs ∧ xs.length ≠ 2) ∨ (∃ bs, bounds = .lst bs ∧ bs.length ≠ length))
    (t : Tape) :
    createIndividuals kind length bounds gene (n + 1) t = (.error .valueError, t) := by
  have hacc : bounds.accepted length = false := by
    rcases h with ⟨xs, rfl, h⟩ | ⟨bs, rfl, h⟩ <;> simp [Bounds.accepted, h]
  unfold createIndividuals
  rw [bind_error]
  refine .inl ?_
  unfold replicateM
  rw [bind_error]
  refine .inl ?_
  simp [PyM.ofExcept, mkVec, hacc]

/-- **C18, constructor.** A vector object is constructed exactly with well-formed bounds and, if cells are given,
as many as the length says; it has the given class, bounds, length and cells (none if they are to be created). -/
theorem C18_constructor (kind : Kind) (bounds : Bounds) (length : Nat) (cells : Option (List ℚ)) :
    (∀ v, mkVec kind bounds length cells = .ok v ↔
      ((∀ xs, bounds = .tup xs → xs.length = 2) ∧ (∀ bs, bounds = .lst bs → bs.length = length) ∧
        (∀ l, cells = some l → l.length = length) ∧ v = ⟨kind, bounds, length, cells.getD []⟩)) ∧
    (∀ e, mkVec kind bounds length cells = .error e → e = .valueError) := by
  have hacc : bounds.accepted length = true ↔ (∀ xs, bounds = .tup xs → xs.length = 2) ∧
      ∀ bs, bounds = .lst bs → bs.length = length := by
    cases bounds <;> simp [Bounds.accepted]
  unfold mkVec
  constructor
  · intro v
    rw [← and_assoc, ← hacc]
    cases hb : bounds.accepted length
    · simp
    · cases cells with
      | none => simp [eq_comm]
      | some l =>
        by_cases hl : l.length = length
        · simp [hl, eq_comm]
        · simp [hl]
  · intro e
    cases hb : bounds.accepted length
    · simp [eq_comm]
    · cases cells with
      | none => simp
      | some l =>
        by_cases hl : l.length = length
        · simp [hl]
        · simp [hl, eq_comm]

example : mkVec .int (.tup [0, 5]) 2 (some [3, 4]) = .ok ⟨.int, .tup [0, 5], 2, [3, 4]⟩ := by simp [mkVec, Bounds.accepted]
example : mkVec .int (.tup [0, 5]) 2 (some [3]) = .error .valueError := by simp [mkVec, Bounds.accepted]

/-! ## C19 -/

theorem MutationClass.Suits.sameShape {c : MutationClass} {v w : Vec} (h : c.Suits v)
    (hs : SameShape v w) : c.Suits w where
  kind := hs.1.trans h.kind
  length := by rw [hs.2.2.1, hs.2.2.2]; exact h.length
  integral := by rw [hs.1, hs.2.1]; exact h.integral
  pair := by rw [hs.1, hs.2.1]; exact h.pair
  enough := by rw [hs.2.2.2]; exact h.enough

theorem forall_of_keeps {inds l : List Vec} (h : Keeps inds l) {P : Vec → Prop}
    (hP : ∀ v ∈ inds, ∀ w, SameShape v w → w.InBounds → P w) : ∀ w ∈ l, P w := by
  intro w hw
  obtain ⟨i, hi, rfl⟩ := List.getElem_of_mem hw
  have hi' : i < inds.length := by rw [h.length_eq]; exact hi
  have := (List.forall₂_iff_get.1 h).2 i hi' hi
  exact hP inds[i] (List.getElem_mem hi') _ this.1 this.2

theorem uniform_ready {n : Nat} {v : Vec} (hl : v.length = v.vector.length) (hinb : v.InBounds)
    (h2 : ¬ v.bounds.TwoPairs) (hk : v.kind ≠ .bit) (hint : v.kind = .int → v.bounds.Integral)
    (hn : n ≤ v.vector.length) : Ready (uniformNPoint n) InCell v where
  length := hl
  inb := hinb
  notTwo := h2
  sel := defaultCellSelector_ensures hn
  val := fun _ hk' => uniform_val hinb (fun hf => hint (by
    cases h : v.kind <;> simp_all)) (fun hb => absurd hb hk) hk'
  chk := rfl

theorem gauss_ready {n a : Nat} {p mu sigma : ℚ} {v : Vec} (hl : v.length = v.vector.length)
    (hinb : v.InBounds) (h2 : ¬ v.bounds.TwoPairs) (hk : v.kind = .float)
    (hn : n ≤ v.vector.length) : Ready (gaussNPoint n p mu sigma a) (fun _ _ _ => True) v where
  length := hl
  inb := hinb
  notTwo := h2
  sel := defaultCellSelector_ensures hn
  val := fun _ hk' => gauss_val hk mu sigma hk'
  chk := rfl

theorem intOne_ready {q : ℚ} {v : Vec} (hl : v.length = v.vector.length) (hinb : v.InBounds)
    (h2 : ¬ v.bounds.TwoPairs) (hk : v.kind = .int) (hint : v.bounds.Integral) :
    Ready (intOnePoint q) InCell v where
  length := hl
  inb := hinb
  notTwo := h2
  sel := Ensures.pure fun z hz => by
    obtain ⟨k, hk, rfl⟩ := List.mem_map.1 hz
    exact ⟨k, rfl, by simpa [Vec.size] using hk⟩
  val := fun _ hk' => Ensures.bind Rand.random_ensures fun _ _ => Ensures.ite
    (fun _ => uniform_val hinb (fun _ => hint) (fun hb => by rw [hk] at hb; simp at hb) hk')
    fun _ => cell_val hinb hk'
  chk := rfl

theorem bitFlip_ready {v : Vec} (hl : v.length = v.vector.length) (hinb : v.InBounds)
    (hk : v.kind = .bit) (hb : ∃ lo hi, v.bounds = .tup [lo, hi]) (hn : 1 ≤ v.vector.length) :
    Ready bitFlipOne InCell v where
  length := hl
  inb := hinb
  notTwo := notTwo_of_tup hb
  sel := defaultCellSelector_ensures hn
  val := fun _ hk' => flip_val hinb hk hb hk'
  chk := rfl

theorem bitNFlip_ready {n : Nat} {q : ℚ} {v : Vec} (hl : v.length = v.vector.length)
    (hinb : v.InBounds) (hk : v.kind = .bit) (hb : ∃ lo hi, v.bounds = .tup [lo, hi])
    (hn : n ≤ v.vector.length) : Ready (bitNFlip n q) InCell v where
  length := hl
  inb := hinb
  notTwo := notTwo_of_tup hb
  sel := defaultCellSelector_ensures hn
  val := fun _ hk' => Ensures.bind Rand.random_ensures fun _ _ => Ensures.ite
    (fun _ => flip_val hinb hk hb hk') fun _ => cell_val hinb hk'
  chk := rfl

theorem gauss_keeps {n a : Nat} {p mu sigma : ℚ} {inds : List Vec}
    (h : ∀ v ∈ inds, v.length = v.vector.length ∧ v.InBounds ∧ ¬ v.bounds.TwoPairs ∧
      v.kind = .float ∧ n ≤ v.vector.length) :
    Ensures (npApply (gaussNPoint n p mu sigma a) inds) fun r => ∃ out, r = some out ∧
      Keeps inds out := by
  have hall : ∀ l, Keeps inds l → ∀ w ∈ l, w.length = w.vector.length ∧ w.InBounds ∧
      ¬ w.bounds.TwoPairs ∧ w.kind = .float ∧ n ≤ w.vector.length := fun l hl =>
    forall_of_keeps hl fun v hv w hs hw => by
      obtain ⟨h1, h2, h3, h4, h5⟩ := h v hv
      exact ⟨by rw [hs.2.2.1, hs.2.2.2]; exact h1, hw, by rw [hs.2.1]; exact h3, hs.1.trans h4,
        by rw [hs.2.2.2]; exact h5⟩
  refine npApply_ensures (V := fun _ _ _ => True) (fun v hv => (h v hv).2.1) ?_ ?_
  · intro l hl w hw
    obtain ⟨h1, h2, h3, h4, h5⟩ := hall l hl w hw
    exact gauss_ready h1 h2 h3 h4 h5
  · intro l hl
    have hrefl : Keeps l l := Keeps.refl fun w hw => (hall l hl w hw).2.1
    refine Ensures.bind (Q := fun out => Keeps l out) (applyOperator_ensures hrefl
      (npApply_safe (m := uniformNPoint n) (V := InCell) ?_ (fun w _ => inCell_safe w) (by simp [uniformNPoint])).1)
      fun out hout => Ensures.pure ⟨out, rfl, hl.trans hout⟩
    intro w hw
    obtain ⟨h1, h2, h3, h4, h5⟩ := hall l hl w hw
    exact uniform_ready h1 h2 h3 (by rw [h4]; simp) (fun hi => by rw [h4] at hi; simp at hi) h5

theorem gauss_tries {n a : Nat} {p mu sigma : ℚ} {inds : List Vec}
    (h : ∀ v ∈ inds, v.length = v.vector.length ∧ v.InBounds ∧ ¬ v.bounds.TwoPairs ∧
      v.kind = .float ∧ n ≤ v.vector.length) :
    Ensures (npTry (gaussNPoint n p mu sigma a) inds) fun r => Keeps inds r.2 := by
  have hall : ∀ l, Keeps inds l → ∀ w ∈ l, w.length = w.vector.length ∧ w.InBounds ∧
      ¬ w.bounds.TwoPairs ∧ w.kind = .float ∧ n ≤ w.vector.length := fun l hl =>
    forall_of_keeps hl fun v hv w hs hw => by
      obtain ⟨h1, h2, h3, h4, h5⟩ := h v hv
      exact ⟨by rw [hs.2.2.1, hs.2.2.2]; exact h1, hw, by rw [hs.2.1]; exact h3, hs.1.trans h4,
        by rw [hs.2.2.2]; exact h5⟩
  refine npTry_ensures (V := fun _ _ _ => True) (fun v hv => (h v hv).2.1) ?_
  intro l hl w hw
  obtain ⟨h1, h2, h3, h4, h5⟩ := hall l hl w hw
  exact gauss_ready h1 h2 h3 h4 h5

/-- The new values of every mutation class but the Gaussian ones are always legal: the first attempt
succeeds. -/
def MutationClass.NeverFails : MutationClass → Bool
  | .floatGaussOne .. | .floatGaussN .. => false
  | _ => true

/-- The operator object behind a mutation class. -/
def MutationClass.op (c : MutationClass) (p : ℚ) : NPoint :=
  match c with
  | .floatUniformOne => uniformNPoint 1
  | .floatUniformN n => uniformNPoint n
  | .floatGaussOne mu sigma a => gaussNPoint 1 p mu sigma a
  | .floatGaussN n mu sigma a => gaussNPoint n p mu sigma a
  | .intOne q => intOnePoint q
  | .intN n => uniformNPoint n
  | .bitFlip => bitFlipOne
  | .bitNFlip n q => _root_.Verif.GA.bitNFlip n q

theorem MutationClass.run_eq (c : MutationClass) (p : ℚ) (inds : List Vec) :
    c.run p inds = applyOperator p (npApply (c.op p)) inds := by cases c <;> rfl

theorem MutationClass.op_attempts (c : MutationClass) (p : ℚ) (hc : c.NeverFails = true) :
    0 < (c.op p).attempts := by
  cases c <;> first
    | exact Nat.succ_pos _
    | exact absurd hc (by simp [MutationClass.NeverFails])

theorem MutationClass.ready {c : MutationClass} (p : ℚ) (hc : c.NeverFails = true) {v : Vec}
    (hs : c.Suits v) (hinb : v.InBounds) (h2 : ¬ v.bounds.TwoPairs) : Ready (c.op p) InCell v := by
  have hk := hs.kind
  cases c with
  | floatUniformOne =>
    exact uniform_ready hs.length hinb h2 (by rw [hk]; simp [MutationClass.kind]) hs.integral
      (hs.enough 1 rfl)
  | floatUniformN n =>
    exact uniform_ready hs.length hinb h2 (by rw [hk]; simp [MutationClass.kind]) hs.integral
      (hs.enough n rfl)
  | floatGaussOne => simp [MutationClass.NeverFails] at hc
  | floatGaussN => simp [MutationClass.NeverFails] at hc
  | intOne q => exact intOne_ready hs.length hinb h2 hk (hs.integral hk)
  | intN n =>
    exact uniform_ready hs.length hinb h2 (by rw [hk]; simp [MutationClass.kind]) hs.integral
      (hs.enough n rfl)
  | bitFlip => exact bitFlip_ready hs.length hinb hk (hs.pair hk) (hs.enough 1 rfl)
  | bitNFlip n q => exact bitNFlip_ready hs.length hinb hk (hs.pair hk) (hs.enough n rfl)

theorem MutationClass.op_keeps (c : MutationClass) (p : ℚ) {inds : List Vec}
    (h : ∀ v ∈ inds, c.Suits v ∧ v.InBounds ∧ ¬ v.bounds.TwoPairs) :
    Ensures (npApply (c.op p) inds) fun r => ∃ out, r = some out ∧ Keeps inds out := by
  cases hc : c.NeverFails with
  | true =>
    exact (npApply_safe (V := InCell)
      (fun v hv => c.ready p hc (h v hv).1 (h v hv).2.1 (h v hv).2.2) (fun v _ => inCell_safe v)
      (c.op_attempts p hc)).1
  | false =>
    cases c with
    | floatGaussOne mu sigma a =>
      exact gauss_keeps fun v hv =>
        ⟨(h v hv).1.length, (h v hv).2.1, (h v hv).2.2, (h v hv).1.kind, (h v hv).1.enough 1 rfl⟩
    | floatGaussN n mu sigma a =>
      exact gauss_keeps fun v hv =>
        ⟨(h v hv).1.length, (h v hv).2.1, (h v hv).2.2, (h v hv).1.kind, (h v hv).1.enough n rfl⟩
    | _ => simp [MutationClass.NeverFails] at hc

/-- **C19.** Applying any mutation class of the library to in-bounds individuals it is meant for (any
number of them, per-cell bounds of exactly two cells excepted, see C63) never raises and returns
individuals of the same class, bounds and length that are all in bounds — for every operator
probability, every attempt limit and whatever is drawn, including Gaussian noise of any size. -/
theorem C19_mutations_keep_bounds (c : MutationClass) (p : ℚ) (inds : List Vec)
    (h : ∀ v ∈ inds, c.Suits v ∧ v.InBounds ∧ ¬ v.bounds.TwoPairs) :
    Ensures (c.run p inds) fun out =>
      List.Forall₂ (fun v w => SameShape v w ∧ w.InBounds) inds out := by
  rw [c.run_eq]
  exact applyOperator_ensures (Keeps.refl fun v hv => (h v hv).2.1) (c.op_keeps p h)

/-- Two individuals to which `C19_mutations_keep_bounds` applies. -/
def Sample.f1 : Vec := ⟨.float, .tup [0, 1], 3, [1/2, 0, 1]⟩
def Sample.f2 : Vec := ⟨.float, .lst [(0, 1), (-2, -1), (5, 7)], 3, [1, -3/2, 5]⟩

example : ∀ v ∈ [Sample.f1, Sample.f2], (MutationClass.floatGaussN 2 0 1 5).Suits v ∧ v.InBounds ∧
    ¬ v.bounds.TwoPairs := by
  intro v hv
  simp only [List.mem_cons, List.not_mem_nil, or_false] at hv
  rcases hv with rfl | rfl
  · refine ⟨⟨rfl, rfl, by simp [Sample.f1], by simp [Sample.f1], ?_⟩, ?_, by
      rintro ⟨p, q, h⟩; simp [Sample.f1] at h⟩
    · intro n hn; simp [MutationClass.points] at hn; subst hn; decide
    · intro i x hx
      have : x ∈ [(1/2 : ℚ), 0, 1] := List.mem_of_getElem? hx
      refine ⟨0, 1, rfl, ?_⟩
      simp at this
      rcases this with rfl | rfl | rfl <;> norm_num
  · refine ⟨⟨rfl, rfl, by simp [Sample.f2], by simp [Sample.f2], ?_⟩, ?_, by
      rintro ⟨p, q, h⟩; simp [Sample.f2] at h⟩
    · intro n hn; simp [MutationClass.points] at hn; subst hn; decide
    · intro i x hx
      simp only [Sample.f2] at hx ⊢
      match i, hx with
      | 0, hx => simp at hx; subst hx; exact ⟨0, 1, rfl, by norm_num, by norm_num⟩
      | 1, hx => simp at hx; subst hx; exact ⟨-2, -1, rfl, by norm_num, by norm_num⟩
      | 2, hx => simp at hx; subst hx; exact ⟨5, 7, rfl, by norm_num, by norm_num⟩
      | n + 3, hx => simp at hx

/-! ## C63 -/

/-- The statement of C63: per-cell bounds are usable with every vector class, whatever the length —
creation succeeds and mutation of an in-bounds vector succeeds. -/
def C63_statement : Prop :=
  ∀ (kind : Kind) (bs : List (ℚ × ℚ)), 0 < bs.length → Bounds.Legal (.lst bs) bs.length →
    Bounds.Integral (.lst bs) →
    (∀ n, Total (createIndividuals kind bs.length (.lst bs) defaultGeneCreator n)) ∧
    ∀ v : Vec, v.kind = kind → v.bounds = .lst bs → v.length = bs.length →
      v.vector.length = bs.length → v.InBounds → kind = .float →
      Total (MutationClass.floatUniformOne.run 1 [v])

/-- The bounds check, hence every mutation attempt, raises `TypeError` on two-cell vectors with
per-cell bounds. -/
theorem C63_two_cells_raise_partial (m : NPoint) (v : Vec) (hchk : m.checker = defaultSuccessChecker)
    (h2 : v.bounds.TwoPairs) (hv : v.vector.length = 2) (t t' : Tape) (r : Bool × Vec) :
    mutateOne m v t ≠ (.ok r, t') := by
  intro hrun
  refine (?_ : Post (mutateOne m v) fun _ => False) t r t' hrun
  unfold mutateOne
  refine Post.bind Post.trivial fun pts _ => Post.bind Post.trivial fun vals _ => ?_
  refine Post.bind (Post.ofExcept (Q := fun v' => setCells v (pts.zip vals) = .ok v')
    fun a h => h) fun v' hv' => ?_
  obtain ⟨h1, h2', h3, h4, -⟩ := setCells_spec _ _ _ hv'
  rw [hchk]
  refine Post.bind (Q := fun _ => False) ?_ fun _ hf => hf.elim
  refine Post.ofExcept fun a ha => ?_
  rw [checkIfInBounds_twoPairs (h2' ▸ h2) (by
    intro h; rw [h] at h4; simp at h4; omega)] at ha
  simp at ha

/-- **C63 is false**: mutating an in-bounds two-cell vector with per-cell bounds raises. -/
theorem C63_refuted : ¬ C63_statement := by
  intro h
  let v : Vec := ⟨.float, .lst [(0, 1), (0, 1)], 2, [0, 0]⟩
  have hAt : ∀ i lo hi, Bounds.At (.lst [(0, 1), (0, 1)]) i lo hi → lo = 0 ∧ hi = 1 := by
    intro i lo hi h
    simp only [Bounds.At] at h
    match i, h with
    | 0, h => simp at h; exact ⟨h.1.symm, h.2.symm⟩
    | 1, h => simp at h; exact ⟨h.1.symm, h.2.symm⟩
    | n + 2, h => simp at h
  have hinb : v.InBounds := by
    intro i x hx
    match i, hx with
    | 0, hx => simp [v] at hx; subst hx; exact ⟨0, 1, rfl, by norm_num, by norm_num⟩
    | 1, hx => simp [v] at hx; subst hx; exact ⟨0, 1, rfl, by norm_num, by norm_num⟩
    | n + 2, hx => simp [v] at hx
  obtain ⟨-, h2⟩ := h .float [(0, 1), (0, 1)] (by decide)
    ⟨rfl, fun i lo hi hat => by obtain ⟨rfl, rfl⟩ := hAt i lo hi hat; norm_num⟩
    (fun i lo hi hat => by
      obtain ⟨rfl, rfl⟩ := hAt i lo hi hat
      exact ⟨⟨0, by norm_num⟩, 1, by norm_num⟩)
  obtain ⟨out, t', hrun⟩ := h2 v rfl rfl rfl rfl hinb rfl (fun _ => 0)
  have : (MutationClass.floatUniformOne.run 1 [v] (fun _ => 0)).1 = .error .typeError := by
    decide +kernel
  rw [hrun] at this
  simp at this

/-- Bit strings do not support per-cell bounds at all: creating one raises `TypeError`. -/
theorem C63_bit_strings_partial (p q : ℚ × ℚ) (bs : List (ℚ × ℚ)) (n : Nat) (t : Tape) :
    (createIndividuals .bit (bs.length + 2) (.lst (p :: q :: bs)) defaultGeneCreator (n + 1) t).1 =
      .error .typeError := by
  have hmk : mkVec .bit (.lst (p :: q :: bs)) (bs.length + 2) none =
      .ok ⟨.bit, .lst (p :: q :: bs), bs.length + 2, []⟩ := by simp [mkVec, Bounds.accepted]
  have hrep : ∀ n (t : Tape), replicateM n (PyM.ofExcept (mkVec .bit (.lst (p :: q :: bs)) (bs.length + 2) none)) t
      = (.ok (List.replicate n ⟨.bit, .lst (p :: q :: bs), bs.length + 2, []⟩), t) := by
    intro n
    induction n with
    | zero => intro t; rfl
    | succ n ih =>
      intro t
      unfold replicateM
      rw [bind_ok]
      refine ⟨_, t, by rw [PyM.ofExcept, hmk], ?_⟩
      rw [bind_ok]
      exact ⟨_, t, ih t, rfl⟩
  have : createIndividuals .bit (bs.length + 2) (.lst (p :: q :: bs)) defaultGeneCreator (n + 1) t =
      (.error .typeError, t) := by
    unfold createIndividuals
    rw [bind_error]
    refine .inr ⟨_, t, hrep _ t, ?_⟩
    rw [List.replicate_succ, mapL, bind_error]
    refine .inl ?_
    unfold createVector
    rw [bind_error]
    refine .inl ?_
    rw [List.range_succ_eq_map, mapL, bind_error]
    exact .inl rfl
  rw [this]

/-! ## C20 -/

theorem npApply_single_post {m : NPoint} {n : Nat} {v : Vec}
    (hsel : ∀ w, Post (m.cellSelector w) fun pts => pts.length ≤ n)
    (hfail : ∀ w, w.vector = v.vector → Post (m.onFail [w]) fun r =>
      ∀ out, r = some out → ∃ v', out = [v'] ∧ (diffs v.vector v'.vector).length ≤ n) :
    Post (npApply m [v]) fun r =>
      ∀ out, r = some out → ∃ v', out = [v'] ∧ (diffs v.vector v'.vector).length ≤ n := by
  unfold npApply failableApply
  suffices ∀ k i w, w.vector = v.vector → Post (failableLoop (α := Option (List Vec))
      (fun p _ => match p with
        | none => raise .typeError
        | some l => do
          let (s, l') ← attemptOperator m l
          pure (s, some l'))
      (fun p => match p with
        | none => raise .typeError
        | some l => m.onFail l) k i (some [w])) fun r =>
      ∀ out, r = some out → ∃ v', out = [v'] ∧ (diffs v.vector v'.vector).length ≤ n from
    this _ _ _ rfl
  intro k
  induction k with
  | zero => intro i w hw; exact hfail w hw
  | succ k ih =>
    intro i w hw
    refine Post.bind (Q := fun r => ∃ w', r.2 = some [w'] ∧
      (diffs v.vector w'.vector).length ≤ n ∧ (r.1 = false → w'.vector = v.vector)) ?_ fun r hr => ?_
    · refine Post.bind (Q := fun r => ∃ w', r.2 = [w'] ∧
        (diffs v.vector w'.vector).length ≤ n ∧ (r.1 = false → w'.vector = v.vector)) ?_ fun r hr => ?_
      · unfold attemptOperator
        refine Post.bind ((mutateOne_diffs (hsel w)).and (mutateOne_post m w)) fun r hr => ?_
        obtain ⟨ok, w'⟩ := r
        rw [hw] at hr
        refine Post.ite (fun hok => ?_) fun hok => ?_
        · exact Post.bind (Q := fun r => r = (true, [])) (Post.pure rfl) fun r hr' => by
            subst hr'; exact Post.pure ⟨w', rfl, hr.1, by simp⟩
        · refine Post.pure ⟨w', rfl, hr.1, fun _ => ?_⟩
          have := hr.2.2.2.2.2 (by simpa using hok)
          simp only at this
          rw [this]; rfl
      · obtain ⟨s, l⟩ := r
        obtain ⟨w', rfl, h1, h2⟩ := hr
        exact Post.pure ⟨w', rfl, h1, h2⟩
    · obtain ⟨s, l⟩ := r
      obtain ⟨w', rfl, h1, h2⟩ := hr
      refine Post.ite (fun _ => Post.pure ?_) fun hs => ih (i + 1) w' (h2 (by simpa using hs))
      intro out hout
      simp at hout
      exact ⟨w', hout.symm, h1⟩

theorem diffs_self (xs : List ℚ) : diffs xs xs = [] := by simp [diffs]

theorem uniform_single (n : Nat) (v w : Vec) (hw : w.vector = v.vector) :
    Post (npApply (uniformNPoint n) [w]) fun r =>
      ∀ out, r = some out → ∃ v', out = [v'] ∧ (diffs v.vector v'.vector).length ≤ n := by
  rw [← hw]
  exact npApply_single_post (fun u => defaultCellSelector_post n u)
    (fun u _ => Post.pure (by simp))

/-- **C20, one individual.** However attempts fail, an n-point mutation (uniform, Gaussian, integer,
bit flips) applied to one individual changes at most `n` of its cells. -/
theorem C20_at_most_n_cells (c : MutationClass) (n : Nat) (hn : c.points = some n) (p : ℚ) (v : Vec) :
    Post (c.run p [v]) fun out => ∃ v', out = [v'] ∧ (diffs v.vector v'.vector).length ≤ n := by
  have hid : ∃ v', [v] = [v'] ∧ (diffs v.vector v'.vector).length ≤ n :=
    ⟨v, rfl, by rw [diffs_self]; simp⟩
  have hgauss : ∀ mu sigma a, Post (npApply (gaussNPoint n p mu sigma a) [v]) fun r =>
      ∀ out, r = some out → ∃ v', out = [v'] ∧ (diffs v.vector v'.vector).length ≤ n := by
    intro mu sigma a
    refine npApply_single_post (fun u => defaultCellSelector_post n u) fun w hw => ?_
    refine Post.bind (Q := fun out => ∃ v', out = [v'] ∧ (diffs v.vector v'.vector).length ≤ n)
      (applyOperator_post ⟨w, rfl, by rw [hw, diffs_self]; simp⟩ (uniform_single n v w hw))
      fun out hout => Post.pure ?_
    intro out' h'; simp at h'; subst h'; exact hout
  rw [c.run_eq]
  refine applyOperator_post hid ?_
  cases c with
  | floatUniformOne => obtain rfl : 1 = n := by simpa [MutationClass.points] using hn
                       exact uniform_single 1 v v rfl
  | floatUniformN k => obtain rfl : k = n := by simpa [MutationClass.points] using hn
                       exact uniform_single k v v rfl
  | floatGaussOne mu sigma a => obtain rfl : 1 = n := by simpa [MutationClass.points] using hn
                                exact hgauss mu sigma a
  | floatGaussN k mu sigma a => obtain rfl : k = n := by simpa [MutationClass.points] using hn
                                exact hgauss mu sigma a
  | intOne q => simp [MutationClass.points] at hn
  | intN k => obtain rfl : k = n := by simpa [MutationClass.points] using hn
              exact uniform_single k v v rfl
  | bitFlip => obtain rfl : 1 = n := by simpa [MutationClass.points] using hn
               exact npApply_single_post (fun u => defaultCellSelector_post 1 u)
                 (fun u _ => Post.pure (by simp))
  | bitNFlip k q => obtain rfl : k = n := by simpa [MutationClass.points] using hn
                    exact npApply_single_post (fun u => defaultCellSelector_post k u)
                      (fun u _ => Post.pure (by simp))

theorem attemptOperator_diffs {m : NPoint} {n : Nat}
    (hsel : ∀ w, Post (m.cellSelector w) fun pts => pts.length ≤ n) : ∀ inds : List Vec,
    Post (attemptOperator m inds) fun r =>
      List.Forall₂ (fun v w => (diffs v.vector w.vector).length ≤ n) inds r.2 := by
  intro inds
  induction inds with
  | nil => exact Post.pure .nil
  | cons v rest ih =>
    unfold attemptOperator
    refine Post.bind (mutateOne_diffs (hsel v)) fun r hr => ?_
    obtain ⟨ok, v'⟩ := r
    refine Post.ite (fun _ => ?_) fun _ => ?_
    · exact Post.bind ih fun r' hr' => Post.pure (.cons hr hr')
    · refine Post.pure (.cons hr ?_)
      rw [List.forall₂_same]; intro w _; rw [diffs_self]; simp

/-- **C20, several individuals.** For every mutation class but the Gaussian ones, also when several
in-bounds individuals are mutated at once each of them has at most `n` cells changed. -/
theorem C20_at_most_n_cells_each (c : MutationClass) (hc : c.NeverFails = true) (n : Nat)
    (hn : c.points = some n) (p : ℚ) (inds : List Vec)
    (h : ∀ v ∈ inds, c.Suits v ∧ v.InBounds ∧ ¬ v.bounds.TwoPairs) :
    Post (c.run p inds) fun out =>
      List.Forall₂ (fun v w => (diffs v.vector w.vector).length ≤ n) inds out := by
  rw [c.run_eq]
  refine applyOperator_post ?_ ?_
  · rw [List.forall₂_same]; intro w _; rw [diffs_self]; simp
  · have hsel : ∀ w, Post ((c.op p).cellSelector w) fun pts => pts.length ≤ n := by
      intro w
      cases c <;> simp only [MutationClass.points, Option.some.injEq, reduceCtorEq] at hn <;>
        subst hn <;> exact defaultCellSelector_post _ _
    refine Post.mono ((npApply_safe (V := InCell)
      (fun v hv => c.ready p hc (h v hv).1 (h v hv).2.1 (h v hv).2.2) (fun v _ => inCell_safe v)
      (c.op_attempts p hc)).2 _
        (attemptOperator_diffs hsel inds)) ?_
    rintro r ⟨out, rfl, ho⟩ out' h'
    simp at h'; subst h'; exact ho

theorem bitFlip_one {v : Vec} {lo hi : ℚ} (hk : v.kind = .bit) (hb : v.bounds = .tup [lo, hi])
    (hne : lo ≠ hi) : Post (mutateOne bitFlipOne v) fun r => r.1 = true →
      ∃ i x, diffs v.vector r.2.vector = [i] ∧ v.vector[i]? = some x ∧
        r.2.vector[i]? = some (if x = lo then hi else lo) := by
  unfold mutateOne
  refine Post.bind (Q := fun pts => ∃ k : Nat, pts = [(k : Int)] ∧ k < v.vector.length) ?_
    fun pts hpts => ?_
  · unfold bitFlipOne defaultCellSelector
    refine Post.bind (Rand.sample_post 1 _) fun s hs => Post.pure ?_
    match s, hs.2 with
    | [k], _ => exact ⟨k, rfl, by simpa [Vec.size] using hs.1.subset (by simp : k ∈ [k])⟩
  obtain ⟨k, rfl, hlt⟩ := hpts
  have hget : Py.get v.vector (k : Int) = .ok v.vector[k] :=
    py_get_nat _ k _ (List.getElem?_eq_getElem hlt)
  refine Post.bind (Q := fun vals => vals = [if v.vector[k] = lo then hi else lo]) ?_ fun vals hvals => ?_
  · simp only [mapL, bitFlipOne, Vec.bitFlip, hk, hb]
    refine Post.bind (Q := fun y => y = if v.vector[k] = lo then hi else lo) ?_ fun y hy => ?_
    · refine Post.bind (Q := (· = v.vector[k])) (Post.ofExcept fun a ha => ?_) fun y hy => ?_
      · rw [Vec.cellValue, hget] at ha; simpa using ha.symm
      · subst hy; exact Post.pure rfl
    · subst hy
      exact Post.bind (Q := (· = [])) (Post.pure rfl) fun _ h => by subst h; exact Post.pure rfl
  subst hvals
  have hidx : Py.index? v.vector.length (k : Int) = some k := by
    unfold Py.index?; rw [if_pos (by omega)]; simp [hlt]
  refine Post.bind (Post.ofExcept (Q := fun v' => v'.vector =
    v.vector.set k (if v.vector[k] = lo then hi else lo)) fun a h => ?_) fun v' hv' => ?_
  · simp only [List.zip_cons_cons, List.zip_nil_right, setCells, Vec.setCellValue, hidx] at h
    simp at h; rw [← h]
  refine Post.bind Post.trivial fun ok _ => Post.ite (fun _ => Post.pure fun _ => ?_)
    fun _ => Post.pure (by simp)
  refine ⟨k, v.vector[k], ?_, List.getElem?_eq_getElem hlt, ?_⟩
  · simp only [diffs, hv', List.length_set, max_self]
    have hflip : v.vector[k] ≠ (if v.vector[k] = lo then hi else lo) := by
      split
      · rename_i h; rw [h]; exact hne
      · assumption
    have hfilter : (List.range v.vector.length).filter (fun i => decide (v.vector[i]? ≠
        (v.vector.set k (if v.vector[k] = lo then hi else lo))[i]?)) =
        (List.range v.vector.length).filter (fun i => i == k) := by
      refine List.filter_congr fun i hi => ?_
      have hi' : i < v.vector.length := by simpa using hi
      by_cases hik : k = i
      · subst hik
        rw [List.getElem?_set_self hlt, List.getElem?_eq_getElem hlt]
        simpa using hflip
      · rw [List.getElem?_set_ne hik]
        simp; omega
    rw [hfilter]
    have := List.nodup_range (n := v.vector.length)
    rw [List.filter_beq, List.count_eq_one_of_mem this (by simpa using hlt)]
    rfl
  · rw [hv', List.getElem?_set_self hlt]

/-- **C20, single bit flip.** Whenever the single-bit-flip mutation is applied, every in-bounds bit
string it is given has exactly one cell changed, and that cell now holds the other bound. -/
theorem C20_bit_flip_exactly_one (inds : List Vec)
    (h : ∀ v ∈ inds, MutationClass.bitFlip.Suits v ∧ v.InBounds ∧
      ∃ lo hi, v.bounds = .tup [lo, hi] ∧ lo ≠ hi) :
    Ensures (npApply bitFlipOne inds) fun r => ∃ out, r = some out ∧
      List.Forall₂ (fun v w => ∃ i x lo hi, v.bounds = .tup [lo, hi] ∧
        diffs v.vector w.vector = [i] ∧ v.vector[i]? = some x ∧
        w.vector[i]? = some (if x = lo then hi else lo)) inds out := by
  have hready : ∀ v ∈ inds, Ready bitFlipOne InCell v := fun v hv => by
    obtain ⟨hs, hinb, lo, hi, hb, -⟩ := h v hv
    exact bitFlip_ready hs.length hinb hs.kind ⟨lo, hi, hb⟩ (hs.enough 1 rfl)
  have hsafe := npApply_safe (V := InCell) hready (fun v _ => inCell_safe v) (by decide)
  have hatt : ∀ l : List Vec, (∀ v ∈ l, v ∈ inds) → Ensures (attemptOperator bitFlipOne l) fun r =>
      List.Forall₂ (fun v w => ∃ i x lo hi, v.bounds = .tup [lo, hi] ∧
        diffs v.vector w.vector = [i] ∧ v.vector[i]? = some x ∧
        w.vector[i]? = some (if x = lo then hi else lo)) l r.2 := by
    intro l
    induction l with
    | nil => intro _; exact Ensures.pure .nil
    | cons v rest ih =>
      intro hl
      have hv := hl v (by simp)
      obtain ⟨hs, hinb, lo, hi, hb, hne⟩ := h v hv
      unfold attemptOperator
      refine Ensures.bind ((mutateOne_ensures (hready v hv)).and (bitFlip_one hs.kind hb hne))
        fun r hr => ?_
      obtain ⟨ok, v'⟩ := r
      have hok : ok = true := hr.1.2.2 (inCell_safe v)
      subst hok
      refine Ensures.ite (fun _ => ?_) fun hc => absurd rfl hc
      refine Ensures.bind (ih fun w hw => hl w (by simp [hw])) fun r' hr' => ?_
      obtain ⟨i, x, h1, h2, h3⟩ := hr.2 rfl
      exact Ensures.pure (.cons ⟨i, x, lo, hi, hb, h1, h2, h3⟩ hr')
  exact Ensures.of hsafe.1.total (hsafe.2 _ (hatt inds fun v hv => hv).post)

/-- The full statement of C20: for every class and any number of individuals at once. -/
def C20_statement : Prop :=
  ∀ (c : MutationClass) (n : Nat), c.points = some n → ∀ (p : ℚ) (inds : List Vec),
    (∀ v ∈ inds, c.Suits v ∧ v.InBounds ∧ ¬ v.bounds.TwoPairs) →
    Post (c.run p inds) fun out =>
      List.Forall₂ (fun v w => (diffs v.vector w.vector).length ≤ n) inds out

/-- **C20 is false for Gaussian mutation of two individuals at once**: when the second individual's
value is rejected the whole attempt is repeated, and the first individual is mutated a second time, in
another cell. -/
theorem C20_refuted : ¬ C20_statement := by
  intro h
  let v : Vec := ⟨.float, .tup [0, 1], 2, [0, 0]⟩
  let t : Tape := fun n => [0, 0, 0, 0, 1, 1, 0, 0, 5, 0, 1, 0, 1, 1, 0, 0, 1, 1].getD n 0
  have hrun : ((MutationClass.floatGaussOne 0 1 5).run 1 [v, v] t).1 =
      .ok [{ v with vector := [1/2, 1/2] }, { v with vector := [1/2, 0] }] := by decide +kernel
  have hs : ∀ u ∈ [v, v], (MutationClass.floatGaussOne 0 1 5).Suits u ∧ u.InBounds ∧
      ¬ u.bounds.TwoPairs := by
    intro u hu
    simp only [List.mem_cons, List.not_mem_nil, or_false, or_self] at hu
    subst hu
    refine ⟨⟨rfl, rfl, by simp [v], by simp [v], ?_⟩, ?_, by rintro ⟨p, q, h⟩; simp [v] at h⟩
    · intro n hn; simp [MutationClass.points] at hn; subst hn; decide
    · intro i x hx
      have : x ∈ [(0 : ℚ), 0] := List.mem_of_getElem? hx
      simp at this; subst this
      exact ⟨0, 1, rfl, by norm_num, by norm_num⟩
  have := h (.floatGaussOne 0 1 5) 1 rfl 1 [v, v] hs t _ _ (Prod.ext hrun rfl)
  have h1 : (diffs v.vector [1/2, 1/2]).length = 2 := by decide +kernel
  cases this with
  | cons hd _ => simp only at hd; rw [h1] at hd; omega

/-! ## C64 -/

/-- The statement of C64: the integer "one point" mutation changes at most one cell. -/
def C64_statement : Prop :=
  ∀ (q p : ℚ) (v : Vec), (MutationClass.intOne q).Suits v → v.InBounds → ¬ v.bounds.TwoPairs →
    Post ((MutationClass.intOne q).run p [v]) fun out =>
      ∃ v', out = [v'] ∧ (diffs v.vector v'.vector).length ≤ 1

/-- **C64 is false**: `IntVectorOnePointMutation` visits every cell. -/
theorem C64_refuted : ¬ C64_statement := by
  intro h
  let v : Vec := ⟨.int, .tup [0, 1], 3, [0, 0, 0]⟩
  let t : Tape := fun n => [0, 0, 0, 0, 1, 0, 0, 1, 0, 0, 1].getD n 0
  have hrun : ((MutationClass.intOne (1/10)).run 1 [v] t).1 =
      .ok [{ v with vector := [1, 1, 1] }] := by decide +kernel
  have := h (1/10) 1 v ⟨rfl, rfl, fun _ => ?_, by simp [v], by
    intro n hn; simp [MutationClass.points] at hn⟩ ?_ (by rintro ⟨p, q, h⟩; simp [v] at h) t _ _
    (Prod.ext hrun rfl)
  · obtain ⟨v', hv', hd⟩ := this
    simp only [List.cons.injEq, and_true] at hv'
    subst hv'
    have h1 : (diffs v.vector [1, 1, 1]).length = 3 := by decide +kernel
    simp only at hd; rw [h1] at hd; omega
  · intro i lo hi hat
    simp only [Bounds.At, v, List.cons.injEq, and_true] at hat
    obtain ⟨rfl, rfl⟩ := hat
    exact ⟨⟨0, by norm_num⟩, 1, by norm_num⟩
  · intro i x hx
    have : x ∈ [(0 : ℚ), 0, 0] := List.mem_of_getElem? hx
    simp at this; subst this
    exact ⟨0, 1, rfl, by norm_num, by norm_num⟩

/-! ## C21 -/

/-- **C21.** For arbitrary cell selectors, value getters and success checkers: if an attempt is
rejected, the rejected individual has exactly the vector (class, bounds) it had before the attempt and
all individuals after it are untouched; those before it are of the same shape. -/
theorem C21_rejected_rolled_back (m : NPoint) (inds : List Vec) :
    Post (attemptOperator m inds) fun r => r.1 = false →
      ∃ pre v post pre' v', inds = pre ++ v :: post ∧ r.2 = pre' ++ v' :: post ∧
        pre'.length = pre.length ∧ v'.vector = v.vector ∧ v'.kind = v.kind ∧ v'.bounds = v.bounds ∧
        v'.length = v.vector.length := by
  refine (attemptOperator_post m inds).mono fun r hr hf => ?_
  rcases hr with ⟨h, -⟩ | ⟨-, pre, v, post, pre', h1, h2, h3⟩
  · rw [h] at hf; simp at hf
  · exact ⟨pre, v, post, pre', _, h1, h3, h2, rfl, rfl, rfl, rfl⟩

/-- **C21, one individual.** A rejected attempt on one individual leaves it exactly as it was. -/
theorem C21_single_unchanged (m : NPoint) (v : Vec) (hv : v.length = v.vector.length) :
    Post (attemptOperator m [v]) fun r => r.1 = false → r.2 = [v] := by
  refine (attemptOperator_post m [v]).mono fun r hr hf => ?_
  rcases hr with ⟨h, -⟩ | ⟨-, pre, w, post, pre', h1, h2, h3⟩
  · rw [h] at hf; simp at hf
  · match pre, pre', h1, h2 with
    | [], [], h1, _ =>
      simp at h1
      obtain ⟨rfl, rfl⟩ := h1
      simp [h3, Vec.setVector, ← hv]
    | _ :: _, _, h1, _ => simp at h1

/-- **C21, exhausted attempts.** If every attempt on one individual is rejected, the repair step
`on_fail` receives the individual exactly as it was before the operator started. -/
theorem C21_on_fail_sees_original (m : NPoint) (v : Vec) (hv : v.length = v.vector.length)
    (hrej : ∀ v v', Post (m.checker v v') (· = false)) :
    Post (npApply m [v]) fun r => ∃ s s', m.onFail [v] s = (.ok r, s') := by
  unfold npApply failableApply
  suffices ∀ k i, Post (failableLoop (α := Option (List Vec))
      (fun p _ => match p with
        | none => raise .typeError
        | some l => do
          let (s, l') ← attemptOperator m l
          pure (s, some l'))
      (fun p => match p with
        | none => raise .typeError
        | some l => m.onFail l) k i (some [v])) fun r => ∃ s s', m.onFail [v] s = (.ok r, s') from
    this _ _
  intro k
  induction k with
  | zero => intro i s r s' h; exact ⟨s, s', h⟩
  | succ k ih =>
    intro i
    refine Post.bind (Q := fun r => r = (false, some [v])) ?_ fun r hr => ?_
    · have h1 : Post (attemptOperator m [v]) fun r => r.1 = false := by
        unfold attemptOperator
        refine Post.bind (Q := fun r => r.1 = false) ?_ fun r hr => ?_
        · unfold mutateOne
          refine Post.bind Post.trivial fun _ _ => Post.bind Post.trivial fun _ _ =>
            Post.bind Post.trivial fun v' _ => Post.bind (hrej v v') fun ok hok => ?_
          subst hok
          exact Post.pure rfl
        · obtain ⟨ok, v'⟩ := r
          simp only at hr
          subst hr
          exact Post.pure rfl
      refine Post.bind (h1.and (C21_single_unchanged m v hv)) fun r hr => ?_
      obtain ⟨s, l⟩ := r
      obtain ⟨h2, h3⟩ := hr
      simp only at h2 h3
      exact Post.pure (by rw [h2, h3 h2])
    · subst hr
      exact ih (i + 1)

example : Sample.f1.length = Sample.f1.vector.length := rfl

/-! ## C22 -/

theorem slice_nat (xs : List ℚ) {a b : Nat} (ha : a ≤ xs.length) (hb : b ≤ xs.length) :
    Py.slice xs (a : Int) (b : Int) = (xs.drop a).take (b - a) := by
  have h1 : Py.clamp xs.length (a : Int) = a := by
    unfold Py.clamp; rw [if_neg (by omega)]; simp [ha]
  have h2 : Py.clamp xs.length (b : Int) = b := by
    unfold Py.clamp; rw [if_neg (by omega)]; simp [hb]
  rw [Py.slice, h1, h2]

theorem replaceVectorPart_nat (v : Vec) (part : List ℚ) (start : Nat)
    (h : start + part.length ≤ v.vector.length) :
    v.replaceVectorPart part start = ((v.vector.drop start).take part.length,
      { v with vector := v.vector.take start ++ part ++ v.vector.drop (start + part.length) }) := by
  unfold Vec.replaceVectorPart
  simp only
  have h2 : ((start : Int) + (part.length : Int)) = ((start + part.length : Nat) : Int) := by simp
  have hc : Py.clamp v.vector.length ((start + part.length : Nat) : Int) = start + part.length := by
    unfold Py.clamp; rw [if_neg (by omega)]; omega
  rw [h2, slice_nat _ (by omega) h, hc, show (0 : Int) = ((0 : Nat) : Int) by rfl,
    slice_nat _ (by omega) (by omega)]
  simp

/-- **C22.** Replacing a part of a vector at a position where it fits returns exactly the cells that
were there, keeps the length (and the individual's other attributes), puts the new part at the
position and keeps every other cell. -/
theorem C22_replace_part (v : Vec) (part : List ℚ) (start : Nat)
    (h : start + part.length ≤ v.size) :
    let r := v.replaceVectorPart part start
    r.1.length = part.length ∧ (∀ i, i < part.length → r.1[i]? = v.vector[start + i]?) ∧
    SameShape v r.2 ∧
    ∀ i, r.2.vector[i]? =
      if start ≤ i ∧ i < start + part.length then part[i - start]? else v.vector[i]? := by
  intro r
  have hr : r = _ := replaceVectorPart_nat v part start h
  unfold Vec.size at h
  rw [hr]
  refine ⟨by simp; omega, fun i hi => ?_, ⟨rfl, rfl, rfl, ?_⟩, fun i => ?_⟩
  · simp [hi, List.getElem?_drop]
  · simp; omega
  · simp only
    rw [List.append_assoc, List.getElem?_append, List.length_take, Nat.min_eq_left (by omega)]
    by_cases h1 : i < start
    · rw [if_pos h1, if_neg (by omega), List.getElem?_take, if_pos h1]
    · rw [if_neg h1, List.getElem?_append]
      by_cases h2 : i < start + part.length
      · rw [if_pos (by omega), if_pos ⟨by omega, h2⟩]
      · rw [if_neg (by omega), if_neg (by omega), List.getElem?_drop]
        congr 1; omega

/-- **C22, reversibility.** Putting the removed part back at the same position restores the vector
and gives back the inserted part. -/
theorem C22_replace_part_reversible (v : Vec) (part : List ℚ) (start : Nat)
    (h : start + part.length ≤ v.size) :
    let r := v.replaceVectorPart part start
    r.2.replaceVectorPart r.1 start = (part, v) := by
  intro r
  have hlen : r.1.length = part.length := (C22_replace_part v part start h).1
  have hshape := (C22_replace_part v part start h).2.2.1
  have h' : start + r.1.length ≤ r.2.vector.length := by
    rw [hlen, hshape.2.2.2]; exact h
  rw [replaceVectorPart_nat _ _ _ h']
  have hr : r = _ := replaceVectorPart_nat v part start h
  rw [hlen]
  rw [hr]
  unfold Vec.size at h
  obtain ⟨kind, bounds, length, vector⟩ := v
  simp only at h ⊢
  have hts : (vector.take start).length = start := by simp; omega
  refine Prod.ext ?_ ?_
  · simp only
    rw [List.append_assoc, List.drop_append, hts, List.drop_of_length_le (by omega), List.nil_append,
      Nat.sub_self, List.drop_zero, List.take_append_of_le_length (le_refl _), List.take_length]
  · simp only [Vec.mk.injEq, true_and]
    have e1 : (vector.take start ++ part ++ vector.drop (start + part.length)).take start =
        vector.take start := by
      rw [List.append_assoc, List.take_append_of_le_length (by omega), List.take_of_length_le (by omega)]
    have e2 : (vector.take start ++ part ++ vector.drop (start + part.length)).drop
        (start + part.length) = vector.drop (start + part.length) := by
      have hl : (vector.take start ++ part).length = start + part.length := by
        rw [List.length_append, hts]
      rw [List.drop_append, hl, List.drop_of_length_le (by omega), Nat.sub_self]
      simp
    rw [e1, e2, List.append_assoc, ← List.drop_drop, List.take_append_drop, List.take_append_drop]

/-- **C22, random position.** `replace_vector_part_random` with a part that fits never raises and is
`replace_vector_part` at some position where the part fits. -/
theorem C22_replace_part_random (v : Vec) (part : List ℚ) (h : part.length ≤ v.size) :
    Ensures (v.replaceVectorPartRandom part) fun r =>
      ∃ start : Nat, start + part.length ≤ v.size ∧ r = v.replaceVectorPart part start := by
  unfold Vec.replaceVectorPartRandom
  have hrw : ((v.size : ℚ) - (part.length : ℚ)) = (((v.size : ℤ) - (part.length : ℤ) : ℤ) : ℚ) := by
    push_cast; rfl
  rw [hrw, show (0 : ℚ) = ((0 : ℤ) : ℚ) by norm_num]
  refine Ensures.bind (Rand.randint_ensures (by omega)) fun z hz => Ensures.pure ?_
  obtain ⟨k, rfl⟩ := Int.eq_ofNat_of_zero_le hz.1
  exact ⟨k, by omega, rfl⟩

/-- **C22, random part.** On a non-empty vector `random_vector_part` never raises and returns a
non-empty contiguous part. -/
theorem C22_random_part (v : Vec) (h : 0 < v.size) :
    Ensures v.randomVectorPart fun r =>
      ∃ i n : Nat, 0 < n ∧ i + n ≤ v.size ∧ r = (v.vector.drop i).take n := by
  unfold Vec.randomVectorPart
  have hrw : ((v.size : ℚ) - 1) = (((v.size : ℤ) - 1 : ℤ) : ℚ) := by push_cast; rfl
  rw [hrw, show (0 : ℚ) = ((0 : ℤ) : ℚ) by norm_num]
  refine Ensures.bind (Rand.randint_ensures (by omega)) fun i hi => ?_
  refine Ensures.bind (Rand.randint_ensures (by omega)) fun j hj => Ensures.pure ?_
  obtain ⟨i, rfl⟩ := Int.eq_ofNat_of_zero_le hi.1
  obtain ⟨j, rfl⟩ := Int.eq_ofNat_of_zero_le (le_trans hi.1 hj.1)
  refine ⟨i, j + 1 - i, by omega, by omega, ?_⟩
  have := slice_nat v.vector (a := i) (b := j + 1) (by unfold Vec.size at *; omega)
    (by unfold Vec.size at *; omega)
  exact_mod_cast this

example : 1 + [(7 : ℚ), 8].length ≤ Sample.f1.size := by decide

/-- **C22, reading a part.** `get_vector_part` returns the cells from the start up to, not including, the end: it is the
part that `replace_vector_part` would return, and after a replacement it returns the inserted part. -/
theorem C22_get_part (v : Vec) (a b : Nat) (hab : a ≤ b) (hb : b ≤ v.size) :
    (v.getVectorPart a b).length = b - a ∧ (∀ i, i < b - a → (v.getVectorPart a b)[i]? = v.vector[a + i]?) ∧
    ∀ part : List ℚ, part.length = b - a → (v.replaceVectorPart part a).1 = v.getVectorPart a b ∧
      (v.replaceVectorPart part a).2.getVectorPart a b = part := by
  unfold Vec.size at hb
  have hg : v.getVectorPart a b = (v.vector.drop a).take (b - a) := slice_nat _ (by omega) hb
  refine ⟨by rw [hg]; simp; omega, fun i hi => by rw [hg]; simp [hi, List.getElem?_drop], fun part hp => ?_⟩
  rw [hg, replaceVectorPart_nat v part a (by omega), hp]
  refine ⟨rfl, ?_⟩
  unfold Vec.getVectorPart
  rw [slice_nat _ (by simp; omega) (by simp; omega), ← hp]
  have hl : (v.vector.take a).length = a := by simp; omega
  rw [List.append_assoc, List.drop_append, hl, List.drop_of_length_le (by omega), List.nil_append,
    Nat.sub_self, List.drop_zero, List.take_append_of_le_length (le_refl _), List.take_length]

example : 1 ≤ 2 ∧ 2 ≤ Sample.f1.size := by decide

/-- **C22, the length attribute.** `add_cell`, `empty_vector` and `set_vector` change the cells as they say and keep
`length` in step with the number of cells; kind and bounds stay. -/
theorem C22_length_attribute (v : Vec) (x : ℚ) (xs : List ℚ) (h : v.length = v.size) :
    ((v.addCell x).vector = v.vector ++ [x] ∧ (v.addCell x).length = (v.addCell x).size ∧
      (v.addCell x).kind = v.kind ∧ (v.addCell x).bounds = v.bounds) ∧
    (v.emptyVector.vector = [] ∧ v.emptyVector.length = v.emptyVector.size ∧ v.emptyVector.kind = v.kind ∧
      v.emptyVector.bounds = v.bounds) ∧
    ((v.setVector xs).vector = xs ∧ (v.setVector xs).length = (v.setVector xs).size ∧ (v.setVector xs).kind = v.kind ∧
      (v.setVector xs).bounds = v.bounds) := by
  unfold Vec.size at *
  simp [Vec.addCell, Vec.emptyVector, Vec.setVector, h]

example : Sample.f1.length = Sample.f1.size := by decide

/-- **C22, single cells.** `set_cell_value` and `cell_value` accept the same indices, namely those from `-size` to
`size - 1`, and raise `IndexError` otherwise; after setting a cell, reading it gives the new value, reading any other cell
gives the old one; nothing else changes. -/
theorem C22_cells (v : Vec) (i : Int) (x : ℚ) :
    (-(v.size : Int) ≤ i ∧ i < v.size →
      ∃ v', v.setCellValue i x = .ok v' ∧ SameShape v v' ∧ v'.cellValue i = .ok x ∧ (∃ y, v.cellValue i = .ok y) ∧
        ∀ j : Int, j ≠ i → j ≠ i + v.size → i ≠ j + v.size → v'.cellValue j = v.cellValue j) ∧
    (¬ (-(v.size : Int) ≤ i ∧ i < v.size) →
      v.setCellValue i x = .error .indexError ∧ v.cellValue i = .error .indexError) := by
  unfold Vec.size
  have hidx : ∀ (n : Nat) (j : Int), (-(n : Int) ≤ j ∧ j < n ∧ ∃ k : Nat, k < n ∧ Py.index? n j = some k ∧
      ((k : Int) = j ∨ (k : Int) = n + j)) ∨ (¬ (-(n : Int) ≤ j ∧ j < n) ∧ Py.index? n j = none) := by
    intro n j
    unfold Py.index?
    by_cases h0 : 0 ≤ j
    · rw [if_pos h0]
      by_cases h1 : j.toNat < n
      · exact .inl ⟨by omega, by omega, j.toNat, h1, if_pos h1, .inl (by omega)⟩
      · exact .inr ⟨by omega, if_neg h1⟩
    · rw [if_neg h0]
      by_cases h1 : 0 ≤ (n : Int) + j
      · exact .inl ⟨by omega, by omega, ((n : Int) + j).toNat, by omega, if_pos h1, .inr (by omega)⟩
      · exact .inr ⟨by omega, if_neg h1⟩
  rcases hidx v.vector.length i with ⟨h1, h2, k, hk, he, hki⟩ | ⟨h1, he⟩
  · refine ⟨fun _ => ?_, fun h => absurd ⟨h1, h2⟩ h⟩
    refine ⟨{ v with vector := v.vector.set k x }, by simp only [Vec.setCellValue, he],
      ⟨rfl, rfl, rfl, by simp⟩, ?_, ⟨v.vector[k], ?_⟩, ?_⟩
    · simp [Vec.cellValue, Py.get, he, hk]
    · simp [Vec.cellValue, Py.get, he, hk]
    · intro j hj1 hj2 hj3
      unfold Vec.cellValue Py.get
      simp only [List.length_set]
      rcases hidx v.vector.length j with ⟨g1, g2, k', hk', ge, gki⟩ | ⟨g1, ge⟩
      · rw [ge]
        dsimp only
        rw [List.getElem?_set_ne (by omega)]
      · rw [ge]
  · refine ⟨fun h => absurd h h1, fun _ => ?_⟩
    constructor
    · simp only [Vec.setCellValue, he]
    · simp only [Vec.cellValue, Py.get, he]

example : (-(Sample.f1.size : Int) ≤ -1 ∧ (-1 : Int) < Sample.f1.size) := by decide

/-! ## C65 -/

/-- The statement of C65: a vector built with the class's default bounds can generate cell values. -/
def C65_statement : Prop :=
  ∀ (kind : Kind) (length : Nat), ∃ t,
    (Vec.getRandomNumberInBounds ⟨kind, match kind with
      | .int => intDefaultBounds
      | .float => floatDefaultBounds
      | .bit => bitDefaultBounds, length, []⟩ 0 t).1.isOk = true

/-- With its default bounds (minimum and maximum are swapped) an integer vector can never generate a
value: `ValueError` on every draw. -/
theorem C65_int_default_always_raises_partial (length : Nat) (vs : List ℚ) (i : Int) (t : Tape) :
    Vec.getRandomNumberInBounds ⟨.int, intDefaultBounds, length, vs⟩ i t = (.error .valueError, t) := by
  simp only [Vec.getRandomNumberInBounds, intDefaultBounds, randCell]
  rw [bind_error]
  refine .inl ?_
  unfold Rand.randint
  have h1 : ((2 : ℚ) ^ 31 - 1) = ((2147483647 : ℤ) : ℚ) := by norm_num
  have h2 : (-(2 : ℚ) ^ 31) = ((-2147483648 : ℤ) : ℚ) := by norm_num
  rw [h1, h2, if_neg (by simp), if_pos (by simp)]
  rfl

/-- **C65 is false** (for integer vectors). -/
theorem C65_refuted : ¬ C65_statement := by
  intro h
  obtain ⟨t, ht⟩ := h .int 1
  rw [C65_int_default_always_raises_partial] at ht
  simp [Except.isOk, Except.toBool] at ht

/-- **C65, what holds.** Float vectors and bit strings with default bounds always generate a value,
between 0 and 1. -/
theorem C65_float_bit_partial (length : Nat) (vs : List ℚ) (i : Nat) :
    Ensures (Vec.getRandomNumberInBounds ⟨.float, floatDefaultBounds, length, vs⟩ i)
      (fun x => 0 ≤ x ∧ x ≤ 1) ∧
    Ensures (Vec.getRandomNumberInBounds ⟨.bit, bitDefaultBounds, length, vs⟩ i)
      fun x => 0 ≤ x ∧ x ≤ 1 := by
  refine ⟨?_, ?_⟩ <;>
  exact getRandomNumberInBounds_ensures (v := ⟨_, .tup [0, 1], length, vs⟩) (by simp [Bounds.At])
    (by norm_num) (fun _ => ⟨⟨0, by norm_num⟩, 1, by norm_num⟩) (fun _ => ⟨0, 1, rfl⟩)

/-! ## C66 -/

/-- The statement of C66: a plain n-point mutation with default arguments can be applied. -/
def C66_statement : Prop :=
  ∀ (n : Nat) (v : Vec), 0 < n → n ≤ v.size → v.length = v.size → v.InBounds →
    ¬ v.bounds.TwoPairs → ∃ t, (npApply (plainNPoint n 5) [v] t).1.isOk = true

/-- The default value getter of `VectorNPointMutation` always raises: with default arguments the
operator never returns. -/
theorem C66_default_getter_raises_partial (n a : Nat) (hn : 0 < n) (ha : 0 < a) (v : Vec) (rest : List Vec) :
    Post (npApply (plainNPoint n a) (v :: rest)) fun _ => False := by
  obtain ⟨a, rfl⟩ : ∃ b, a = b + 1 := ⟨a - 1, by omega⟩
  unfold npApply failableApply plainNPoint
  refine Post.bind (Q := fun _ => False) ?_ fun _ hf => hf.elim
  refine Post.bind (Q := fun _ => False) ?_ fun _ hf => hf.elim
  unfold attemptOperator
  refine Post.bind (Q := fun _ => False) ?_ fun _ hf => hf.elim
  unfold mutateOne
  refine Post.bind (Q := fun pts => pts.length = n) ?_ fun pts hpts => ?_
  · exact Post.bind (Rand.sample_post n _) fun s hs => Post.pure (by simp [hs.2])
  · refine Post.bind (Q := fun _ => False) ?_ fun _ hf => hf.elim
    match pts, hpts with
    | [], h => simp at h; omega
    | z :: zs, _ => exact Post.bind (Q := fun _ => False) Post.raise fun _ hf => hf.elim

/-- **C66 is false.** -/
theorem C66_refuted : ¬ C66_statement := by
  intro h
  obtain ⟨t, ht⟩ := h 1 Sample.f1 (by decide) (by decide) rfl (by
    intro i x hx
    have : x ∈ [(1/2 : ℚ), 0, 1] := List.mem_of_getElem? hx
    refine ⟨0, 1, rfl, ?_⟩
    simp at this
    rcases this with rfl | rfl | rfl <;> norm_num) (by rintro ⟨p, q, h⟩; simp [Sample.f1] at h)
  rcases hr : npApply (plainNPoint 1 5) [Sample.f1] t with ⟨r, t'⟩
  cases r with
  | error e => rw [hr] at ht; simp [Except.isOk, Except.toBool] at ht
  | ok r => exact C66_default_getter_raises_partial 1 5 (by decide) (by decide) Sample.f1 [] t r t' hr

end Verif.GA
