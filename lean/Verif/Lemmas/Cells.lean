import Verif.Props.Total
import Verif.Props.CompleteVec

/-! # What all cells of the vectors of a run satisfy -/

namespace Verif.GA
open PyM Verif.Evo
variable {Q : ℚ → Prop} {kind : Kind} {bounds : Bounds} {length : Nat} {m : Mode}

/-- A legal vector whose cells satisfy `Q`. -/
def CellLegal (Q : ℚ → Prop) (kind : Kind) (bounds : Bounds) (length : Nat) (v : Vec) : Prop :=
  Legal kind bounds length v ∧ ∀ x ∈ v.vector, Q x

theorem setCells_cells {v v' : Vec} {l : List (Int × ℚ)} (hv : (∀ x ∈ v.vector, Q x)) (hl : ∀ p ∈ l, Q p.2)
    (h : setCells v l = .ok v') : (∀ x ∈ v'.vector, Q x) ∧ v'.kind = v.kind ∧ v'.bounds = v.bounds := by
  induction l generalizing v with
  | nil => cases h; exact ⟨hv, rfl, rfl⟩
  | cons p l ih =>
    obtain ⟨i, x⟩ := p
    unfold setCells at h
    split at h
    · cases h
    · rename_i v₁ h1
      unfold Vec.setCellValue at h1
      split at h1
      · cases h1
      · rename_i k _
        cases h1
        refine ih (v := { v with vector := v.vector.set k x }) ?_ (fun p hp => hl p (by simp [hp])) h
        intro y hy
        rcases List.mem_or_eq_of_mem_set hy with hy | rfl
        · exact hv y hy
        · exact hl (i, y) (by simp)

/-- The new values of a mutation of a vector of the class with the bounds whose cells satisfy `Q` satisfy it, too. -/
def NPoint.CellValues (Q : ℚ → Prop) (m : NPoint) (kind : Kind) (bounds : Bounds) : Prop :=
  ∀ v, v.kind = kind → v.bounds = bounds → (∀ x ∈ v.vector, Q x) → ∀ i, Post (m.mutVal v i) Q

/-- The vector belongs to the class, has the bounds and its cells satisfy `Q`. -/
def CellOf (Q : ℚ → Prop) (kind : Kind) (bounds : Bounds) (v : Vec) : Prop := v.kind = kind ∧ v.bounds = bounds ∧ (∀ x ∈ v.vector, Q x)

theorem mutateOne_cells {np : NPoint} (h : np.CellValues Q kind bounds) {v : Vec} (hv : CellOf Q kind bounds v) :
    Post (mutateOne np v) fun r => CellOf Q kind bounds r.2 := by
  obtain ⟨h1, h2, h3⟩ := hv
  unfold mutateOne
  refine Post.bind Post.trivial fun pts _ => ?_
  refine Post.bind (mapL_post (R := fun _ (x : ℚ) => Q x) pts fun i _ => h v h1 h2 h3 i) fun vals hvals => ?_
  have hvals : ∀ x ∈ vals, Q x := by
    intro x hx
    obtain ⟨i, hi, rfl⟩ := List.getElem_of_mem hx
    exact (List.forall₂_iff_get.1 hvals).2 i (by rw [hvals.length_eq]; exact hi) hi
  refine Post.bind (Q := fun v' => CellOf Q kind bounds v') (Post.ofExcept fun v' hs => ?_) fun v' hv' => ?_
  · obtain ⟨g1, g2, g3⟩ := setCells_cells h3 (fun p hp => hvals p.2 (List.of_mem_zip hp).2) hs
    exact ⟨g2.trans h1, g3.trans h2, g1⟩
  · refine Post.bind Post.trivial fun ok _ => Post.ite (fun _ => Post.pure hv') fun _ => Post.pure ?_
    exact ⟨hv'.1, hv'.2.1, h3⟩

theorem attemptOperator_cells {np : NPoint} (h : np.CellValues Q kind bounds) (l : List Vec)
    (hl : ∀ v ∈ l, CellOf Q kind bounds v) :
    Post (attemptOperator np l) fun r => ∀ v ∈ r.2, CellOf Q kind bounds v := by
  induction l with
  | nil => exact Post.pure (by simp)
  | cons v rest ih =>
    unfold attemptOperator
    refine Post.bind (mutateOne_cells h (hl v (by simp))) fun r hr => ?_
    obtain ⟨ok, v'⟩ := r
    refine Post.ite (fun _ => ?_) fun _ => Post.pure ?_
    · refine Post.bind (ih fun w hw => hl w (by simp [hw])) fun r' hr' => Post.pure ?_
      intro w hw
      rcases List.mem_cons.1 hw with rfl | hw
      exacts [hr, hr' w hw]
    · intro w hw
      rcases List.mem_cons.1 hw with rfl | hw
      exacts [hr, hl w (by simp [hw])]

theorem npApply_cells {np : NPoint} (h : np.CellValues Q kind bounds) (hfail : np.onFail = defaultOnFail) (l : List Vec)
    (hl : ∀ v ∈ l, CellOf Q kind bounds v) :
    Post (npApply np l) fun r => ∀ out, r = some out → ∀ v ∈ out, CellOf Q kind bounds v := by
  unfold npApply failableApply
  suffices ∀ n i (p : Option (List Vec)), (∀ out, p = some out → ∀ v ∈ out, CellOf Q kind bounds v) →
      Post (failableLoop (α := Option (List Vec))
      (fun p _ => match p with
        | none => raise .typeError
        | some l => do
          let (s, l') ← attemptOperator np l
          pure (s, some l'))
      (fun p => match p with
        | none => raise .typeError
        | some l => np.onFail l) n i p) fun r => ∀ out, r = some out → ∀ v ∈ out, CellOf Q kind bounds v from
    this _ _ _ (by rintro _ ⟨⟩; exact hl)
  intro n
  induction n with
  | zero =>
    intro i p hp
    cases p with
    | none => exact Post.raise
    | some l =>
      unfold failableLoop
      simp only [hfail]
      exact Post.pure (by simp)
  | succ n ih =>
    intro i p hp
    cases p with
    | none => exact Post.bind (Q := fun _ => False) Post.raise fun _ h => h.elim
    | some l =>
      refine Post.bind (Q := fun r => ∀ out, r.2 = some out → ∀ v ∈ out, CellOf Q kind bounds v) ?_ fun r hr => ?_
      · refine Post.bind (attemptOperator_cells h l (hp l rfl)) fun r hr => Post.pure ?_
        rintro _ ⟨⟩
        exact hr
      · exact Post.ite (fun _ => Post.pure hr) fun _ => ih _ _ hr

theorem cellValue_cells {v : Vec} (hv : (∀ x ∈ v.vector, Q x)) (i : Int) : Post (ofExcept (v.cellValue i) : Rand ℚ) Q :=
  Post.ofExcept fun x hx => hv x (by
    unfold Vec.cellValue Py.get at hx
    split at hx
    · cases hx
    · rename_i k _
      split at hx
      · cases hx
      · rename_i y hy
        cases hx
        exact List.mem_of_getElem? hy)

/-! ## Crossover -/

theorem crossover_cells {k : Nat} (hk : k < length) {inds : List Vec} (h : ∀ v ∈ inds, CellLegal Q kind bounds length v) :
    Post (kPointApply k inds) fun out => ∀ v ∈ out, CellLegal Q kind bounds length v := by
  match inds, h with
  | [], _ => exact Post.raise
  | [a], _ =>
    unfold kPointApply
    exact Post.bind Post.trivial fun _ _ => Post.raise
  | a :: b :: others, h =>
    obtain ⟨⟨a1, a2, a3, a4, a5⟩, a6⟩ := h a (by simp)
    obtain ⟨⟨b1, b2, b3, b4, b5⟩, b6⟩ := h b (by simp)
    have hs : a.size = b.size := by unfold Vec.size; omega
    have hka : k < a.size := by unfold Vec.size; omega
    refine ((C16_genes_conserved k a b others hs hka).post.and
      (crossover_keeps hk fun v hv => (h v hv).1)).mono ?_
    rintro out ⟨⟨w1, w2, rfl, l1, l2, hc⟩, hleg⟩
    intro v hv
    refine ⟨hleg v hv, ?_⟩
    simp only [List.mem_cons] at hv
    rcases hv with rfl | rfl | hv
    · intro x hx
      obtain ⟨i, hi⟩ := List.mem_iff_getElem?.1 hx
      rcases hc i with ⟨e, -⟩ | ⟨e, -⟩
      · exact a6 x (List.mem_of_getElem? (e ▸ hi))
      · exact b6 x (List.mem_of_getElem? (e ▸ hi))
    · intro x hx
      obtain ⟨i, hi⟩ := List.mem_iff_getElem?.1 hx
      rcases hc i with ⟨-, e⟩ | ⟨-, e⟩
      · exact b6 x (List.mem_of_getElem? (e ▸ hi))
      · exact a6 x (List.mem_of_getElem? (e ▸ hi))
    · exact (h v (by simp [hv])).2


theorem crossoverOp_preserves_cells {p : ℚ} {a k : Nat} (hk : k < length) :
    (crossoverOp p a k).Preserves (CellLegal Q kind bounds length) := by
  refine Op.inPlace_preserves _ _ _ fun gs hgs => ?_
  exact Post.bind (crossover_cells hk hgs) fun out ho => Post.pure (by rintro _ ⟨⟩; exact ho)

theorem MutationClass.preserves_cells (hb : bounds.Proper kind length) {c : MutationClass} {p : ℚ} {a : Nat} (hc : c.kind = kind)
    (hn : ∀ n, c.points = some n → n ≤ length) (h1 : (c.op p).CellValues Q kind bounds)
    (h2 : (c.op p).onFail = defaultOnFail) (he : ∃ name, c.asOp p a = mutationOp name p a (c.op p)) :
    (c.asOp p a).Preserves (CellLegal Q kind bounds length) := by
  obtain ⟨name, e⟩ := he
  rw [e]
  refine Op.inPlace_preserves _ _ _ fun gs hgs => ?_
  refine ((c.op_keeps p fun v hv => (hgs v hv).1.suits hb hc hn).post.and
    (npApply_cells h1 h2 gs fun v hv => ⟨(hgs v hv).1.1, (hgs v hv).1.2.1, (hgs v hv).2⟩)).mono ?_
  rintro _ ⟨⟨out, rfl, hk⟩, hw⟩ _ ⟨⟩
  exact fun v hv => ⟨Legal.of_keeps (fun v hv => (hgs v hv).1) hk v hv, (hw _ rfl v hv).2.2⟩

/-! ## Creation -/

theorem createVector_cells (hq : ∀ i, Post (Vec.getRandomNumberInBounds ⟨kind, bounds, length, []⟩ i) Q) :
    Post (createVector length defaultGeneCreator ⟨kind, bounds, length, []⟩) fun v => ∀ x ∈ v.vector, Q x := by
  unfold createVector
  refine Post.bind (mapL_post (R := fun _ (x : ℚ) => Q x) _ fun i _ => hq i) fun xs hxs => Post.pure fun x hx => ?_
  obtain ⟨i, hi, rfl⟩ := List.getElem_of_mem hx
  exact (List.forall₂_iff_get.1 hxs).2 i (by rw [hxs.length_eq]; exact hi) hi

theorem LibCreator.makes_cells (hb : bounds.Proper kind length)
    (hq : ∀ i, Post (Vec.getRandomNumberInBounds ⟨kind, bounds, length, []⟩ i) Q) {create : Nat → Bool → WM Vec (List Nat)}
    (h : LibCreator kind bounds length m create) : Makes (CellLegal Q kind bounds length) create := by
  cases h with
  | mk fit up hf =>
    have h1 := (createVector_ensures hb.legal hb.integral hb.pair).post
    have h2 : Post (createVector length defaultGeneCreator ⟨kind, bounds, length, []⟩) (CellLegal Q kind bounds length) := by
      intro t v t' hr
      exact ⟨h1 t v t' hr, createVector_cells hq t v t' hr⟩
    have := createIndividuals_makes' (⟨kind, bounds, length, []⟩ : Vec) fit up h2
    intro n h s
    unfold vectorCreator
    rw [hb.accepted, Bool.not_true, Bool.and_false, if_neg (by simp)]
    exact this n h s

end Verif.GA
