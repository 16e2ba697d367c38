import Verif.Props.MutationObjects
import Verif.Props.MooOperators

/-! # C169: the creators and operators of a run are those of the library

`Model/Library.lean` makes creators and operators of a run from what `Model/Vector.lean` and `Model/GPOperators.lean` say
about genomes.  Here the two are related: the objects draw the same numbers, raise the same errors, and leave the same
genomes behind, in the individuals that they create or are given and in no others. -/

namespace Verif.Evo
open PyM
variable {G : Type}

/-- `create` makes, from the same draws, individuals with the genomes that `g` makes, puts them behind all others, changes
none of the others, and raises what `g` raises. -/
def CreatesAs (create : Nat → Bool → WM G (List Nat)) (g : Nat → Rand (List G)) : Prop :=
  ∀ n hib s, ∃ s', create n hib s = ((g n s.tape).1.map fun _ => List.range' s.heap.length n, s') ∧
    s'.tape = (g n s.tape).2 ∧ (∀ x < s.heap.length, s'.heap[x]? = s.heap[x]?) ∧
    ∀ gs, (g n s.tape).1 = .ok gs →
      s'.heap.length = s.heap.length + n ∧ Hold s' (List.range' s.heap.length n) gs

theorem makeAll (empty : G) (f : Fit) (up : Bool) (xs : List Nat) (s : World G) : ∃ s',
    mapL (fun (_ : Nat) => newInd empty f up) xs s = (.ok (List.range' s.heap.length xs.length), s') ∧
    s'.tape = s.tape ∧ s'.heap.length = s.heap.length + xs.length ∧ ∀ x < s.heap.length, s'.heap[x]? = s.heap[x]? := by
  induction xs generalizing s with
  | nil => exact ⟨s, rfl, rfl, rfl, fun _ _ => rfl⟩
  | cons x xs ih =>
    obtain ⟨s', h1, h2, h3, h4⟩ := ih { s with nextId := s.nextId + 1, heap := s.heap ++ [freshInd s.nextId empty f up] }
    refine ⟨s', ?_, h2, by rw [h3]; simp; omega, fun y hy => ?_⟩
    · have e : newInd empty f up s = (.ok s.heap.length,
        { s with nextId := s.nextId + 1, heap := s.heap ++ [freshInd s.nextId empty f up] }) := rfl
      unfold mapL
      rw [bind_of_ok e, bind_of_ok h1]
      simp [List.range'_succ]
    · rw [h4 y (by simp; omega)]
      simp [List.getElem?_append_left hy]

theorem fillAll (genome : Rand G) (refs : List Nat) (hn : refs.Nodup) (s : World G) (hv : ∀ r ∈ refs, r < s.heap.length) :
    ∃ s', forL (fun r => do
        let g ← rand genome
        update r fun i => { i with genome := g }) refs s = ((replicateM refs.length genome s.tape).1.map fun _ => (), s') ∧
      s'.tape = (replicateM refs.length genome s.tape).2 ∧ s'.heap.length = s.heap.length ∧
      (∀ x ∉ refs, s'.heap[x]? = s.heap[x]?) ∧
      ∀ gs, (replicateM refs.length genome s.tape).1 = .ok gs → Hold s' refs gs := by
  induction refs generalizing s with
  | nil => exact ⟨s, rfl, rfl, rfl, fun _ _ => rfl, by rintro _ ⟨⟩; exact .nil⟩
  | cons r rs ih =>
    rw [List.nodup_cons] at hn
    have er : ∀ o t, genome s.tape = (o, t) → (rand genome : WM G G) s = (o, { s with tape := t }) := by
      intro o t h; simp [rand, zoom, h]
    rcases hg : genome s.tape with ⟨_ | g, t⟩
    · rename_i e
      refine ⟨{ s with tape := t }, ?_, ?_, rfl, fun _ _ => rfl, ?_⟩
      · unfold forL replicateM
        simp only [List.length_cons]
        rw [bind_of_error (m := genome) hg, bind_of_error]
        · rfl
        · exact bind_of_error (er _ _ hg)
      · simp only [List.length_cons]; unfold replicateM; rw [bind_of_error hg]
      · simp only [List.length_cons]; unfold replicateM; rw [bind_of_error hg]; simp
    · obtain ⟨s', h1, h2, h3, h4, h5⟩ := ih hn.2 { s with tape := t, heap := s.heap.modify r fun i => { i with genome := g } }
        (fun q hq => by simpa using hv q (by simp [hq]))
      have e0 : (do
          let g ← rand genome
          update r fun i => { i with genome := g } : WM G Unit) s =
          (.ok (), { s with tape := t, heap := s.heap.modify r fun i => { i with genome := g } }) := by
        rw [bind_of_ok (er _ _ hg)]; rfl
      have e1 : ∀ o t', replicateM rs.length genome t = (o, t') →
          replicateM (rs.length + 1) genome s.tape = (o.map (g :: ·), t') := by
        intro o t' h
        rw [replicateM, bind_of_ok hg]
        cases o with
        | error e => rw [bind_of_error h]; rfl
        | ok gs => rw [bind_of_ok h]; rfl
      dsimp only at h1 h2 h4 h5
      rcases hr : replicateM rs.length genome t with ⟨o, t'⟩
      rw [hr] at h1 h2 h5
      have e2 := e1 o t' hr
      refine ⟨s', ?_, ?_, by simpa using h3, fun x hx => ?_, fun gs hgs => ?_⟩
      · simp only [List.length_cons]
        rw [e2]
        unfold forL
        rw [bind_of_ok e0, h1]
        cases o <;> rfl
      · simp only [List.length_cons]; rw [e2]; exact h2
      · simp only [List.mem_cons, not_or] at hx
        rw [h4 x hx.2]
        have : ¬ r = x := fun h => hx.1 h.symm
        simp [this]
      · simp only [List.length_cons] at hgs
        rw [e2] at hgs
        cases o with
        | error e => cases hgs
        | ok gs' =>
          cases hgs
          refine .cons ?_ (h5 gs' rfl)
          have hlt := hv r (by simp)
          unfold genomeAt
          rw [h4 r hn.1]
          simp [List.getElem?_eq_getElem hlt]

theorem createIndividuals_creates (empty : G) (genome : Rand G) (fit : Bool → Fit) (up : Bool) :
    CreatesAs (createIndividuals empty genome fit up) fun n => replicateM n genome := by
  intro n hib s
  obtain ⟨s₁, h1, h2, h3, h4⟩ := makeAll empty (fit hib) up (List.range n) s
  rw [List.length_range] at h1 h3
  obtain ⟨s₂, k1, k2, k3, k4, k5⟩ := fillAll genome (List.range' s.heap.length n) List.nodup_range' s₁
    (fun r hr => by rw [h3]; simp at hr; omega)
  rw [List.length_range', h2] at k1 k2 k5
  refine ⟨s₂, ?_, k2, fun x hx => ?_, fun gs hgs => ⟨by rw [k3, h3], k5 gs hgs⟩⟩
  · unfold createIndividuals
    rw [bind_of_ok h1]
    rcases hr : replicateM n genome s.tape with ⟨o, t⟩
    rw [hr] at k1
    dsimp only
    rw [hr]
    cases o with
    | error e => rw [bind_of_error k1]; rfl
    | ok gs => rw [bind_of_ok k1]; rfl
  · rw [k4 x (by simp; omega), h4 x hx]

end Verif.Evo

namespace Verif.GA
open PyM Verif.Evo

theorem replicateM_ok {σ β : Type} (v : β) (n : Nat) (s : σ) :
    replicateM n (ofExcept (.ok v) : PyM σ β) s = (.ok (List.replicate n v), s) := by
  induction n with
  | zero => rfl
  | succ n ih =>
    rw [replicateM, bind_of_ok (show (ofExcept (.ok v) : PyM σ β) s = (.ok v, s) from rfl), bind_of_ok ih]
    rfl

theorem mapL_replicate {σ α β : Type} (f : α → PyM σ β) (v : α) (n : Nat) :
    mapL f (List.replicate n v) = replicateM n (f v) := by
  induction n with
  | zero => rfl
  | succ n ih => rw [List.replicate_succ, mapL, ih, replicateM]

/-- **C169: vector creators.**  `create_individuals` of a vector creator in a run makes new individuals with the vectors
that C18 is about, from the same draws, and leaves all others alone; in particular bounds that do not fit raise
`ValueError` before anything is drawn. -/
theorem C169_vector_creator (kind : Kind) (length : Nat) (bounds : Bounds) (fit : Bool → Fit) (up : Bool) :
    CreatesAs (vectorCreator kind length bounds fit up) (GA.createIndividuals kind length bounds defaultGeneCreator) := by
  intro n hib s
  cases hb : bounds.accepted length with
  | true =>
    obtain ⟨s', h1, h2, h3, h4⟩ := createIndividuals_creates ⟨kind, bounds, length, []⟩
      (createVector length defaultGeneCreator ⟨kind, bounds, length, []⟩) fit up n hib s
    have e : GA.createIndividuals kind length bounds defaultGeneCreator n s.tape
        = replicateM n (createVector length defaultGeneCreator ⟨kind, bounds, length, []⟩) s.tape := by
      unfold GA.createIndividuals
      have hm : mkVec kind bounds length none = .ok ⟨kind, bounds, length, []⟩ := by simp [mkVec, hb]
      rw [hm, bind_of_ok (replicateM_ok _ n s.tape), mapL_replicate]
    rw [e]
    refine ⟨s', ?_, h2, h3, h4⟩
    unfold vectorCreator
    rw [hb]
    simpa using h1
  | false =>
    cases n with
    | zero =>
      refine ⟨s, ?_, rfl, fun _ _ => rfl, ?_⟩
      · unfold vectorCreator; rw [if_neg (by simp)]; rfl
      · rintro _ ⟨⟩; exact ⟨rfl, .nil⟩
    | succ n =>
      have e : GA.createIndividuals kind length bounds defaultGeneCreator (n + 1) s.tape = (.error .valueError, s.tape) := by
        unfold GA.createIndividuals
        have hm : mkVec kind bounds length none = .error .valueError := by simp [mkVec, hb]
        rw [hm]
        refine bind_of_error ?_
        rw [replicateM]
        exact bind_of_error rfl
      rw [e]
      refine ⟨s, ?_, rfl, fun _ _ => rfl, by simp⟩
      unfold vectorCreator
      rw [hb, if_pos (by simp)]
      rfl

theorem kPointApply_length (k : Nat) (inds : List Vec) : Post (kPointApply k inds) fun out => out.length = inds.length := by
  match inds with
  | [] => exact Post.raise
  | [a] =>
    unfold kPointApply
    exact Post.bind Post.trivial fun _ _ => Post.raise
  | a :: b :: others =>
    unfold kPointApply
    exact Post.bind Post.trivial fun _ _ => Post.bind Post.trivial fun _ _ => Post.pure (by simp)

/-- **C169: vector operators.**  A `VectorKPointsCrossover` object with `k` points does to the individuals that it is given
what C16 and C17 say about `k` points, and a mutation object what C19 and C20 say about its class. -/
theorem C169_vector_operators (p : ℚ) (arity k : Nat) (c : MutationClass) :
    (crossoverOp p arity k).Does (fun inds => (do let out ← kPointApply k inds; pure (some out))) ∧
    (c.asOp p arity).Does (npApply (c.op p)) ∧
    (crossoverOp p arity k).probability = p ∧ (crossoverOp p arity k).arity = arity ∧
    (c.asOp p arity).probability = p ∧ (c.asOp p arity).arity = arity :=
  ⟨Op.inPlace_does _ _ _ fun gs => Post.bind (kPointApply_length k gs) fun out ho => Post.pure (by rintro _ ⟨⟩; exact ho),
    C45_vector_mutations c p arity, rfl, rfl, by cases c <;> rfl, by cases c <;> rfl⟩

/-- A world with two vectors of three integers. -/
def pairWorld : World Vec :=
  ⟨[⟨0, 0, ⟨.int, .tup [0, 9], 3, [1, 2, 3]⟩, ⟨.none, false, true, false, true, none⟩, -1, [], [], true, []⟩,
    ⟨0, 1, ⟨.int, .tup [0, 9], 3, [7, 8, 9]⟩, ⟨.none, false, true, false, true, none⟩, -1, [], [], true, []⟩], 2, fun n => n + 1⟩

example := C169_vector_creator .int 3 (.tup [0, 9]) (fun h => ⟨.none, false, h, false, true, none⟩) true 2 true pairWorld

/-- Two more vectors behind those that are there. -/
example : (vectorCreator .int 3 (.tup [0, 9]) (fun h => ⟨.none, false, h, false, true, none⟩) true 2 true pairWorld).1
      = .ok [2, 3] ∧
    (vectorCreator .int 3 (.tup [0, 9]) (fun h => ⟨.none, false, h, false, true, none⟩) true 2 true pairWorld).2.heap.map
      (·.genome.vector) = [[1, 2, 3], [7, 8, 9], [1, 2, 3], [4, 5, 6]] := by decide +kernel

/-- Bounds with three numbers, and one pair of bounds for three cells. -/
example : (vectorCreator .int 3 (.tup [0, 1, 2]) (fun h => ⟨.none, false, h, false, true, none⟩) true 2 true pairWorld).1
      = .error .valueError ∧
    (vectorCreator .int 3 (.lst [(0, 1)]) (fun h => ⟨.none, false, h, false, true, none⟩) true 2 true pairWorld).1
      = .error .valueError := by decide +kernel

example := (C169_vector_operators 1 2 1 (.floatUniformOne)).1 [0, 1] _ pairWorld (by simp) (.cons rfl (.cons rfl .nil))

end Verif.GA

namespace Verif.GP
open PyM Verif.Evo

/-- **C169: tree creators.**  `create_individuals` of a full or grow creator in a run makes new individuals with the trees
that C11 and C12 are about. -/
theorem C169_tree_creators (c : Cfg) (pPrune : ℚ) (minDepth maxDepth : Nat) (fit : Bool → Fit) (up : Bool) :
    CreatesAs (fullCreator c maxDepth fit up) (GP.createIndividuals c (fullCreate c maxDepth c.rootType)) ∧
    CreatesAs (growCreator c pPrune minDepth maxDepth fit up)
      (GP.createIndividuals c (growCreate c pPrune minDepth maxDepth c.rootType)) :=
  ⟨createIndividuals_creates _ _ fit up, createIndividuals_creates _ _ fit up⟩

theorem hold_ext {G : Type} {s s' : World G} {refs : List Nat} {gs : List G} (h : Hold s refs gs)
    (he : ∀ x < s.heap.length, s'.heap[x]? = s.heap[x]?) : Hold s' refs gs := by
  refine h.imp fun r g hg => ?_
  unfold genomeAt at hg ⊢
  cases hr : s.heap[r]? with
  | none => simp [hr] at hg
  | some i => rw [he r (List.getElem?_eq_some_iff.1 hr).1]; exact hg

theorem halfGroups_creates (c : Cfg) (pPrune : ℚ) (minDepth k : Nat) (fit : Bool → Fit) (up hib : Bool) (ds : List Nat)
    (s : World Ind) : ∃ s', halfGroups (fun d => growCreator c pPrune minDepth d fit up) (fun d => fullCreator c d fit up) k hib ds s
        = ((halfLoop c pPrune minDepth k ds s.tape).1.map fun _ => List.range' s.heap.length (2 * k * ds.length), s') ∧
    s'.tape = (halfLoop c pPrune minDepth k ds s.tape).2 ∧ (∀ x < s.heap.length, s'.heap[x]? = s.heap[x]?) ∧
    ∀ gs, (halfLoop c pPrune minDepth k ds s.tape).1 = .ok gs → s'.heap.length = s.heap.length + 2 * k * ds.length ∧
      Hold s' (List.range' s.heap.length (2 * k * ds.length)) gs := by
  induction ds generalizing s with
  | nil => exact ⟨s, rfl, rfl, fun _ _ => rfl, by rintro _ ⟨⟩; exact ⟨rfl, .nil⟩⟩
  | cons d ds ih =>
    obtain ⟨s₁, a1, a2, a3, a4⟩ := (C169_tree_creators c pPrune minDepth d fit up).2 k hib s
    unfold halfGroups halfLoop
    rcases ha : GP.createIndividuals c (growCreate c pPrune minDepth d c.rootType) k s.tape with ⟨_ | ga, ta⟩
    · rename_i e
      rw [ha] at a1 a2
      rw [bind_of_error ha, bind_of_error a1]
      exact ⟨s₁, rfl, a2, a3, by simp⟩
    rw [ha] at a1 a2 a4
    obtain ⟨l1, o1⟩ := a4 ga rfl
    rw [bind_of_ok ha, bind_of_ok a1]
    obtain ⟨s₂, b1, b2, b3, b4⟩ := (C169_tree_creators c pPrune minDepth d fit up).1 k hib s₁
    rw [a2] at b1 b2 b4
    rcases hb : GP.createIndividuals c (fullCreate c d c.rootType) k ta with ⟨_ | gb, tb⟩
    · rename_i e
      rw [hb] at b1 b2
      rw [bind_of_error hb, bind_of_error b1]
      exact ⟨s₂, rfl, b2, fun x hx => by rw [b3 x (by omega), a3 x hx], by simp⟩
    rw [hb] at b1 b2 b4
    obtain ⟨l2, o2⟩ := b4 gb rfl
    rw [bind_of_ok hb, bind_of_ok b1]
    obtain ⟨s₃, c1, c2, c3, c4⟩ := ih s₂
    rw [b2] at c1 c2 c4
    have hun : ∀ x < s.heap.length, s₃.heap[x]? = s.heap[x]? := fun x hx => by
      rw [c3 x (by omega), b3 x (by omega), a3 x hx]
    rcases hc : halfLoop c pPrune minDepth k ds tb with ⟨_ | gc, tc⟩
    · rename_i e
      rw [hc] at c1 c2
      rw [bind_of_error hc, bind_of_error c1]
      exact ⟨s₃, rfl, c2, hun, by simp⟩
    rw [hc] at c1 c2 c4
    obtain ⟨l3, o3⟩ := c4 gc rfl
    rw [bind_of_ok hc, bind_of_ok c1]
    have hlen : s.heap.length + 2 * k * (ds.length + 1) = s₂.heap.length + 2 * k * ds.length := by rw [l2, l1]; ring
    have hr : List.range' s.heap.length k ++ List.range' s₁.heap.length k ++ List.range' s₂.heap.length (2 * k * ds.length)
        = List.range' s.heap.length (2 * k * (ds.length + 1)) := by
      rw [l2, l1, List.range'_append_1, show s.heap.length + k + k = s.heap.length + (k + k) by omega, List.range'_append_1]
      congr 1
      ring
    refine ⟨s₃, ?_, c2, hun, ?_⟩
    · simp only [List.length_cons]
      rw [← hr]
      rfl
    · rintro _ ⟨⟩
      simp only [List.length_cons]
      refine ⟨by rw [l3, ← hlen], ?_⟩
      rw [← hr]
      refine List.rel_append (List.rel_append (hold_ext (hold_ext o1 b3) c3) (hold_ext o2 c3)) o3

/-- **C169: the ramped half-and-half creator**, which makes the trees that C13 is about. -/
theorem C169_half_creator (c : Cfg) (pPrune : ℚ) (minDepth maxDepth : Nat) (h : minDepth ≤ maxDepth) (fit : Bool → Fit) (up : Bool) :
    CreatesAs (halfCreator c pPrune minDepth maxDepth fit up) (GP.halfCreate c pPrune minDepth maxDepth) := by
  intro n hib s
  obtain ⟨d, hd⟩ : ∃ d, maxDepth + 1 - minDepth = d + 1 := ⟨maxDepth - minDepth, by omega⟩
  have hz : (2 * ((maxDepth : Int) + 1 - minDepth)) = ((2 * (d + 1) : Nat) : Int) := by omega
  have hq : Int.tdiv (n : Int) ((2 * (d + 1) : Nat) : Int) = ((n / (2 * (d + 1)) : Nat) : Int) := by
    rw [Int.tdiv_eq_ediv_of_nonneg (by omega)]; rfl
  unfold halfCreator Evo.halfCreate GP.halfCreate
  rw [hz, hq, hd]
  dsimp only
  rw [if_neg (show ¬ ((2 * (d + 1) : Nat) : Int) = 0 by omega)]
  by_cases hg : n / (2 * (d + 1)) = 0
  · rw [if_pos hg, if_pos (show ((n / (2 * (d + 1)) : Nat) : Int) = 0 by omega)]
    exact ⟨s, rfl, rfl, fun _ _ => rfl, by rintro _ ⟨⟩⟩
  rw [if_neg hg, if_neg (show ¬ ((n / (2 * (d + 1)) : Nat) : Int) = 0 by omega)]
  have hds : (List.range (d + 1)).map (minDepth + ·) = List.range' minDepth (d + 1) := by
    rw [List.range'_eq_map_range]
  rw [hds, Int.toNat_natCast]
  set k := n / (2 * (d + 1)) with hk
  obtain ⟨s₁, a1, a2, a3, a4⟩ := halfGroups_creates c pPrune minDepth k fit up hib (List.range' minDepth (d + 1)) s
  rw [List.length_range'] at a1 a4
  rcases ha : halfLoop c pPrune minDepth k (List.range' minDepth (d + 1)) s.tape with ⟨_ | ga, ta⟩
  · rename_i e
    rw [ha] at a1 a2
    rw [bind_of_error ha, bind_of_error a1]
    exact ⟨s₁, rfl, a2, a3, by rintro _ ⟨⟩⟩
  rw [ha] at a1 a2 a4
  obtain ⟨l1, o1⟩ := a4 ga rfl
  rw [bind_of_ok ha, bind_of_ok a1]
  have hlen : ga.length = 2 * k * (d + 1) := by rw [← o1.length_eq, List.length_range']
  have hle : 2 * k * (d + 1) ≤ n := by
    have := Nat.div_mul_le_self n (2 * (d + 1))
    rw [← hk] at this
    calc 2 * k * (d + 1) = k * (2 * (d + 1)) := by ring
      _ ≤ n := this
  rw [hlen, List.length_range']
  by_cases hm : 2 * k * (d + 1) < n
  · rw [if_pos (by omega), if_pos (by omega)]
    have e1 : minDepth + (d + 1) - 1 = maxDepth := by omega
    have e2 : ((n : Int) - (2 * k * (d + 1) : Nat)).toNat = n - 2 * k * (d + 1) := by omega
    rw [e1, e2]
    obtain ⟨s₂, b1, b2, b3, b4⟩ := (C169_tree_creators c pPrune minDepth maxDepth fit up).1 (n - 2 * k * (d + 1)) hib s₁
    rw [a2] at b1 b2 b4
    have hun : ∀ x < s.heap.length, s₂.heap[x]? = s.heap[x]? := fun x hx => by rw [b3 x (by omega), a3 x hx]
    rcases hb : GP.createIndividuals c (fullCreate c maxDepth c.rootType) (n - 2 * k * (d + 1)) ta with ⟨_ | gb, tb⟩
    · rename_i e
      rw [hb] at b1 b2
      rw [bind_of_error hb, bind_of_error b1]
      exact ⟨s₂, rfl, b2, hun, by rintro _ ⟨⟩⟩
    rw [hb] at b1 b2 b4
    obtain ⟨l2, o2⟩ := b4 gb rfl
    rw [bind_of_ok hb, bind_of_ok b1]
    have hr : List.range' s.heap.length (2 * k * (d + 1)) ++ List.range' s₁.heap.length (n - 2 * k * (d + 1))
        = List.range' s.heap.length n := by
      rw [l1, List.range'_append_1]
      congr 1
      omega
    refine ⟨s₂, ?_, b2, hun, ?_⟩
    · rw [← hr]; rfl
    · rintro _ ⟨⟩
      refine ⟨by rw [l2, l1]; omega, ?_⟩
      rw [← hr]
      exact List.rel_append (hold_ext o1 b3) o2
  · have he : 2 * k * (d + 1) = n := by omega
    rw [if_neg (by omega), if_neg (by omega)]
    rw [he] at l1 o1
    refine ⟨s₁, by rw [he]; rfl, a2, a3, ?_⟩
    rintro _ ⟨⟩
    exact ⟨l1, o1⟩

/-- No trees yet. -/
def noTrees : World Ind := ⟨[], 0, fun n => 3 * n⟩

/-- One function with two arguments and one terminal. -/
def exSum : Cfg := ⟨[⟨0, [none, none], none⟩], [(⟨0, .str "x"⟩, none)], none, none⟩

example := C169_half_creator exSum (1 / 2) 1 2 (by omega) (fun h => ⟨.none, false, h, false, true, none⟩) true 5 true noTrees
example := (C169_tree_creators exSum (1 / 2) 1 2 (fun h => ⟨.none, false, h, false, true, none⟩) true).2 2 true noTrees

/-- Two full trees of depth 2. -/
example : (fullCreator exSum 2 (fun h => ⟨.none, false, h, false, true, none⟩) true 2 true noTrees).1 = .ok [0, 1] ∧
    (fullCreator exSum 2 (fun h => ⟨.none, false, h, false, true, none⟩) true 2 true noTrees).2.heap.map
      (·.genome.tree.length) = [7, 7] := by decide +kernel

theorem failableLoop_length {attempt : List Ind → Nat → Rand (Bool × List Ind)}
    (h : ∀ inds i, Post (attempt inds i) fun r => r.2.length = inds.length) (n i : Nat) (inds : List Ind) :
    Post (failableLoop attempt pure n i inds) fun out => out.length = inds.length := by
  induction n generalizing i inds with
  | zero => exact Post.pure rfl
  | succ n ih =>
    refine Post.bind (h inds i) fun r hr => ?_
    obtain ⟨b, out⟩ := r
    exact Post.ite (fun _ => Post.pure hr) fun _ => (ih (i + 1) out).mono fun _ ho => ho.trans hr

theorem swapSubtrees_length {sts : List (List Node)} {n : Nat} {inds out : List Ind} (h : swapSubtrees sts n inds = .ok out) :
    out.length = inds.length := by
  induction n generalizing inds with
  | zero => cases h; rfl
  | succ n ih =>
    unfold swapSubtrees at h
    split at h
    · cases h
    · rename_i ind _
      cases h1 : Py.get sts n with
      | error e => rw [h1] at h; cases h
      | ok old =>
        cases h2 : Py.get sts ((n : Int) - 1) with
        | error e => rw [h1, h2] at h; cases h
        | ok new =>
          cases h3 : replaceSubtree ind.tree old new with
          | error e => rw [h1, h2] at h; simp only [bind, Except.bind, h3] at h; cases h
          | ok t =>
            rw [h1, h2] at h
            simp only [bind, Except.bind, h3] at h
            rw [ih h, List.length_set]

theorem mapL_post_length {σ α β : Type} (f : α → PyM σ β) (xs : List α) : Post (mapL f xs) fun ys => ys.length = xs.length := by
  induction xs with
  | nil => exact Post.pure rfl
  | cons x xs ih => exact Post.bind Post.trivial fun _ _ => Post.bind ih fun _ h => Post.pure (by simp [h])

theorem filterMap_length {α : Type} {xs : List (Option α)} (h : none ∉ xs) : (xs.filterMap id).length = xs.length := by
  induction xs with
  | nil => rfl
  | cons x xs ih =>
    cases x with
    | none => simp at h
    | some x =>
      have := ih (fun hx => h (List.mem_cons_of_mem _ hx))
      show (x :: xs.filterMap id).length = _
      rw [List.length_cons, List.length_cons, this]

theorem mutateSubtrees_length (minDepth maxDepth : Nat) (xs : List (Ind × List Node)) :
    Post (mutateSubtrees minDepth maxDepth xs) fun out => out.length = xs.length := by
  induction xs with
  | nil => exact Post.pure rfl
  | cons x xs ih =>
    obtain ⟨ind, old⟩ := x
    unfold mutateSubtrees
    cases old with
    | nil => exact Post.raise
    | cons r tl =>
      exact Post.bind Post.trivial fun _ _ => Post.bind Post.trivial fun _ _ => Post.bind ih fun _ h => Post.pure (by simp [h])

theorem noiseLoop_length (mu sigma : ℚ) (xs : List (Ind × Nat)) :
    Post (noiseLoop mu sigma xs) fun out => out.length = xs.length := by
  induction xs with
  | nil => exact Post.pure rfl
  | cons x xs ih =>
    obtain ⟨ind, i⟩ := x
    unfold noiseLoop
    split
    · exact Post.bind Post.trivial fun _ _ => Post.bind Post.trivial fun _ _ => Post.bind Post.trivial fun _ _ =>
        Post.bind ih fun _ h => Post.pure (by simp [h])
    · exact Post.raise

theorem subtreeCrossover_length (arity attempts : Nat) (inds : List Ind) :
    Post (subtreeCrossover arity attempts inds) fun out => out.length = inds.length := by
  refine failableLoop_length (fun inds i => ?_) _ _ _
  unfold crossoverAttempt
  refine Post.ite (fun _ => Post.raise) fun _ => Post.bind Post.trivial fun st _ => ?_
  cases st with
  | none => exact Post.pure rfl
  | some sts =>
    exact Post.bind (Post.ofExcept fun out h => swapSubtrees_length h) fun out ho => Post.pure ho

theorem subtreeMutation_length (minDepth maxDepth attempts : Nat) (inds : List Ind) :
    Post (subtreeMutation minDepth maxDepth attempts inds) fun out => out.length = inds.length := by
  refine failableLoop_length (fun inds i => ?_) _ _ _
  unfold mutationAttempt
  refine Post.bind (mapL_post_length _ inds) fun olds ho => Post.ite (fun _ => Post.pure rfl) fun hn => ?_
  refine Post.bind (mutateSubtrees_length minDepth maxDepth _) fun out h => Post.pure ?_
  rw [h, List.length_zip, filterMap_length hn, ho, Nat.min_self]

theorem ercMutation_length (mu sigma : ℚ) (inds : List Ind) :
    Post (ercMutation mu sigma inds) fun out => out.length = inds.length := by
  refine failableLoop_length (fun inds i => ?_) _ _ _
  unfold ercAttempt
  refine Post.bind (mapL_post_length _ inds) fun olds ho => Post.ite (fun _ => Post.pure rfl) fun hn => ?_
  refine Post.bind (noiseLoop_length mu sigma _) fun out h => Post.pure ?_
  rw [h, List.length_zip, filterMap_length hn, ho, Nat.min_self]

/-- **C169: tree operators.**  The crossover and mutation objects for trees do to the individuals that they are given what
C05, C06, C07 and C08 say about the functions named here, and have the probability and the arity that they are made with. -/
theorem C169_tree_operators (p : ℚ) (arity attempts minDepth maxDepth : Nat) (mu sigma : ℚ) :
    (crossoverOp p arity attempts).Does (fun inds => (do let out ← subtreeCrossover arity attempts inds; pure (some out))) ∧
    (mutationOp p minDepth maxDepth attempts).Does
      (fun inds => (do let out ← subtreeMutation minDepth maxDepth attempts inds; pure (some out))) ∧
    (ercOp p arity mu sigma).Does (fun inds => (do let out ← ercMutation mu sigma inds; pure (some out))) ∧
    ((crossoverOp p arity attempts).probability = p ∧ (crossoverOp p arity attempts).arity = arity) ∧
    ((mutationOp p minDepth maxDepth attempts).probability = p ∧ (mutationOp p minDepth maxDepth attempts).arity = 1) ∧
    ((ercOp p arity mu sigma).probability = p ∧ (ercOp p arity mu sigma).arity = arity) :=
  ⟨Op.inPlace_does _ _ _ fun gs => Post.bind (subtreeCrossover_length arity attempts gs) fun out ho =>
      Post.pure (by rintro _ ⟨⟩; exact ho),
    Op.inPlace_does _ _ _ fun gs => Post.bind (subtreeMutation_length minDepth maxDepth attempts gs) fun out ho =>
      Post.pure (by rintro _ ⟨⟩; exact ho),
    Op.inPlace_does _ _ _ fun gs => Post.bind (ercMutation_length mu sigma gs) fun out ho =>
      Post.pure (by rintro _ ⟨⟩; exact ho), ⟨rfl, rfl⟩, ⟨rfl, rfl⟩, rfl, rfl⟩

/-- A world with two trees, of one and three nodes. -/
def twoTrees : World Ind :=
  ⟨[⟨0, 0, ⟨exSum, [.term ⟨0, .str "x"⟩ none]⟩, ⟨.none, false, true, false, true, none⟩, -1, [], [], true, []⟩,
    ⟨0, 1, ⟨exSum, [.func ⟨0, [none, none], none⟩, .term ⟨0, .str "x"⟩ none, .term ⟨0, .str "x"⟩ none]⟩,
      ⟨.none, false, true, false, true, none⟩, -1, [], [], true, []⟩], 2, fun n => n⟩

example := (C169_tree_operators 1 2 1 1 2 0 1).1 [0, 1] _ twoTrees (by simp) (.cons rfl (.cons rfl .nil))
example := (C169_tree_operators 1 2 1 1 2 0 1).2.1 [1] _ twoTrees (by simp) (.cons rfl .nil)

end Verif.GP

namespace Verif.Moo
open PyM
variable {G : Type}

/-- As `Evo.CreatesAs`, for the individuals of a run of NSGA-II; they all get the fitness `fit`. -/
def CreatesAsM (create : Nat → MM G (List Nat)) (g : Nat → Rand (List G)) (fit : Fit) : Prop :=
  ∀ n w, ∃ w', create n w = ((g n w.tape).1.map fun _ => List.range' w.next n, w') ∧ w'.tape = (g n w.tape).2 ∧
    (∀ x < w.next, w'.genome x = w.genome x ∧ w'.fits x = w.fits x) ∧
    ∀ gs, (g n w.tape).1 = .ok gs →
      w'.next = w.next + n ∧ (List.range' w.next n).map w'.genome = gs ∧ ∀ r ∈ List.range' w.next n, w'.fits r = fit

/-- `apply` of the operator computes the new genomes of the individuals it is given as `f` does, from the same draws, and
changes nothing else. -/
def MOp.Does (op : MOp G) (f : List G → Rand (Option (List G))) : Prop :=
  ∀ refs w, refs.Nodup → ∃ w', op.apply refs w = ((f (refs.map w.genome) w.tape).1.map (Option.map fun _ => refs), w') ∧
    w'.tape = (f (refs.map w.genome) w.tape).2 ∧ w'.fits = w.fits ∧ w'.next = w.next ∧
    (∀ x ∉ refs, w'.genome x = w.genome x) ∧ ∀ gs, (f (refs.map w.genome) w.tape).1 = .ok (some gs) → refs.map w'.genome = gs

theorem MOp.onGenomes_does (p : ℚ) (arity : Nat) {f : List G → Rand (Option (List G))}
    (hl : ∀ gs, Post (f gs) fun res => ∀ gs', res = some gs' → gs'.length = gs.length) : (MOp.onGenomes p arity f).Does f := by
  intro refs w hn
  rcases hf : f (refs.map w.genome) w.tape with ⟨o, t⟩
  have hr : mrand (f (refs.map w.genome)) w = (o, { w with tape := t }) := by simp [mrand, zoom, hf]
  have e : (MOp.onGenomes p arity f).apply refs w
      = (mrand (f (refs.map w.genome)) >>= fun r => match r with
        | none => PyM.pure none
        | some gs => putGenomesM refs gs >>= fun _ => PyM.pure (some refs)) w := rfl
  rw [e]
  cases o with
  | error x =>
    rw [bind_of_error hr]
    exact ⟨_, rfl, rfl, rfl, rfl, fun _ _ => rfl, by rintro _ ⟨⟩⟩
  | ok r =>
    rw [bind_of_ok hr]
    cases r with
    | none => exact ⟨_, rfl, rfl, rfl, rfl, fun _ _ => rfl, by rintro _ ⟨⟩⟩
    | some gs =>
      obtain ⟨w', e', h1, h2, h3, h4, h5⟩ := putGenomesM_run refs gs { w with tape := t } hn
        (by have := hl _ _ _ _ hf gs rfl; simpa using this)
      dsimp only
      rw [bind_of_ok e']
      exact ⟨w', rfl, h5, h3, h4, h2, by rintro _ ⟨⟩; exact h1⟩

/-- **C169 in NSGA-II: the operators.** -/
theorem C169_moo_operators (p : ℚ) (arity k attempts minDepth maxDepth : Nat) (mu sigma : ℚ) (c : GA.MutationClass) :
    (vecCrossover p arity k).Does (fun inds => (do let out ← GA.kPointApply k inds; PyM.pure (some out))) ∧
    (vecMutation p arity (c.op p)).Does (GA.npApply (c.op p)) ∧
    (treeCrossover p arity attempts).Does (fun inds => (do let out ← GP.subtreeCrossover arity attempts inds; PyM.pure (some out))) ∧
    (treeMutation p minDepth maxDepth attempts).Does
      (fun inds => (do let out ← GP.subtreeMutation minDepth maxDepth attempts inds; PyM.pure (some out))) ∧
    (ercMutationM p arity mu sigma).Does (fun inds => (do let out ← GP.ercMutation mu sigma inds; PyM.pure (some out))) ∧
    ((vecCrossover p arity k).probability = p ∧ (vecCrossover p arity k).arity = arity) ∧
    ((vecMutation p arity (c.op p)).probability = p ∧ (vecMutation p arity (c.op p)).arity = arity) ∧
    ((treeCrossover p arity attempts).probability = p ∧ (treeCrossover p arity attempts).arity = arity) ∧
    ((treeMutation p minDepth maxDepth attempts).probability = p ∧ (treeMutation p minDepth maxDepth attempts).arity = 1) ∧
    ((ercMutationM p arity mu sigma).probability = p ∧ (ercMutationM p arity mu sigma).arity = arity) :=
  ⟨MOp.onGenomes_does _ _ fun gs => Post.bind (GA.kPointApply_length k gs) fun out ho =>
      Post.pure (by rintro _ ⟨⟩; exact ho),
    MOp.onGenomes_does _ _ (GA.npApply_length c p),
    MOp.onGenomes_does _ _ fun gs => Post.bind (GP.subtreeCrossover_length arity attempts gs) fun out ho =>
      Post.pure (by rintro _ ⟨⟩; exact ho),
    MOp.onGenomes_does _ _ fun gs => Post.bind (GP.subtreeMutation_length minDepth maxDepth attempts gs) fun out ho =>
      Post.pure (by rintro _ ⟨⟩; exact ho),
    MOp.onGenomes_does _ _ fun gs => Post.bind (GP.ercMutation_length mu sigma gs) fun out ho =>
      Post.pure (by rintro _ ⟨⟩; exact ho), ⟨rfl, rfl⟩, ⟨rfl, rfl⟩, ⟨rfl, rfl⟩, ⟨rfl, rfl⟩, rfl, rfl⟩

theorem newAllM (empty : G) (fit : Fit) (xs : List Nat) (w : MWorld G) : ∃ w',
    mapL (fun (_ : Nat) => newM empty fit) xs w = (.ok (List.range' w.next xs.length), w') ∧
    w'.tape = w.tape ∧ w'.next = w.next + xs.length ∧ (∀ x < w.next, w'.genome x = w.genome x ∧ w'.fits x = w.fits x) ∧
    ∀ r ∈ List.range' w.next xs.length, w'.fits r = fit := by
  induction xs generalizing w with
  | nil => exact ⟨w, rfl, rfl, rfl, fun _ _ => ⟨rfl, rfl⟩, by simp⟩
  | cons x xs ih =>
    set w₁ : MWorld G := { w with
      fits := fun x => if x = w.next then fit else w.fits x
      genome := fun x => if x = w.next then empty else w.genome x
      next := w.next + 1 } with hw
    obtain ⟨w', h1, h2, h3, h4, h5⟩ := ih w₁
    have e : newM empty fit w = (.ok w.next, w₁) := rfl
    refine ⟨w', ?_, h2, by rw [h3]; simp [hw]; omega, fun y hy => ?_, ?_⟩
    · unfold mapL
      rw [bind_of_ok e, bind_of_ok h1]
      simp [List.range'_succ, hw]
    · obtain ⟨a, b⟩ := h4 y (by simp [hw]; omega)
      rw [a, b]
      simp [hw, show y ≠ w.next by omega]
    · intro r hr
      rw [List.length_cons, List.range'_succ, List.mem_cons] at hr
      rcases hr with rfl | hr
      · rw [(h4 w.next (by simp [hw])).2]
        simp [hw]
      · exact h5 r hr

theorem fillAllM (genome : Rand G) (refs : List Nat) (hn : refs.Nodup) (w : MWorld G) :
    ∃ w', forL (fun r => do
        let g ← mrand genome
        modify fun w => { w with genome := fun x => if x = r then g else w.genome x }) refs w
          = ((replicateM refs.length genome w.tape).1.map fun _ => (), w') ∧
      w'.tape = (replicateM refs.length genome w.tape).2 ∧ w'.next = w.next ∧ w'.fits = w.fits ∧
      (∀ x ∉ refs, w'.genome x = w.genome x) ∧
      ∀ gs, (replicateM refs.length genome w.tape).1 = .ok gs → refs.map w'.genome = gs := by
  induction refs generalizing w with
  | nil => exact ⟨w, rfl, rfl, rfl, rfl, fun _ _ => rfl, by rintro _ ⟨⟩; rfl⟩
  | cons r rs ih =>
    rw [List.nodup_cons] at hn
    rcases hg : genome w.tape with ⟨o, t⟩
    have er : (mrand genome : MM G G) w = (o, { w with tape := t }) := by simp [mrand, zoom, hg]
    unfold forL
    rw [List.length_cons, replicateM]
    cases o with
    | error e =>
      rw [bind_of_error hg, bind_of_error (bind_of_error er)]
      exact ⟨_, rfl, rfl, rfl, rfl, fun _ _ => rfl, by rintro _ ⟨⟩⟩
    | ok g =>
      set w₁ : MWorld G := { w with tape := t, genome := fun x => if x = r then g else w.genome x } with hw
      have e1 : (do
          let g ← mrand genome
          modify fun w => { w with genome := fun x => if x = r then g else w.genome x } : MM G Unit) w = (.ok (), w₁) := by
        rw [bind_of_ok er]; rfl
      rw [bind_of_ok hg, bind_of_ok e1]
      obtain ⟨w', h1, h2, h3, h4, h5, h6⟩ := ih hn.2 w₁
      have ht : w₁.tape = t := rfl
      rw [ht] at h1 h2 h6
      rcases hr : replicateM rs.length genome t with ⟨o, t'⟩
      rw [hr] at h1 h2 h6
      have hun : ∀ x ∉ r :: rs, w'.genome x = w.genome x := fun x hx => by
        rw [List.mem_cons, not_or] at hx
        rw [h5 x hx.2]
        simp [hw, hx.1]
      cases o with
      | error e =>
        rw [bind_of_error hr]
        exact ⟨w', h1, h2, h3, h4, hun, by rintro _ ⟨⟩⟩
      | ok gs =>
        rw [bind_of_ok hr]
        refine ⟨w', h1, h2, h3, h4, hun, ?_⟩
        rintro _ ⟨⟩
        rw [List.map_cons, h6 gs rfl, h5 r hn.1]
        simp [hw]

theorem createM_makes (empty : G) (genome : Rand G) (fit : Fit) :
    CreatesAsM (createM empty genome fit) (fun n => replicateM n genome) fit := by
  intro n w
  obtain ⟨w₁, a1, a2, a3, a4, a5⟩ := newAllM empty fit (List.range n) w
  rw [List.length_range] at a1 a3 a5
  obtain ⟨w₂, b1, b2, b3, b4, b5, b6⟩ := fillAllM genome (List.range' w.next n) List.nodup_range' w₁
  rw [List.length_range', a2] at b1 b2 b6
  unfold createM
  rw [bind_of_ok a1]
  dsimp only
  rcases hr : replicateM n genome w.tape with ⟨o, t⟩
  rw [hr] at b1 b2 b6
  refine ⟨w₂, ?_, b2, fun x hx => ?_, ?_⟩
  · cases o with
    | error e => rw [bind_of_error b1]; rfl
    | ok gs => rw [bind_of_ok b1]; rfl
  · rw [b4, b5 x (by simp; omega)]
    exact a4 x hx
  · intro gs h
    exact ⟨by rw [b3, a3], b6 gs h, by rw [b4]; exact a5⟩

/-- **C169 in NSGA-II: vector creators.** -/
theorem C169_moo_vectors (kind : GA.Kind) (length : Nat) (bounds : GA.Bounds) (fit : Fit) :
    CreatesAsM (vecCreator kind length bounds fit) (GA.createIndividuals kind length bounds GA.defaultGeneCreator) fit := by
  intro n w
  cases hb : bounds.accepted length with
  | true =>
    obtain ⟨w', h1, h2, h3, h4⟩ := createM_makes ⟨kind, bounds, length, []⟩
      (GA.createVector length GA.defaultGeneCreator ⟨kind, bounds, length, []⟩) fit n w
    have e : GA.createIndividuals kind length bounds GA.defaultGeneCreator n w.tape
        = replicateM n (GA.createVector length GA.defaultGeneCreator ⟨kind, bounds, length, []⟩) w.tape := by
      unfold GA.createIndividuals
      have hm : GA.mkVec kind bounds length none = .ok ⟨kind, bounds, length, []⟩ := by simp [GA.mkVec, hb]
      rw [hm, bind_of_ok (GA.replicateM_ok _ n w.tape), GA.mapL_replicate]
    rw [e]
    refine ⟨w', ?_, h2, h3, h4⟩
    unfold vecCreator
    rw [hb]
    simpa using h1
  | false =>
    cases n with
    | zero =>
      refine ⟨w, ?_, rfl, fun _ _ => ⟨rfl, rfl⟩, ?_⟩
      · unfold vecCreator; rw [if_neg (by simp)]; rfl
      · rintro _ ⟨⟩; exact ⟨rfl, rfl, by simp⟩
    | succ n =>
      have e : GA.createIndividuals kind length bounds GA.defaultGeneCreator (n + 1) w.tape = (.error .valueError, w.tape) := by
        unfold GA.createIndividuals
        have hm : GA.mkVec kind bounds length none = .error .valueError := by simp [GA.mkVec, hb]
        rw [hm]
        refine bind_of_error ?_
        rw [replicateM]
        exact bind_of_error rfl
      rw [e]
      refine ⟨w, ?_, rfl, fun _ _ => ⟨rfl, rfl⟩, by simp⟩
      unfold vecCreator
      rw [hb, if_pos (by simp)]
      rfl

/-- **C169 in NSGA-II: tree creators.** -/
theorem C169_moo_trees (c : GP.Cfg) (pPrune : ℚ) (minDepth maxDepth : Nat) (fit : Fit) :
    CreatesAsM (fullM c maxDepth fit) (GP.createIndividuals c (GP.fullCreate c maxDepth c.rootType)) fit ∧
    CreatesAsM (growM c pPrune minDepth maxDepth fit)
      (GP.createIndividuals c (GP.growCreate c pPrune minDepth maxDepth c.rootType)) fit :=
  ⟨createM_makes _ _ fit, createM_makes _ _ fit⟩

theorem halfGroupsM_makes (c : GP.Cfg) (pPrune : ℚ) (minDepth k : Nat) (fit : Fit) (ds : List Nat) (w : MWorld GP.Ind) :
    ∃ w', halfGroupsM (fun d => growM c pPrune minDepth d fit) (fun d => fullM c d fit) k ds w
        = ((GP.halfLoop c pPrune minDepth k ds w.tape).1.map fun _ => List.range' w.next (2 * k * ds.length), w') ∧
    w'.tape = (GP.halfLoop c pPrune minDepth k ds w.tape).2 ∧
    (∀ x < w.next, w'.genome x = w.genome x ∧ w'.fits x = w.fits x) ∧
    ∀ gs, (GP.halfLoop c pPrune minDepth k ds w.tape).1 = .ok gs → w'.next = w.next + 2 * k * ds.length ∧
      (List.range' w.next (2 * k * ds.length)).map w'.genome = gs ∧ ∀ r ∈ List.range' w.next (2 * k * ds.length), w'.fits r = fit := by
  induction ds generalizing w with
  | nil => exact ⟨w, rfl, rfl, fun _ _ => ⟨rfl, rfl⟩, by rintro _ ⟨⟩; exact ⟨rfl, rfl, by simp⟩⟩
  | cons d ds ih =>
    obtain ⟨w₁, a1, a2, a3, a4⟩ := (C169_moo_trees c pPrune minDepth d fit).2 k w
    unfold halfGroupsM GP.halfLoop
    rcases ha : GP.createIndividuals c (GP.growCreate c pPrune minDepth d c.rootType) k w.tape with ⟨_ | ga, ta⟩
    · rename_i e
      rw [ha] at a1 a2
      rw [bind_of_error ha, bind_of_error a1]
      exact ⟨w₁, rfl, a2, a3, by simp⟩
    rw [ha] at a1 a2 a4
    obtain ⟨l1, o1, f1⟩ := a4 ga rfl
    rw [bind_of_ok ha, bind_of_ok a1]
    obtain ⟨w₂, b1, b2, b3, b4⟩ := (C169_moo_trees c pPrune minDepth d fit).1 k w₁
    rw [a2] at b1 b2 b4
    rcases hb : GP.createIndividuals c (GP.fullCreate c d c.rootType) k ta with ⟨_ | gb, tb⟩
    · rename_i e
      rw [hb] at b1 b2
      rw [bind_of_error hb, bind_of_error b1]
      exact ⟨w₂, rfl, b2, fun x hx => by rw [(b3 x (by omega)).1, (b3 x (by omega)).2]; exact a3 x hx, by simp⟩
    rw [hb] at b1 b2 b4
    obtain ⟨l2, o2, f2⟩ := b4 gb rfl
    rw [bind_of_ok hb, bind_of_ok b1]
    obtain ⟨w₃, c1, c2, c3, c4⟩ := ih w₂
    rw [b2] at c1 c2 c4
    have hun : ∀ x < w.next, w₃.genome x = w.genome x ∧ w₃.fits x = w.fits x := fun x hx => by
      rw [(c3 x (by omega)).1, (c3 x (by omega)).2, (b3 x (by omega)).1, (b3 x (by omega)).2]; exact a3 x hx
    rcases hc : GP.halfLoop c pPrune minDepth k ds tb with ⟨_ | gc, tc⟩
    · rename_i e
      rw [hc] at c1 c2
      rw [bind_of_error hc, bind_of_error c1]
      exact ⟨w₃, rfl, c2, hun, by simp⟩
    rw [hc] at c1 c2 c4
    obtain ⟨l3, o3, f3⟩ := c4 gc rfl
    rw [bind_of_ok hc, bind_of_ok c1]
    have hlen : w.next + 2 * k * (ds.length + 1) = w₂.next + 2 * k * ds.length := by rw [l2, l1]; ring
    have hr : List.range' w.next k ++ List.range' w₁.next k ++ List.range' w₂.next (2 * k * ds.length)
        = List.range' w.next (2 * k * (ds.length + 1)) := by
      rw [l2, l1, List.range'_append_1, show w.next + k + k = w.next + (k + k) by omega, List.range'_append_1]
      congr 1
      ring
    have m1 : ∀ r ∈ List.range' w.next k, w₃.genome r = w₁.genome r ∧ w₃.fits r = w₁.fits r := fun r hr => by
      have : r < w₁.next := by have := List.mem_range'_1.1 hr; omega
      rw [(c3 r (by omega)).1, (c3 r (by omega)).2]; exact b3 r this
    have m2 : ∀ r ∈ List.range' w₁.next k, w₃.genome r = w₂.genome r ∧ w₃.fits r = w₂.fits r := fun r hr => by
      exact c3 r (by have := List.mem_range'_1.1 hr; omega)
    refine ⟨w₃, ?_, c2, hun, ?_⟩
    · simp only [List.length_cons]
      rw [← hr]
      rfl
    · rintro _ ⟨⟩
      simp only [List.length_cons]
      refine ⟨by rw [l3, ← hlen], ?_, ?_⟩
      · rw [← hr, List.map_append, List.map_append, o3, List.map_congr_left fun r h => (m1 r h).1, o1,
          List.map_congr_left fun r h => (m2 r h).1, o2]
      · rw [← hr]
        intro r h
        rcases List.mem_append.1 h with h | h
        · rcases List.mem_append.1 h with h | h
          · rw [(m1 r h).2]; exact f1 r h
          · rw [(m2 r h).2]; exact f2 r h
        · exact f3 r h

/-- **C169 in NSGA-II: the ramped half-and-half creator.** -/
theorem C169_moo_half (c : GP.Cfg) (pPrune : ℚ) (minDepth maxDepth : Nat) (h : minDepth ≤ maxDepth) (fit : Fit) :
    CreatesAsM (halfAndHalfM c pPrune minDepth maxDepth fit) (GP.halfCreate c pPrune minDepth maxDepth) fit := by
  intro n w
  obtain ⟨d, hd⟩ : ∃ d, maxDepth + 1 - minDepth = d + 1 := ⟨maxDepth - minDepth, by omega⟩
  have hz : (2 * ((maxDepth : Int) + 1 - minDepth)) = ((2 * (d + 1) : Nat) : Int) := by omega
  have hq : Int.tdiv (n : Int) ((2 * (d + 1) : Nat) : Int) = ((n / (2 * (d + 1)) : Nat) : Int) := by
    rw [Int.tdiv_eq_ediv_of_nonneg (by omega)]; rfl
  unfold halfAndHalfM halfM GP.halfCreate
  rw [hz, hq, hd]
  dsimp only
  rw [if_neg (show ¬ ((2 * (d + 1) : Nat) : Int) = 0 by omega)]
  by_cases hg : n / (2 * (d + 1)) = 0
  · rw [if_pos hg, if_pos (show ((n / (2 * (d + 1)) : Nat) : Int) = 0 by omega)]
    exact ⟨w, rfl, rfl, fun _ _ => ⟨rfl, rfl⟩, by rintro _ ⟨⟩⟩
  rw [if_neg hg, if_neg (show ¬ ((n / (2 * (d + 1)) : Nat) : Int) = 0 by omega)]
  have hds : (List.range (d + 1)).map (minDepth + ·) = List.range' minDepth (d + 1) := by
    rw [List.range'_eq_map_range]
  rw [hds, Int.toNat_natCast]
  set k := n / (2 * (d + 1)) with hk
  obtain ⟨w₁, a1, a2, a3, a4⟩ := halfGroupsM_makes c pPrune minDepth k fit (List.range' minDepth (d + 1)) w
  rw [List.length_range'] at a1 a4
  rcases ha : GP.halfLoop c pPrune minDepth k (List.range' minDepth (d + 1)) w.tape with ⟨_ | ga, ta⟩
  · rename_i e
    rw [ha] at a1 a2
    rw [bind_of_error ha, bind_of_error a1]
    exact ⟨w₁, rfl, a2, a3, by rintro _ ⟨⟩⟩
  rw [ha] at a1 a2 a4
  obtain ⟨l1, o1, f1⟩ := a4 ga rfl
  rw [bind_of_ok ha, bind_of_ok a1]
  have hlen : ga.length = 2 * k * (d + 1) := by rw [← o1, List.length_map, List.length_range']
  have hle : 2 * k * (d + 1) ≤ n := by
    have := Nat.div_mul_le_self n (2 * (d + 1))
    rw [← hk] at this
    calc 2 * k * (d + 1) = k * (2 * (d + 1)) := by ring
      _ ≤ n := this
  rw [hlen, List.length_range']
  by_cases hm : 2 * k * (d + 1) < n
  · rw [if_pos (by omega), if_pos (by omega)]
    have e1 : minDepth + (d + 1) - 1 = maxDepth := by omega
    have e2 : ((n : Int) - (2 * k * (d + 1) : Nat)).toNat = n - 2 * k * (d + 1) := by omega
    rw [e1, e2]
    obtain ⟨w₂, b1, b2, b3, b4⟩ := (C169_moo_trees c pPrune minDepth maxDepth fit).1 (n - 2 * k * (d + 1)) w₁
    rw [a2] at b1 b2 b4
    have hun : ∀ x < w.next, w₂.genome x = w.genome x ∧ w₂.fits x = w.fits x := fun x hx => by
      rw [(b3 x (by omega)).1, (b3 x (by omega)).2]; exact a3 x hx
    rcases hb : GP.createIndividuals c (GP.fullCreate c maxDepth c.rootType) (n - 2 * k * (d + 1)) ta with ⟨_ | gb, tb⟩
    · rename_i e
      rw [hb] at b1 b2
      rw [bind_of_error hb, bind_of_error b1]
      exact ⟨w₂, rfl, b2, hun, by rintro _ ⟨⟩⟩
    rw [hb] at b1 b2 b4
    obtain ⟨l2, o2, f2⟩ := b4 gb rfl
    rw [bind_of_ok hb, bind_of_ok b1]
    have hr : List.range' w.next (2 * k * (d + 1)) ++ List.range' w₁.next (n - 2 * k * (d + 1)) = List.range' w.next n := by
      rw [l1, List.range'_append_1]
      congr 1
      omega
    have m1 : ∀ r ∈ List.range' w.next (2 * k * (d + 1)), w₂.genome r = w₁.genome r ∧ w₂.fits r = w₁.fits r := fun r hr => by
      exact b3 r (by have := List.mem_range'_1.1 hr; omega)
    refine ⟨w₂, ?_, b2, hun, ?_⟩
    · rw [← hr]; rfl
    · rintro _ ⟨⟩
      refine ⟨by rw [l2, l1]; omega, ?_, ?_⟩
      · rw [← hr, List.map_append, o2, List.map_congr_left fun r h => (m1 r h).1, o1]
      · rw [← hr]
        intro r h
        rcases List.mem_append.1 h with h | h
        · rw [(m1 r h).2]; exact f1 r h
        · exact f2 r h
  · have he : 2 * k * (d + 1) = n := by omega
    rw [if_neg (by omega), if_neg (by omega)]
    rw [he] at l1 o1 f1
    refine ⟨w₁, by rw [he]; rfl, a2, a3, ?_⟩
    rintro _ ⟨⟩
    exact ⟨l1, o1, f1⟩

/-- No individuals yet. -/
def noneYet {G : Type} (g : G) : MWorld G := ⟨fun _ => ⟨none, .same true, true, false, .fin 0, none⟩, fun _ => g, 0, fun n => 3 * n⟩

example := C169_moo_half GP.exSum (1 / 2) 1 2 (by omega) ⟨none, .same true, true, false, .fin 0, none⟩ 5
  (noneYet ⟨GP.exSum, []⟩)
example := (C169_moo_trees GP.exSum (1 / 2) 1 2 ⟨none, .same true, true, false, .fin 0, none⟩).1 5 (noneYet ⟨GP.exSum, []⟩)
example := C169_moo_vectors .int 3 (.tup [0, 9]) ⟨none, .same true, true, false, .fin 0, none⟩ 2
  (noneYet ⟨.int, .tup [0, 9], 3, []⟩)
example := (C169_moo_operators 1 2 1 1 1 2 0 1 .floatUniformOne).1 [0, 1] (noneYet ⟨.int, .tup [0, 9], 3, [1, 2, 3]⟩) (by simp)

/-- Bounds with three numbers. -/
example : (vecCreator .int 3 (.tup [0, 1, 2]) ⟨none, .same true, true, false, .fin 0, none⟩ 2
    (noneYet ⟨.int, .tup [0, 9], 3, []⟩)).1 = .error .valueError := by decide +kernel

end Verif.Moo
