import Verif.Props.Lineage

/-! # C92: the names in `applied_operators`, and C31: every sub-population is bred -/

namespace Verif.Evo
open PyM
variable {G : Type}

/-- `applied_operators` of the individual at `r`. -/
def appliedAt (s : World G) (r : Nat) : Option (List String) := (s.heap[r]?).map (·.appliedOps)

theorem appliedAt_eq (s : World G) (r : Nat) : appliedAt s r = (papersAt s.heap r).map (·.appliedOps) := by
  unfold appliedAt papersAt
  rw [Option.map_map]
  rfl

/-- The call of the operator appends one of the given lists of names to `applied_operators` of every individual it is called
with, and to that of no other, if it fires; nothing if it does not. -/
def Op.Adds (o : Op G) (lists : List (List String)) : Prop :=
  ∀ inds : List Nat, inds.Nodup → ∀ s : World G, ∀ u t, Rand.random s.tape = (.ok u, t) →
    wlp (applyOperator o inds) (fun _ s' => ∃ names ∈ lists, ∀ r, appliedAt s' r =
      (appliedAt s r).map fun l => if u ≤ o.probability ∧ r ∈ inds then l ++ names else l) s

theorem Op.Discloses.adds {o : Op G} {hs : List (Op G)} (ho : o.Discloses hs) {lists : List (List String)}
    (hl : ∀ h : List (Op G), h.Sublist hs → (h ++ [o]).map (·.name) ∈ lists) : o.Adds lists := by
  intro inds hn s u t hu
  by_cases hp : u ≤ o.probability
  · refine (applyOperator_signs ho hn hu hp).mono ?_
    rintro res s' ⟨-, h, hh, h2⟩
    refine ⟨_, hl h hh, fun r => ?_⟩
    rw [appliedAt_eq, appliedAt_eq, h2 r, Option.map_map, Option.map_map]
    congr 1
    funext p
    simp only [Function.comp, hp, true_and]
    split <;> rfl
  · intro res s' h
    have hr : (rand Rand.random : WM G ℚ) s = (.ok u, { s with tape := t }) := by simp [rand, zoom, hu]
    unfold applyOperator at h
    rw [bind_of_ok hr, if_neg hp] at h
    cases h
    refine ⟨_, hl [] (List.nil_sublist _), fun r => ?_⟩
    show appliedAt s r = _
    simp [hp]

theorem Op.Discreet.adds {o : Op G} (ho : o.Discreet) : o.Adds [[o.name]] :=
  ho.discloses.adds fun h hh => by
    rw [List.sublist_nil.1 hh]
    simp

/-! ## Every sub-population is bred -/

/-- **C31, all.** `SimpleBreeder` breeds all sub-populations: each gets as many individuals as before, all of them new
objects, and no individual that existed before is touched. -/
theorem C31_all {size : G → Nat} {m : Mode} (pairs : List (SubCfg G × Option (List Nat))) (s : World G)
    (hsel : ∀ p ∈ pairs, ∃ sel rest, p.1.sels = sel :: rest ∧ sel.Good ∧ sel.Fills)
    (hops : ∀ p ∈ pairs, ∀ o ∈ p.1.ops, o.Good)
    (hind : ∀ p ∈ pairs, ∀ is, p.2 = some is → Valid s is ∧ ∀ r ∈ is, modeAt s r = some m) :
    wlp (breedAll size pairs) (fun res s' => (∀ r, r < s.heap.length → s'.heap[r]? = s.heap[r]?) ∧
      s.heap.length ≤ s'.heap.length ∧
      List.Forall₂ (fun (p : SubCfg G × Option (List Nat)) (q : Option (List Nat)) => ∃ is is', p.2 = some is ∧ q = some is' ∧ is'.length = is.length ∧ is'.Nodup ∧
        ∀ r ∈ is', s.heap.length ≤ r ∧ r < s'.heap.length) pairs res) s := by
  induction pairs generalizing s with
  | nil => unfold breedAll; rw [wlp_pure]; exact ⟨fun _ _ => rfl, le_refl _, .nil⟩
  | cons p pairs ih =>
    obtain ⟨c, o⟩ := p
    cases o with
    | none => unfold breedAll; simp
    | some is =>
      unfold breedAll
      rw [wlp_bind]
      obtain ⟨sel, rest, h1, h2, h3⟩ := hsel _ (List.mem_cons_self ..)
      obtain ⟨h4, h5⟩ := hind _ (List.mem_cons_self ..) is rfl
      refine (C31_size h1 h2 h3 (hops _ (List.mem_cons_self ..)) h4 h5).mono ?_
      rintro is' s₁ ⟨g1, g2, g3, g4, -⟩
      have hle : s.heap.length ≤ s₁.heap.length := by
        by_contra hlt
        have := g4 s₁.heap.length (by omega)
        rw [List.getElem?_eq_none (le_refl _), eq_comm, List.getElem?_eq_none_iff] at this
        omega
      rw [wlp_bind]
      refine (ih s₁ (fun p hp => hsel p (List.mem_cons_of_mem _ hp)) (fun p hp => hops p (List.mem_cons_of_mem _ hp)) ?_).mono ?_
      · intro p hp js hj
        obtain ⟨h6, h7⟩ := hind p (List.mem_cons_of_mem _ hp) js hj
        refine ⟨fun r hr => lt_of_lt_of_le (h6 r hr) hle, fun r hr => ?_⟩
        rw [← h7 r hr]
        unfold modeAt
        rw [g4 r (h6 r hr)]
      · rintro rest' s₂ ⟨k1, k2, k3⟩
        rw [wlp_pure]
        refine ⟨fun r hr => (k1 r (by omega)).trans (g4 r hr), by omega, .cons ⟨is, is', rfl, rfl, g1, g2, fun r hr => ⟨(g3 r hr).1, ?_⟩⟩ ?_⟩
        · have := (g3 r hr).2
          omega
        · refine k3.imp ?_
          rintro p q ⟨a, b, e1, e2, e3, e4, e5⟩
          exact ⟨a, b, e1, e2, e3, e4, fun r hr => ⟨hle.trans (e5 r hr).1, (e5 r hr).2⟩⟩

/-- Two sub-populations of three: all six individuals are replaced. -/
theorem exBreedAll : (breedAll (fun _ => 1) [(exSub, some [0, 1, 2]), (exSub, some [2, 0, 1])] exWorld).1 =
    .ok [some [3, 4, 5], some [6, 7, 8]] := by decide +kernel

example := C31_all (size := fun _ => 1) (m := ⟨true, none⟩) [(exSub, some [0, 1, 2]), (exSub, some [2, 0, 1])] exWorld
  (by
    intro p hp
    simp only [List.mem_cons, List.not_mem_nil, or_false] at hp
    rcases hp with rfl | rfl <;> exact ⟨_, _, rfl, tournament_good _ _, tournament_fills _ _⟩)
  (by
    intro p hp o ho
    simp only [List.mem_cons, List.not_mem_nil, or_false] at hp
    rcases hp with rfl | rfl <;>
    · simp only [exSub, List.mem_singleton] at ho
      subst ho
      exact Op.inPlace_good _ _ _ _)
  (by
    intro p hp is hi
    simp only [List.mem_cons, List.not_mem_nil, or_false] at hp
    rcases hp with rfl | rfl <;>
    · simp only [Option.some.injEq] at hi
      subst hi
      constructor
      · intro r hr
        revert r
        decide
      · intro r hr
        revert r
        decide +kernel)

end Verif.Evo

namespace Verif.GP
open Verif.Evo

/-- **C92, trees.** The tree operators sign with the names of their classes. -/
theorem C92_tree_names (p mu sigma : ℚ) (arity attempts minDepth maxDepth : Nat) :
    (crossoverOp p arity attempts).Adds [["SubtreeCrossover"]] ∧
    (mutationOp p minDepth maxDepth attempts).Adds [["SubtreeMutation"]] ∧
    (ercOp p arity mu sigma).Adds [["ERCMutation"]] :=
  ⟨(LibOp.crossover p arity attempts).discreet.adds, (LibOp.mutation p minDepth maxDepth attempts).discreet.adds,
    (LibOp.erc p arity mu sigma).discreet.adds⟩

end Verif.GP

namespace Verif.GA
open Verif.Evo

/-- **C92, vectors.** The vector operators sign with the names of their classes; a Gaussian mutation all of whose attempts
failed is preceded by the uniform mutation it resorted to. -/
theorem C92_vector_names (p mu sigma q : ℚ) (arity k n attempts : Nat) :
    (crossoverOp p arity k).Adds [["VectorKPointsCrossover"]] ∧
    (MutationClass.floatUniformOne.asOp p arity).Adds [["FloatVectorUniformOnePointMutation"]] ∧
    ((MutationClass.floatUniformN n).asOp p arity).Adds [["FloatVectorUniformNPointMutation"]] ∧
    ((MutationClass.floatGaussOne mu sigma attempts).asOp p arity).Adds [["FloatVectorGaussOnePointMutation"],
      ["FloatVectorUniformOnePointMutation", "FloatVectorGaussOnePointMutation"]] ∧
    ((MutationClass.floatGaussN n mu sigma attempts).asOp p arity).Adds [["FloatVectorGaussNPointMutation"],
      ["FloatVectorUniformNPointMutation", "FloatVectorGaussNPointMutation"]] ∧
    ((MutationClass.intOne q).asOp p arity).Adds [["IntVectorOnePointMutation"]] ∧
    ((MutationClass.intN n).asOp p arity).Adds [["IntVectorNPointMutation"]] ∧
    (MutationClass.bitFlip.asOp p arity).Adds [["BitStringVectorFlipMutation"]] ∧
    ((MutationClass.bitNFlip n q).asOp p arity).Adds [["BitStringVectorNFlipMutation"]] := by
  have two : ∀ (h : List (Op Vec)) (a b : Op Vec), h.Sublist [a] → (h ++ [b]).map (·.name) ∈ [[b.name], [a.name, b.name]] := by
    intro h a b hh
    cases hh with
    | cons _ h' => rw [List.sublist_nil.1 h']; simp
    | cons_cons _ h' => rw [List.sublist_nil.1 h']; simp
  refine ⟨(Op.inPlace_discreet _ _ _ _).adds, (Op.inPlace_discreet _ _ _ _).adds, (Op.inPlace_discreet _ _ _ _).adds, ?_, ?_,
    (Op.inPlace_discreet _ _ _ _).adds, (Op.inPlace_discreet _ _ _ _).adds, (Op.inPlace_discreet _ _ _ _).adds,
    (Op.inPlace_discreet _ _ _ _).adds⟩
  · exact ((MutationClass.floatGaussOne mu sigma attempts).discloses p arity).adds fun h hh => two h _ _ hh
  · exact ((MutationClass.floatGaussN n mu sigma attempts).discloses p arity).adds fun h hh => two h _ _ hh

end Verif.GA
