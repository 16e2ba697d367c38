import Verif.Lemmas.Free

/-! # The tree operators of the library draw freely -/

namespace Verif.GP
open PyM

theorem randomSubtree_free (fs : List Fn) (tree : List Node) (τ : Option Ty) : FreeRand (randomSubtree fs tree τ) :=
  Free.ite (fun _ => Free.pure _) fun _ => (FreeRand.choice _).bind fun _ => (Free.ofExcept _).bind fun _ => Free.pure _

theorem randomFunction_free (c : Cfg) (τ : Option Ty) : FreeRand (randomFunction c τ) :=
  Free.ite (fun _ => Free.pure _) fun _ => (FreeRand.choice _).bind fun _ => (Free.ofExcept _).bind fun _ => Free.pure _

theorem drawErc_free (e : Erc) : FreeRand (drawErc e) :=
  Free.ite (fun _ => (FreeRand.uniform _ _).bind fun _ => FreeRand.next.bind fun _ => Free.pure _)
    fun _ => (FreeRand.randint _ _).bind fun _ => FreeRand.next.bind fun _ => Free.pure _

theorem relevantTerminals_free (c : Cfg) (τ : Option Ty) : FreeRand (relevantTerminals c τ) := by
  unfold relevantTerminals
  dsimp only
  split
  · exact Free.ite (fun _ => (drawErc_free _).bind fun _ => Free.pure _) fun _ => Free.pure _
  · exact Free.pure _

theorem randomTerminal_free (c : Cfg) (τ : Option Ty) : FreeRand (randomTerminal c τ) :=
  (relevantTerminals_free c τ).bind fun _ => Free.ite (fun _ => Free.pure _) fun _ => (FreeRand.choice _).bind fun _ => Free.pure _

theorem assertNode_free (n : Option Node) : FreeRand (assertNode n) := by
  unfold assertNode
  split
  · exact Free.raise _
  · exact Free.pure _

theorem createArgs_free {create : Option Ty → Rand (List Node)} (h : ∀ τ, FreeRand (create τ)) (ts : List (Option Ty)) :
    FreeRand (createArgs create ts) := by
  induction ts with
  | nil => exact Free.pure _
  | cons t ts ih => exact (h t).bind fun _ => ih.bind fun _ => Free.pure _

theorem leaf_free (c : Cfg) (τ : Option Ty) : FreeRand (do
    let n ← randomTerminal c τ
    let n ← assertNode n
    pure [n] : Rand (List Node)) :=
  (randomTerminal_free c τ).bind fun _ => (assertNode_free _).bind fun _ => Free.pure _

theorem growTree_free (c : Cfg) (q : ℚ) (fuel need rem : Nat) (τ : Option Ty) : FreeRand (growTree c q fuel need rem τ) := by
  induction fuel generalizing need rem τ with
  | zero => exact leaf_free c τ
  | succ fuel ih =>
    unfold growTree
    refine Free.bind (Free.ite (fun _ => Free.pure _) fun _ => Free.ite (fun _ => Free.pure _)
      fun _ => FreeRand.random.bind fun _ => Free.pure _) fun isFunc => ?_
    refine Free.ite (fun _ => ?_) fun _ => leaf_free c τ
    refine (randomFunction_free c τ).bind fun _ => (assertNode_free _).bind fun n => ?_
    cases n with
    | func f => exact (createArgs_free (fun τ => ih _ _ τ) _).bind fun _ => Free.pure _
    | term v t => exact Free.raise _

theorem mutateSubtrees_free (lo hi : Nat) (l : List (Ind × List Node)) : FreeRand (mutateSubtrees lo hi l) := by
  induction l with
  | nil => exact Free.pure _
  | cons x l ih =>
    obtain ⟨ind, old⟩ := x
    cases old with
    | nil => exact Free.raise _
    | cons r tl =>
      exact (growTree_free _ _ _ _ _ _).bind fun _ => (Free.ofExcept _).bind fun _ => ih.bind fun _ => Free.pure _

theorem subtreeMutation_free (lo hi attempts : Nat) (inds : List Ind) : FreeRand (subtreeMutation lo hi attempts inds) := by
  refine Free.failable (fun a _ => ?_) (fun a => Free.pure _) _ _
  exact (Free.mapL (fun _ => randomSubtree_free _ _ _) _).bind fun _ => Free.ite (fun _ => Free.pure _)
    fun _ => (mutateSubtrees_free _ _ _).bind fun _ => Free.pure _

theorem pickSubtrees_free (inds : List Ind) : FreeRand (pickSubtrees inds) := by
  cases inds with
  | nil => exact Free.raise _
  | cons i rest =>
    refine (randomSubtree_free _ _ _).bind fun first => ?_
    match first with
    | none => exact Free.pure _
    | some [] => exact Free.raise _
    | some (r :: tl) =>
      exact (Free.mapL (fun _ => randomSubtree_free _ _ _) _).bind fun _ => Free.ite (fun _ => Free.pure _) fun _ => Free.pure _

theorem subtreeCrossover_free (arity attempts : Nat) (inds : List Ind) : FreeRand (subtreeCrossover arity attempts inds) := by
  refine Free.failable (fun a _ => ?_) (fun a => Free.pure _) _ _
  refine Free.ite (fun _ => Free.raise _) fun _ => (pickSubtrees_free a).bind fun sts => ?_
  cases sts with
  | none => exact Free.pure _
  | some sts => exact (Free.ofExcept _).bind fun _ => Free.pure _

theorem noiseLoop_free (mu sigma : ℚ) (l : List (Ind × Nat)) : FreeRand (noiseLoop mu sigma l) := by
  induction l with
  | nil => exact Free.pure _
  | cons x l ih =>
    obtain ⟨ind, i⟩ := x
    unfold noiseLoop
    split
    · exact (FreeRand.gauss _ _).bind fun _ => FreeRand.next.bind fun _ => (Free.ofExcept _).bind fun _ =>
        ih.bind fun _ => Free.pure _
    · exact Free.raise _

theorem ercMutation_free (mu sigma : ℚ) (inds : List Ind) : FreeRand (ercMutation mu sigma inds) := by
  refine Free.failable (fun a _ => ?_) (fun a => Free.pure _) _ _
  refine (Free.mapL (fun _ => ?_) _).bind fun _ => Free.ite (fun _ => Free.pure _)
    fun _ => (noiseLoop_free _ _ _).bind fun _ => Free.pure _
  exact Free.ite (fun _ => Free.pure _) fun _ => (FreeRand.choice _).bind fun _ => Free.pure _

open Evo in
/-- The tree operators of the library draw freely. -/
theorem LibOp.free {o : Op Ind} (h : LibOp o) (refs : List Nat) : FreeW (o.apply refs) := by
  cases h with
  | crossover p arity attempts =>
    exact FreeW.inPlace (fun gs => (subtreeCrossover_free arity attempts gs).bind fun _ => Free.pure _) _ _ _ _
  | mutation p lo hi attempts =>
    exact FreeW.inPlace (fun gs => (subtreeMutation_free lo hi attempts gs).bind fun _ => Free.pure _) _ _ _ _
  | erc p arity mu sigma => exact FreeW.inPlace (fun gs => (ercMutation_free mu sigma gs).bind fun _ => Free.pure _) _ _ _ _

end Verif.GP
