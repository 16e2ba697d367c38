import Verif.Py.Free
import Verif.Model.Evolution
import Verif.Spec.Library

/-! # Selection and the operators on vectors can be made to do the same with any draws left over -/

namespace Verif.Evo
open PyM
variable {G : Type} {α : Type}

/-- Free computations on the world. -/
abbrev FreeW (m : WM G α) : Prop := Free (fun w t => { w with tape := t }) m

namespace FreeW

theorem rand {m : Rand α} (h : FreeRand m) : FreeW (rand m : WM G α) := by
  intro s r s' hm u
  rcases hr : m s.tape with ⟨x, t1⟩
  unfold Evo.rand zoom at hm
  rw [hr] at hm
  cases hm
  obtain ⟨t, ht⟩ := h _ _ _ hr u
  refine ⟨t, ?_⟩
  unfold Evo.rand zoom
  dsimp only at ht ⊢
  rw [ht]

theorem deref (r : Nat) : FreeW (deref r : WM G (Ind G)) := by
  refine Free.get_bind (fun _ _ => rfl) fun s => ?_
  split
  · exact Free.pure _
  · exact Free.raise _

theorem update (r : Nat) (f : Ind G → Ind G) : FreeW (update r f) := Free.modify fun _ _ => rfl

/-- `get` and then `set`: what is computed must not depend on the tape. -/
theorem step {f : World G → World G} {g : World G → α} (hf : ∀ s t, f { s with tape := t } = { f s with tape := t })
    (hg : ∀ s t, g { s with tape := t } = g s) :
    FreeW (do let w ← PyM.get; PyM.set (f w); Pure.pure (g w)) := by
  intro s r s' h u
  cases h
  exact ⟨u, by show (Except.ok (g _), f _) = _; rw [hf, hg]⟩

theorem alloc (i : Ind G) : FreeW (alloc i) :=
  step (f := fun w => { w with heap := w.heap ++ [i] }) (g := fun w => w.heap.length) (fun _ _ => rfl) fun _ _ => rfl

theorem takeId : FreeW (takeId : WM G Nat) :=
  step (f := fun w => { w with nextId := w.nextId + 1 }) (g := fun w => w.nextId) (fun _ _ => rfl) fun _ _ => rfl

theorem clone (r : Nat) : FreeW (clone r : WM G Nat) :=
  (deref r).bind fun _ => takeId.bind fun _ => alloc _

theorem reading (f : List (Ind G) → Except Err α) : FreeW (reading f) :=
  Free.get_bind (fun _ _ => rfl) fun _ => Free.ofExcept _

theorem cloneSelected (name : String) (r : Nat) : FreeW (cloneSelected name r : WM G Nat) :=
  (clone r).bind fun _ => (update _ _).bind fun _ => Free.pure _

theorem genomes (refs : List Nat) : FreeW (genomes refs : WM G (List G)) :=
  Free.mapL (fun r => (deref r).bind fun _ => Free.pure _) refs

theorem putGenomes (refs : List Nat) (gs : List G) : FreeW (putGenomes refs gs) :=
  Free.forL (fun _ => update _ _) _

theorem winnerLoop (size : G → Nat) (w : Nat) (ps : List Nat) : FreeW (winnerLoop size w ps) := by
  induction ps generalizing w with
  | nil => exact Free.pure _
  | cons p ps ih => exact (reading _).bind fun b => ih _

theorem pickWinner (size : G → Nat) (ts : List Nat) : FreeW (pickWinner size ts) := by
  unfold Evo.pickWinner
  split
  · exact Free.raise _
  · exact (winnerLoop size _ _).bind fun _ => cloneSelected _ _

theorem tournamentSelect (size : G → Nat) (k : Nat) (replace : Bool) (source dest : List Nat) :
    FreeW (tournamentSelect size k replace source dest) := by
  refine Free.ite (fun _ => Free.raise _) fun _ => ?_
  refine (rand (Free.replicateM ?_ _)).bind fun _ => (Free.mapL (pickWinner size) _).bind fun _ => Free.pure _
  exact Free.ite (fun _ => FreeRand.choices _ _) fun _ => FreeRand.sample _ _

theorem elitismSelect (size : G → Nat) (k : Int) (hib : Bool) (source dest : List Nat) :
    FreeW (elitismSelect size k hib source dest) :=
  (reading _).bind fun _ => (Free.mapL (cloneSelected _) _).bind fun _ => Free.pure _

theorem applyOperator {o : Op G} (h : ∀ refs, FreeW (o.apply refs)) (refs : List Nat) : FreeW (applyOperator o refs) := by
  refine (rand FreeRand.random).bind fun u => Free.ite (fun _ => ?_) fun _ => Free.pure _
  refine (Free.forL (fun _ => update _ _) _).bind fun _ => (h refs).bind fun res => ?_
  split
  · exact Free.raise _
  · exact (Free.mapL (fun r => (deref r).bind fun _ => Free.pure _) _).bind fun _ =>
      (Free.forL (fun _ => update _ _) _).bind fun _ => Free.pure _

theorem applyChunks {o : Op G} (h : ∀ refs, FreeW (o.apply refs)) (is inds : List Nat) : FreeW (applyChunks o is inds) := by
  induction is generalizing inds with
  | nil => exact Free.pure _
  | cons i is ih => exact (applyOperator h _).bind fun _ => ih _

theorem applyOperators {os : List (Op G)} (h : ∀ o ∈ os, ∀ refs, FreeW (o.apply refs)) (inds : List Nat) :
    FreeW (applyOperators os inds) := by
  induction os generalizing inds with
  | nil => exact Free.pure _
  | cons o os ih =>
    unfold Evo.applyOperators
    exact Free.ite (fun _ => Free.raise _) fun _ => (applyChunks (h o (by simp)) _ _).bind fun _ =>
      ih (fun o ho => h o (by simp [ho])) _

theorem inPlace {f : List G → Rand (Option (List G))} (h : ∀ gs, FreeRand (f gs)) (name : String) (p : ℚ) (arity : Nat)
    (refs : List Nat) : FreeW ((Op.inPlace name p arity f).apply refs) := by
  refine (genomes refs).bind fun gs => (rand (h gs)).bind fun res => ?_
  split
  · exact Free.pure _
  · exact (putGenomes _ _).bind fun _ => Free.pure _

theorem withFallback {f : List G → Rand (Bool × List G)} (h : ∀ gs, FreeRand (f gs)) {inner : Op G}
    (hi : ∀ refs, FreeW (inner.apply refs)) (name : String) (p : ℚ) (arity : Nat) (refs : List Nat) :
    FreeW ((Op.withFallback name p arity f inner).apply refs) := by
  refine (genomes refs).bind fun gs => (rand (h gs)).bind fun res => ?_
  obtain ⟨ok, gs'⟩ := res
  refine (putGenomes _ _).bind fun _ => Free.ite (fun _ => Free.pure _) fun _ => ?_
  exact (applyOperator hi _).bind fun _ => Free.pure _

end FreeW
end Verif.Evo

namespace Verif
open PyM

theorem Free.failable {σ α : Type} {put : σ → Tape → σ} {attempt : α → Nat → PyM σ (Bool × α)} {onFail : α → PyM σ α}
    (h1 : ∀ a i, Free put (attempt a i)) (h2 : ∀ a, Free put (onFail a)) (n : Nat) (a : α) :
    Free put (failableApply n attempt onFail a) := by
  unfold failableApply
  generalize 0 = i
  induction n generalizing i a with
  | zero => exact h2 a
  | succ n ih =>
    refine (h1 a i).bind fun res => ?_
    obtain ⟨ok, res⟩ := res
    exact Free.ite (fun _ => Free.pure _) fun _ => ih _ _

end Verif

namespace Verif.GA
open PyM

theorem randCell_free (lo hi : ℚ) : FreeRand (randCell lo hi) := (FreeRand.randint _ _).bind fun _ => Free.pure _

theorem getRandomNumberInBounds_free (v : Vec) (i : Int) : FreeRand (v.getRandomNumberInBounds i) := by
  unfold Vec.getRandomNumberInBounds
  split
  · exact randCell_free _ _
  · exact Free.raise _
  · exact (Free.ofExcept _).bind fun _ => randCell_free _ _
  · exact FreeRand.uniform _ _
  · exact Free.raise _
  · exact (Free.ofExcept _).bind fun _ => FreeRand.uniform _ _
  · exact randCell_free _ _
  · exact Free.raise _
  · exact Free.raise _
  · exact Free.raise _

theorem getRandomNumberWithGauss_free (v : Vec) (i : Int) (mu sigma : ℚ) :
    FreeRand (v.getRandomNumberWithGauss i mu sigma) := by
  unfold Vec.getRandomNumberWithGauss
  split
  · exact (Free.ofExcept _).bind fun _ => (FreeRand.gauss _ _).bind fun _ => Free.pure _
  · exact Free.raise _

theorem bitFlip_free (v : Vec) (i : Int) : FreeRand (v.bitFlip i) := by
  unfold Vec.bitFlip
  split
  · exact (Free.ofExcept _).bind fun _ => Free.pure _
  · exact Free.raise _
  · exact Free.raise _

theorem kPointApply_free (k : Nat) (inds : List Vec) : FreeRand (kPointApply k inds) := by
  unfold kPointApply
  split
  · exact Free.raise _
  · refine (FreeRand.sample _ _).bind fun s => ?_
    dsimp only
    split
    · exact Free.raise _
    · exact (Free.ofExcept _).bind fun _ => Free.pure _

/-- The parts of an n-point mutation draw freely. -/
structure NPoint.Free (m : NPoint) : Prop where
  cells : ∀ v, FreeRand (m.cellSelector v)
  value : ∀ v i, FreeRand (m.mutVal v i)
  check : ∀ v w, FreeRand (m.checker v w)
  fail : ∀ l, FreeRand (m.onFail l)

theorem mutateOne_free {m : NPoint} (h : m.Free) (v : Vec) : FreeRand (mutateOne m v) :=
  (h.cells v).bind fun _ => (Verif.Free.mapL (h.value v) _).bind fun _ => (Verif.Free.ofExcept _).bind fun _ =>
    (h.check _ _).bind fun _ => Verif.Free.ite (fun _ => Verif.Free.pure _) fun _ => Verif.Free.pure _

theorem attemptOperator_free {m : NPoint} (h : m.Free) (l : List Vec) : FreeRand (attemptOperator m l) := by
  induction l with
  | nil => exact Verif.Free.pure _
  | cons v l ih =>
    refine (mutateOne_free h v).bind fun res => ?_
    exact Verif.Free.ite (fun _ => ih.bind fun _ => Verif.Free.pure _) fun _ => Verif.Free.pure _

theorem npApply_free {m : NPoint} (h : m.Free) (l : List Vec) : FreeRand (npApply m l) := by
  refine Verif.Free.failable (fun a _ => ?_) (fun a => ?_) _ _
  · cases a with
    | none => exact Verif.Free.raise _
    | some l => exact (attemptOperator_free h l).bind fun _ => Verif.Free.pure _
  · cases a with
    | none => exact Verif.Free.raise _
    | some l => exact h.fail l

theorem npTry_free {m : NPoint} (h : m.Free) (l : List Vec) : FreeRand (npTry m l) :=
  Verif.Free.failable (fun _ _ => (attemptOperator_free h _).bind fun _ => Verif.Free.pure _) (fun _ => Verif.Free.pure _) _ _

theorem defaultCellSelector_free (n : Nat) (v : Vec) : FreeRand (defaultCellSelector n v) :=
  (FreeRand.sample _ _).bind fun _ => Free.pure _

theorem uniformNPoint_free (n : Nat) : (uniformNPoint n).Free :=
  ⟨defaultCellSelector_free n, getRandomNumberInBounds_free, fun _ _ => Free.ofExcept _, fun _ => Free.pure _⟩

theorem applyOperator_free {p : ℚ} {f : List Vec → Rand (Option (List Vec))} (h : ∀ l, FreeRand (f l)) (l : List Vec) :
    FreeRand (applyOperator p f l) := by
  refine FreeRand.random.bind fun u => Free.ite (fun _ => (h l).bind fun r => ?_) fun _ => Free.pure _
  split
  · exact Free.raise _
  · exact Free.pure _

theorem gaussNPoint_free (n : Nat) (p mu sigma : ℚ) (a : Nat) : (gaussNPoint n p mu sigma a).Free :=
  ⟨defaultCellSelector_free n, fun _ _ => getRandomNumberWithGauss_free _ _ _ _, fun _ _ => Free.ofExcept _,
    fun _ => (applyOperator_free (npApply_free (uniformNPoint_free n)) _).bind fun _ => Free.pure _⟩

theorem intOnePoint_free (q : ℚ) : (intOnePoint q).Free :=
  ⟨fun _ => Free.pure _, fun _ _ => FreeRand.random.bind fun _ =>
    Free.ite (fun _ => getRandomNumberInBounds_free _ _) fun _ => Free.ofExcept _, fun _ _ => Free.ofExcept _,
    fun _ => Free.pure _⟩

theorem bitFlipOne_free : bitFlipOne.Free :=
  ⟨defaultCellSelector_free 1, bitFlip_free, fun _ _ => Free.ofExcept _, fun _ => Free.pure _⟩

theorem bitNFlip_free (n : Nat) (q : ℚ) : (bitNFlip n q).Free :=
  ⟨defaultCellSelector_free n, fun _ _ => FreeRand.random.bind fun _ =>
    Free.ite (fun _ => bitFlip_free _ _) fun _ => Free.ofExcept _, fun _ _ => Free.ofExcept _, fun _ => Free.pure _⟩

open Evo in
/-- The vector operators of the library draw freely. -/
theorem LibOp.free {kind : Kind} {length : Nat} {o : Op Vec} (h : LibOp kind length o) (refs : List Nat) :
    FreeW (o.apply refs) := by
  cases h with
  | crossover p arity k _ => exact FreeW.inPlace (fun gs => (kPointApply_free k gs).bind fun _ => Free.pure _) _ _ _ _
  | mutation c p arity _ _ =>
    cases c with
    | floatUniformOne => exact FreeW.inPlace (npApply_free (uniformNPoint_free 1)) _ _ _ _
    | floatUniformN n => exact FreeW.inPlace (npApply_free (uniformNPoint_free n)) _ _ _ _
    | floatGaussOne mu sigma a => exact FreeW.withFallback (npTry_free (gaussNPoint_free _ _ _ _ _)) (FreeW.inPlace (npApply_free (uniformNPoint_free 1)) _ _ _) _ _ _ _
    | floatGaussN n mu sigma a => exact FreeW.withFallback (npTry_free (gaussNPoint_free _ _ _ _ _)) (FreeW.inPlace (npApply_free (uniformNPoint_free n)) _ _ _) _ _ _ _
    | intOne q => exact FreeW.inPlace (npApply_free (intOnePoint_free q)) _ _ _ _
    | intN n => exact FreeW.inPlace (npApply_free (uniformNPoint_free n)) _ _ _ _
    | bitFlip => exact FreeW.inPlace (npApply_free bitFlipOne_free) _ _ _ _
    | bitNFlip n q => exact FreeW.inPlace (npApply_free (bitNFlip_free n q)) _ _ _ _

end Verif.GA
