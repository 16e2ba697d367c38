import Verif.Model.Termination
import Verif.Lemmas.Labels
import Verif.Lemmas.MutationSteps
import Verif.Props.Legal

/-! # C137: ids of individuals are labels only

`Run.bare` is the state of a run without the ids of individuals, the ids in `cloned_from` and in the lists of parents, and the
number of ids given out. -/

namespace Verif.Evo
open PyM
variable {G κ : Type} {size : G → Nat}

/-- C137, the general part: two runs whose parts do the same up to labels, from states that are the same up to labels, do the
same up to labels.  Both raise the same exception or both return; they tell observers the same; when they return, the
populations, the best individuals, the fitness values, the termination state and the random numbers still to come are the same. -/
theorem C137_labels {c' c : Cfg G κ} (hc : Cfg.Twins c' c) {s' s : Run G κ} (h : s'.bare = s.bare) :
    (evolve c' s').1 = (evolve c s).1 ∧ (evolve c' s').2.log.map Event.bare = (evolve c s).2.log.map Event.bare ∧
      ((evolve c s).1 = .ok () → (evolve c' s').2.bare = (evolve c s).2.bare) := by
  have := evolve_rtwin hc s' s h
  revert this
  rcases evolve c' s' with ⟨r', t'⟩
  rcases evolve c s with ⟨r, t⟩
  cases r' with
  | error e' =>
    cases r with
    | error e => exact fun ⟨h1, h2⟩ => ⟨congrArg Except.error h1, h2, fun h => by cases h⟩
    | ok a => exact fun h => h.elim
  | ok a' =>
    cases r with
    | error e => exact fun h => h.elim
    | ok a => exact fun ⟨_, h2⟩ => ⟨rfl, bare_log h2, fun _ => h2⟩

/-- The selection methods of the library, with any arguments. -/
inductive LibSel (size : G → Nat) : Sel G → Prop
  | tournament (z : Nat) (replace : Bool) : LibSel size (tournament size z replace)
  | elitism (n : Int) (hib : Bool) : LibSel size (elitism size n hib)
  | fitnessProportionate (hib : Bool) : LibSel size (fitnessProportionate size hib)

theorem LibSel.twins {sel : Sel G} (h : LibSel size sel) : Sel.Twins sel sel := by
  cases h with
  | tournament z r => exact tournament_twins z r
  | elitism n hib => exact elitism_twins n hib
  | fitnessProportionate hib => exact fitnessProportionate_twins hib

theorem pureOf_bare {h' h : List (Ind G)} (e : h'.map Ind.bare = h.map Ind.bare) (r : Nat) : pureOf h' r = pureOf h r := by
  unfold pureOf
  rcases bare_get e r with ⟨h1, h2⟩ | ⟨i, j, h1, h2, h3⟩
  · simp only [h1, h2]
  · simp only [h1, h2, bare_fit h3]

theorem threshold_blind (optimal thr : ℚ) : Checker.Blind (threshold (G := G) optimal thr) := by
  intro k h' h inds best gen e
  unfold threshold
  cases best with
  | none => rfl
  | some r => dsimp only; rw [pureOf_bare e]

theorem bestFitnesses_bare {h' h : List (Ind G)} (e : h'.map Ind.bare = h.map Ind.bare) (hibs : List Bool)
    (inds : List (Option (List Nat))) : bestFitnesses size h' hibs inds = bestFitnesses size h hibs inds := by
  induction hibs generalizing inds with
  | nil => cases inds <;> rfl
  | cons b bs ih =>
    cases inds with
    | nil => rfl
    | cons is iss =>
      cases is with
      | none => rfl
      | some is =>
        have e1 : bestIndividual size h' b is = bestIndividual size h b is := by
          unfold bestIndividual
          rw [sortedByFitness_bare e]
        unfold bestFitnesses
        rw [e1]
        cases bestIndividual size h b is with
        | error => rfl
        | ok r => dsimp only; rw [pureOf_bare e, ih]

theorem stagnation_blind (hibs : List Bool) (n : Int) : Checker.Blind (stagnation size hibs n) := by
  intro k h' h inds best gen e
  unfold stagnation
  rw [bestFitnesses_bare e]

theorem forall₂_self {α : Type} {R : α → α → Prop} {l : List α} (h : ∀ a ∈ l, R a a) : List.Forall₂ R l l := by
  induction l with
  | nil => exact .nil
  | cons a l ih => exact .cons (h a (by simp)) (ih fun b hb => h b (by simp [hb]))

end Verif.Evo

namespace Verif.GP
open Evo

theorem LibCreator.twins {cfg : GP.Cfg} {m : Mode} {create : Nat → Bool → WM GP.Ind (List Nat)} (h : LibCreator cfg m create) :
    CreatorTwins create create := by
  cases h with
  | full d fit up h => exact createIndividuals_twins _ _ _ _
  | grow q a d fit up h => exact createIndividuals_twins _ _ _ _
  | half q a d fit up h =>
    exact halfCreate_twins (fun _ => createIndividuals_twins _ _ _ _) (fun _ => createIndividuals_twins _ _ _ _) _ _

theorem LibOp.twins {o : Op GP.Ind} (h : LibOp o) : Op.Twins o o := by
  cases h with
  | crossover p a k => exact inPlace_twins _ _ _ _
  | mutation p a d k => exact inPlace_twins _ _ _ _
  | erc p a mu sigma => exact inPlace_twins _ _ _ _

/-- C137 for programs: a run put together from the tree creators, tree operators and selection methods of the library does not
depend on the ids the individuals happen to have. -/
theorem C137_programs {κ : Type} {c : Evo.Cfg GP.Ind κ} {sub : SubCfg GP.Ind} {cfg : GP.Cfg} {m : Mode}
    (hc : c.BuiltWith sub m (LibCreator cfg m) LibOp) (hs : ∀ sel ∈ sub.sels, LibSel c.size sel) (hb : c.checker.Blind)
    {s' s : Run GP.Ind κ} (h : s'.bare = s.bare) :
    (evolve c s').1 = (evolve c s).1 ∧ (evolve c s').2.log.map Event.bare = (evolve c s).2.log.map Event.bare ∧
      ((evolve c s).1 = .ok () → (evolve c s').2.bare = (evolve c s).2.bare) := by
  refine C137_labels ⟨rfl, ?_, rfl, rfl, rfl, hb, rfl, rfl⟩ h
  rw [hc.subs]
  exact .cons ⟨forall₂_self fun a ha => (hc.creators a ha).twins, rfl, forall₂_self fun o ho => (hc.ops o ho).twins,
    forall₂_self fun sel hsel => (hs sel hsel).twins, rfl, rfl, rfl, rfl⟩ .nil

/-- The run of `exLibRun` when 999 individuals were made before. -/
def exLateRun : Run GP.Ind Unit := { exLibRun with w := ⟨[], 1000, fun n => n⟩ }

example : (evolve exLibCfg exLateRun).1 = .ok () ∧ (evolve exLibCfg exLateRun).2.bare = (evolve exLibCfg exLibRun).2.bare := by
  have := C137_programs (s' := exLateRun) (s := exLibRun) exLibCfg_built
    (fun sel hsel => by
      simp only [exLibSub, List.mem_singleton] at hsel
      subst hsel
      exact .tournament _ _) trivial rfl
  exact ⟨this.1.trans exLibRun_ends.1, this.2.2 exLibRun_ends.1⟩

/-- The ids themselves differ. -/
example : (evolve exLibCfg exLateRun).2.w.nextId = 999 + (evolve exLibCfg exLibRun).2.w.nextId := by decide +kernel

end Verif.GP

namespace Verif.GA
open Evo

theorem LibCreator.twins {kind : Kind} {bounds : Bounds} {length : Nat} {m : Mode} {create : Nat → Bool → WM Vec (List Nat)}
    (h : LibCreator kind bounds length m create) : CreatorTwins create create := by
  cases h with
  | mk fit up h =>
    intro n hib
    unfold vectorCreator
    exact PyM.Rel.ite (fun _ => twin_raise _) fun _ => createIndividuals_twins _ _ _ _ n hib

/-- The operator object of a mutation class as it works on the individuals, statement by statement. -/
def MutationClass.asSteps (c : MutationClass) (p : ℚ) (arity : Nat) : Op Vec :=
  match c with
  | .floatUniformOne => mutationSteps "FloatVectorUniformOnePointMutation" p arity (uniformNPoint 1)
  | .floatUniformN n => mutationSteps "FloatVectorUniformNPointMutation" p arity (uniformNPoint n)
  | .floatGaussOne mu sigma a =>
    gaussSteps "FloatVectorGaussOnePointMutation" "FloatVectorUniformOnePointMutation" 1 p arity mu sigma a
  | .floatGaussN n mu sigma a =>
    gaussSteps "FloatVectorGaussNPointMutation" "FloatVectorUniformNPointMutation" n p arity mu sigma a
  | .intOne q => mutationSteps "IntVectorOnePointMutation" p arity (intOnePoint q)
  | .intN n => mutationSteps "IntVectorNPointMutation" p arity (uniformNPoint n)
  | .bitFlip => mutationSteps "BitStringVectorFlipMutation" p arity bitFlipOne
  | .bitNFlip n q => mutationSteps "BitStringVectorNFlipMutation" p arity (_root_.Verif.GA.bitNFlip n q)

theorem MutationClass.twins (c : MutationClass) (p : ℚ) (arity : Nat) : Op.Twins (c.asSteps p arity) (c.asOp p arity) := by
  cases c with
  | floatUniformOne => exact mutationSteps_twins _ _ _ rfl
  | floatUniformN n => exact mutationSteps_twins _ _ _ rfl
  | floatGaussOne mu sigma a => exact gaussSteps_twins _ _ _ _ _ _ _ _
  | floatGaussN n mu sigma a => exact gaussSteps_twins _ _ _ _ _ _ _ _
  | intOne q => exact mutationSteps_twins _ _ _ rfl
  | intN n => exact mutationSteps_twins _ _ _ rfl
  | bitFlip => exact mutationSteps_twins _ _ _ rfl
  | bitNFlip n q => exact mutationSteps_twins _ _ _ rfl

/-- `o'` is the operator `o` of the library; if it is a mutation, then `o'` works statement by statement. -/
inductive Stepwise : Op Vec → Op Vec → Prop
  | crossover (p : ℚ) (arity k : Nat) : Stepwise (crossoverOp p arity k) (crossoverOp p arity k)
  | mutation (c : MutationClass) (p : ℚ) (arity : Nat) : Stepwise (c.asSteps p arity) (c.asOp p arity)

theorem Stepwise.twins {o' o : Op Vec} (h : Stepwise o' o) : Op.Twins o' o := by
  cases h with
  | crossover p a k => exact inPlace_twins _ _ _ _
  | mutation c p a => exact c.twins p a

/-- C137 for vectors: a run put together from the vector creator, operators and selection methods of the library does not depend
on the ids the individuals happen to have, nor on the ids the mutations use up for the copies they make; mutations that assign
cells one by one and put the old cells back after a failure do the same in a run as those of `Model/Library`. -/
theorem C137_vectors {κ : Type} {c : Evo.Cfg Vec κ} {sub : SubCfg Vec} {kind : Kind} {bounds : Bounds} {length : Nat} {m : Mode}
    (hc : c.BuiltWith sub m (LibCreator kind bounds length m) (LibOp kind length)) {ops : List (Op Vec)}
    (ho : List.Forall₂ Stepwise ops sub.ops) (hs : ∀ sel ∈ sub.sels, LibSel c.size sel) (hb : c.checker.Blind)
    {s' s : Run Vec κ} (h : s'.bare = s.bare) :
    let c' : Evo.Cfg Vec κ := { c with subs := [{ sub with ops := ops }] }
    (evolve c' s').1 = (evolve c s).1 ∧ (evolve c' s').2.log.map Event.bare = (evolve c s).2.log.map Event.bare ∧
      ((evolve c s).1 = .ok () → (evolve c' s').2.bare = (evolve c s).2.bare) := by
  intro c'
  refine C137_labels (c' := c') (c := c) ⟨rfl, ?_, rfl, rfl, rfl, hb, rfl, rfl⟩ h
  rw [hc.subs]
  exact .cons ⟨forall₂_self fun a ha => (hc.creators a ha).twins, rfl, ho.imp fun _ _ h => h.twins,
    forall₂_self fun sel hsel => (hs sel hsel).twins, rfl, rfl, rfl, rfl⟩ .nil

/-- The configuration `exLibCfg` with mutations that work statement by statement. -/
def exStepCfg : Evo.Cfg Vec Unit :=
  { exLibCfg with subs := [{ exLibSub with ops := [crossoverOp 1 2 2, (MutationClass.floatGaussN 2 0 1 3).asSteps 1 1] }] }

example : (evolve exStepCfg exLibRun).1 = .ok () ∧ (evolve exStepCfg exLibRun).2.bare = (evolve exLibCfg exLibRun).2.bare := by
  have := C137_vectors (s' := exLibRun) (s := exLibRun) exLibCfg_built
    (.cons (.crossover 1 2 2) (.cons (.mutation (.floatGaussN 2 0 1 3) 1 1) .nil))
    (fun sel hsel => by
      simp only [exLibSub, List.mem_singleton] at hsel
      subst hsel
      exact .tournament _ _) trivial rfl
  exact ⟨this.1.trans exLibRun_ends.1, this.2.2 exLibRun_ends.1⟩

/-- More ids are used up: at least one for every mutated individual. -/
example : (evolve exLibCfg exLibRun).2.w.nextId + 6 ≤ (evolve exStepCfg exLibRun).2.w.nextId := by decide +kernel

end Verif.GA
