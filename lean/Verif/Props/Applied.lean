import Verif.Props.GPTree
import Verif.Props.GPMutation
import Verif.Props.Complete
import Verif.Props.GACrossover
import Verif.Props.GAMutation
import Verif.Props.Classifier
import Verif.Props.Primitives
import Verif.Props.Selection
import Verif.Props.History
import Verif.Props.Termination
import Verif.Props.NSGA2Evolution
import Verif.Props.NSGA2Statistics
import Verif.Props.Pickle
import Verif.Props.Printing

/-!
# Theorems at work

Concrete data that meet the hypotheses of theorems whose own file has one example for several theorems, and what the
theorems say of them.
-/

namespace Verif.GP

namespace Sample

/-- `add(n, add(n, 5))` with types. -/
def intProg : Prog :=
  .app intAdd [.term ⟨7, .str "n"⟩ (some .int), .app intAdd [.term ⟨7, .str "n"⟩ (some .int), .term ⟨8, .int 5⟩ (some .int)]]

theorem intProg_typed : intProg.HasType (some .int) := by
  simp [intProg, Prog.HasType, Prog.HaveTypes, intAdd]

theorem intProg_ok : intProg.Ok := by
  simp [intProg, Prog.Ok, Prog.OkAll, intAdd]

theorem intProg_fns : ∀ f ∈ intProg.fns, f ∈ intCfg.functionSet ∧ f.Legal := by
  simp [intProg, Prog.fns, Prog.fnsAll, intCfg, Fn.Legal, intAdd]

theorem intProg_cut : randomSubtree intCfg.functionSet intProg.flatten (some .int) (fun _ => 2) =
    (.ok (some [.term ⟨8, .int 5⟩ (some .int)]), fun _ => 2) := by
  rfl

/-- C03 and C04 for a typed program. -/
example : ∃ q : Prog, q.Sub intProg ∧ q ≠ intProg ∧
    [.term ⟨8, .int 5⟩ (some .int)] = q.flatten ∧ q.rootType = some .int :=
  C03_randomSubtree_typed intCfg.functionSet intProg intProg_ok (fun f h => (intProg_fns f h).1)
    (fun f h => (intProg_fns f h).2) (by decide) .int _ _ _ intProg_cut

example : ∃ p' : Prog, replaceSubtree intProg.flatten
      [.term ⟨8, .int 5⟩ (some .int)] [.term ⟨9, .int 1⟩ (some .int)] =
      .ok p'.flatten ∧ p'.HasType (some .int) :=
  C04_replaceSubtree_typed intCfg.functionSet intProg _ intProg_typed (fun f h => (intProg_fns f h).1)
    (fun f h => (intProg_fns f h).2) _ _ _ _ intProg_cut (.term ⟨9, .int 1⟩ (some .int)) _ rfl rfl

end Sample

end Verif.GP

namespace Verif.GA
open Verif.PyM

/-- C63: two cells with a pair of bounds each. -/
example (t t' : Tape) (r : Bool × Vec) : mutateOne (uniformNPoint 1) ⟨.float, .lst [(0, 1), (0, 2)], 2, [1/2, 1]⟩ t ≠ (.ok r, t') :=
  C63_two_cells_raise_partial _ _ rfl ⟨_, _, rfl⟩ rfl t t' r

/-- C18: three bounds for two cells. -/
example (t : Tape) : createIndividuals .float 2 (.lst [(0, 1), (0, 2), (0, 3)]) defaultGeneCreator 4 t = (.error .valueError, t) :=
  C18_illegal_bounds_rejected _ _ _ _ 3 (.inr ⟨_, rfl, by decide⟩) t

/-- C16: as many points as cells. -/
example (t : Tape) : kPointApply 6 [Sample.six1, Sample.six2] t = (.error .valueError, t) :=
  C16_too_many_points 6 _ _ (by decide) (by decide) t

/-- C66: the mutation without its own value. -/
example : Post (npApply (plainNPoint 2 5) [Sample.six1]) fun _ => False :=
  C66_default_getter_raises_partial 2 5 (by decide) (by decide) _ _

/-- C21: a checker that rejects everything. -/
example : Post (npApply { uniformNPoint 1 with checker := fun _ _ => pure false } [Sample.f1]) fun r =>
    ∃ s s', defaultOnFail [Sample.f1] s = (.ok r, s') :=
  C21_on_fail_sees_original _ Sample.f1 rfl fun _ _ => Post.pure rfl

end Verif.GA

namespace Verif.Clf

/-- C60: before `fit`, and after it again. -/
example : (predict [7] (steps exCfg exEst [.predict [1], .clfPredict [2]])).1 = .error .valueError :=
  (C60_not_fitted rfl _ (by simp [Call.IsPredict]) _).1

example : fit exCfg [3] [1] (steps exCfg exEst [.predict [1]]) = fit exCfg [3] [1] exEst :=
  C60_refit _ (by simp [Call.IsPredict]) _ _ ⟨([3], [1]), by simp [exCfg]⟩

end Verif.Clf

namespace Verif.Prim

/-- C61: the conditionals on a column and scalars. -/
example := C61_conditionals (n := 2) (x := .vec [.fin 1, .fin (-1)]) (y := .scalar (.fin 3)) (z := .vec [.fin 4, .nan])
  (w := .scalar .posInf) (.inr rfl) (.inl rfl) (.inr rfl) (.inl rfl)

/-- C61: columns of lengths 2 and 3. -/
example : fDiv .fin (.vec [.fin 1, .fin 2]) (.vec [.fin 1, .fin 2, .fin 3]) = .error .valueError :=
  C61_lengths _ (by simp) (by simp) (by simp)

/-- C73: two columns. -/
example := C73_argmax_partial (x := .vec [.fin 1, .fin 2]) (y := .vec [.fin 5, .fin 2]) rfl

end Verif.Prim

namespace Verif.Evo

/-- C26: a tournament larger than the population. -/
example : tournamentSelect (fun _ => 1) 5 false [0, 1, 2] [] exWorld = (.error .valueError, exWorld) :=
  C26_too_small [] (by decide)

/-- C26, C27 and C46 for the three individuals of `exWorld`. -/
example := C26_tournament (k := 2) (replace := false) [] exWorld_evaluated (by decide) (by simp)
example := C27_elitism 2 [] exWorld_evaluated
example : ∃ r, bestIndividual (fun _ => 1) exWorld.heap true [0, 1, 2] = .ok r ∧
    bestLoop (fun _ => 1) 0 [1, 2] exWorld = (.ok r, exWorld) :=
  C46_same_as_evaluator exWorld_evaluated
example := C46_worst exWorld_evaluated (by simp)

/-- C46: one of two individuals is not evaluated. -/
example : bestIndividual (fun _ => 1) [⟨1, 0, 10, exFit (.num 1), -1, [], [], false, []⟩,
      ⟨2, 0, 30, (exFit (.num 3)).setNotEvaluated, -1, [], [], false, []⟩] true [0, 1] = .error .valueError := by
  refine (C46_unevaluated (size := fun _ : Nat => 1) (d := true) (s := ⟨[⟨1, 0, 10, exFit (.num 1), -1, [], [], false, []⟩,
      ⟨2, 0, 30, (exFit (.num 3)).setNotEvaluated, -1, [], [], false, []⟩], 3, fun n => n⟩) (inds := [0, 1]) (hib := true)
      ?_ ⟨1, by simp, _, rfl, rfl⟩).1
  intro r hr
  simp only [List.mem_cons, List.not_mem_nil, or_false] at hr
  rcases hr with rfl | rfl
  · exact .inl ⟨_, _, none, 1, rfl, ⟨rfl, rfl, rfl, rfl⟩, rfl⟩
  · exact .inr ⟨_, rfl, rfl⟩

/-- C25 and C30 for the history of `exHist`. -/
example : pureOf exS4.heap 0 = .ok (.num 7) := C25_no_stale_fitness exHist (r := 0) (by decide +kernel)
example : ∀ a b, exS4.heap[0]? = some a → exS4.heap[1]? = some b → a.id ≠ b.id :=
  fun _ _ ha hb => C30_ids_unique exHist ha hb (by decide)

/-- C42: an individual that was never evaluated. -/
example : ∃ e, threshold 10 1 () [(⟨1, 0, 10, (exFit (.num 1)).setNotEvaluated, -1, [], [], false, []⟩ : Ind Nat)] [some [0]] (some 0) 3 =
    (.error e, ()) :=
  C42_threshold_unevaluated (fun x h => by cases h)

end Verif.Evo

namespace Verif.Moo

/-- C48: an individual without objectives. -/
example : (exFit [0, 1] .inf none).dominate (.new none (.same false) true false) = .error .valueError :=
  C48_unevaluated (.inr rfl)

/-- C52: same rank, and different ranks. -/
example (t : Tape) : (exFit [0, 1] (.fin 2) (some 1)).betterThan (exFit [1, 0] (.fin 3) (some 1)) t = (.ok false, t) :=
  C52_same_rank_partial (exFit_is _ _ _ _) (exFit_is _ _ _ _) rfl rfl t
example (t : Tape) : (exFit [0, 1] (.fin 2) (some 1)).betterThan (exFit [1, 2] (.fin 3) (some 2)) t = (.ok false, t) :=
  C52_reversed_partial (exFit_is _ _ _ _) (exFit_is _ _ _ _) rfl rfl (by decide) t

/-- C56: a population that was not sorted. -/
example (perm : List (List ℚ) → List (List ℚ)) : moeLine perm exHeap [0, 1, 2] = .error .assertionError :=
  C56_unsorted (fun _ _ => rfl) perm

/-- C56: the four survivors of the six individuals. -/
example : ∃ h' line, select (fun _ l => l) 7 exHeap (List.range 6) [] (some 4) = some (.ok (h', [2, 1, 0, 4])) ∧
    moeLine id h' [2, 1, 0, 4] = .ok line ∧ 0 < line.frontSize := by
  obtain ⟨h', hrun, -⟩ := exSorted
  obtain ⟨line, hl, -, -, -, -, hpos, -⟩ := C56_two_objectives List.nodup_range exHeap_is (fun _ l => .refl l) hrun rfl
    (by simp) (perm := id) (fun l => .refl l)
  exact ⟨h', line, hrun, hl, hpos⟩

/-- C53, C54 and C70 for the example runs. -/
theorem exRun_returns (b : Bool) : (mevolve (exCfg b 2) exRun).1 = .ok () := by
  cases b <;> decide +kernel

theorem exRun_begins : (minit (exCfg true 2) exRun).1 = .ok () := by decide +kernel

example : ∀ e ∈ (mevolve (exCfg true 2) exRun).2.log, e.publisher = "algorithm" → e.inds.length = 4 :=
  C53_size (exCfg_good true 2) rfl exRun_fresh (by rw [← exRun_returns true])

example : ∀ e ∈ (mevolve (exCfg false 2) exRun).2.log, e.publisher = "algorithm" → e.inds.length = 4 / 2 ^ e.genNum :=
  C54_halves_partial (exCfg_good false 2) rfl exRun_fresh (by rw [← exRun_returns false])

example : (mevolve (exCfg true 2) exRun).2.bestOfRun = (minit (exCfg true 2) exRun).2.bestOfRun :=
  (C70_never_updated_partial (s₁ := (minit (exCfg true 2) exRun).2) (by rw [← exRun_begins])
    (by rw [← exRun_returns true])).1

end Verif.Moo

namespace Verif.Store

/-- C57: an evaluated individual whose fitness is cached. -/
example : pickleVal (.ind ⟨1, 0, 5, ⟨.num 3, true, true, false, true, none⟩, -1, [], [], false, []⟩ : Val Nat) =
    .ok (.ind ⟨1, 0, 5, ⟨.num 3, true, true, false, true, none⟩, -1, [], [], false, []⟩) :=
  C57_values_partial _ (by simp) (by simp) (by rintro i ⟨⟩; exact .inl rfl) (by simp)

end Verif.Store
