import Verif.Model.NSGA2Evolution

/-! # NSGA-II with `executor_method="submit"` -/

namespace Verif.Moo
open PyM
variable {G : Type}

/-- `SimpleIndividualEvaluator.evaluate(individual, environment_individuals)` — simple_individual_evaluator.py:15-39:
the individual is given its objective values and returned. -/
def evaluateOneM (c : MSub G) (r : Nat) : MM G Nat := do
  let v ← runEvalM c r
  assign r v
  PyM.pure r

/-- `ind.fitness.set_fitness(individual)`, with an individual in the place of the objective values —
nsga2_fitness.py:31-37.  If the fitness has not been evaluated the individual is stored, and `len(individual)` is
taken if `higher_is_better` is a bool, a `TypeError`: individuals have no length.  Simplification: the individual
stored in the place of the objective values is `some []` here; theorem `evaluateSubmitM_error` shows that this does
not happen. -/
def assignInd (r : Nat) : MM G Unit := do
  let w ← PyM.get
  match (w.fits r).objs, (w.fits r).dirs with
  | some _, _ => raise .attributeError
  | none, .same _ => raise .typeError
  | none, .each _ => setFit r { (w.fits r) with objs := some [] }

/-- `SimplePopulationEvaluator._evaluate` with `executor_method="submit"` — simple_population_evaluator.py:49-56,
61-73: the task is `evaluate`, and its result, the individual, is handed to `set_fitness`.  As in `evaluateM`, tasks
are run one after another, in any order, in the same process. -/
def evaluateSubmitM (c : MSub G) (order inds : List Nat) : MM G Nat := do
  let results ← Evo.executorMap order (evaluateOneM c) inds
  forL (fun (p : Nat × Nat) => assignInd p.1) (inds.zip results)
  match inds with
  | [] => raise .indexError
  | b :: rest => winner b rest

/-- The work of the population evaluator with `executor_method="submit"`. -/
def submitBody (c : MCfg G) : MRM G Nat := do
  let is ← individuals
  let s ← PyM.get
  mworld (evaluateSubmitM c.sub (c.sched s.genNum is.length) is)

/-- `initialize` of an algorithm whose evaluator has `executor_method="submit"` — algorithm.py:212-226; otherwise
`minit`. -/
def minitSubmit (c : MCfg G) : MRM G Unit := do
  let s ← PyM.get
  msetSeed c s.randomSeed
  mcreate c
  let b ← mact "population_evaluator" (submitBody c)
  modify fun s => { s with bestOfRun := some b }
  mpublish "algorithm" "init"

/-- `evolve` of such an algorithm — algorithm.py:172-189: nothing after `initialize` differs from `mevolve`, except that the
populations of later generations would be evaluated by `submitBody`.  Simplification: they are evaluated by
`mevaluateBody` here, which makes no difference, since the first evaluation never returns (theorem `C149_refuted`). -/
def mevolveSubmit (c : MCfg G) : MRM G Unit := do
  minitSubmit c
  mafterInit c
  mpublish "algorithm" "evolution_finished"
  mfinish

end Verif.Moo
