import Verif.Model.NSGA2Evolution

/-!
# Plotting the objectives

`eckity/multi_objective_evolution/nsga2_plot.py`.  What `plt.scatter` is called with is the result; labels, files and windows are
left out.
-/

namespace Verif.Moo

/-- `[ind.fitness.fitness[k] for ind in sub_pop.individuals]` — nsga2_plot.py:18-19: `None` cannot be subscripted, and the list may
be too short. -/
def objectiveAt (h : Heap) (k : Nat) : List Nat → Except Err (List ℚ)
  | [] => .ok []
  | r :: rs => match (h r).objs with
    | none => .error .typeError
    | some v => match v[k]? with
      | none => .error .indexError
      | some x => match objectiveAt h k rs with
        | .error e => .error e
        | .ok xs => .ok (x :: xs)

/-- `NSGA2Plot._print_plots_2d` — nsga2_plot.py:16-20: one call of `plt.scatter` for each sub-population. -/
def printPlots2d (h : Heap) : List (List Nat) → Except Err (List (List ℚ × List ℚ))
  | [] => .ok []
  | inds :: subs => match objectiveAt h 0 inds with
    | .error e => .error e
    | .ok xs => match objectiveAt h 1 inds with
      | .error e => .error e
      | .ok ys => match printPlots2d h subs with
        | .error e => .error e
        | .ok rest => .ok ((xs, ys) :: rest)

/-- `NSGA2Plot.print_plots` — nsga2_plot.py:10-14. -/
def printPlots (h : Heap) (subs : List (List Nat)) : Except Err (List (List ℚ × List ℚ)) :=
  match subs with
  | [] => .error .indexError
  | [] :: _ => .error .indexError
  | (r :: _) :: _ => match (h r).objs with
    | none => .error .typeError
    | some v => if v.length = 2 then printPlots2d h subs else .ok []

/-- `ploter.print_plots`, registered for the event — nsga2_basic_example.py:109-110, nsga2_evolution.py:173-178: the data of the
event hold the population. -/
def MEvent.plot (e : MEvent) : Except Err (List (List ℚ × List ℚ)) := printPlots e.fits [e.inds]

end Verif.Moo
