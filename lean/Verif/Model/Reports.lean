import Verif.Model.Evolution
import Verif.Model.Publisher

/-! # Runs with statistics — eckity/algorithms/simple_evolution.py

`Verif.Evo.evolve` records every published event; here the events of the algorithm are delivered to its
subscribers, among them the statistics that `initialize` registers. -/

namespace Verif.Evo
open PyM Verif.Pub
variable {G κ C : Type}

/-- The registration of the statistics — simple_evolution.py:159-167 (after `super().initialize()`). -/
def registerStats (stats : List C) : PyM (Registry C) Unit :=
  forL (fun c => do
    let _ ← register "after_generation" (some c)
    pure ()) stats

/-- The calls of subscribers caused by the events: the events published by the algorithm itself are given to its
own subscribers (before_after_publisher.py:32-35), in order.  Simplification: subscribers do not raise and only
look, so what they are shown is what the event recorded; the subscribers of the breeder and the evaluator are not
modelled here. -/
def delivered (reg : Registry C) (evs : List (Event G)) : List (C × Event G) :=
  evs.flatMap fun e => if e.publisher = "algorithm" then (Pub.publish reg e.name).1.map fun c => (c, e) else []

/-- `SimpleEvolution.evolve` on an object with statistics and subscribers — algorithm.py:172-189 with
simple_evolution.py:159-167.  The result: how the run went, the subscriptions after it, and the calls made. -/
def evolveReporting (c : Cfg G κ) (stats : List C) (reg : Registry C) (s : Run G κ) :
    (Except Err Unit × Run G κ) × Registry C × List (C × Event G) :=
  match initRun c s with
  | (.error e, s₁) => ((.error e, s₁), reg, delivered reg (s₁.log.drop s.log.length))
  | (.ok _, s₁) =>
    match registerStats stats reg with
    | (.error e, reg₁) => ((.error e, s₁), reg₁, delivered reg (s₁.log.drop s.log.length))
    | (.ok _, reg₁) =>
      match (do
          afterInit c
          publish "algorithm" "evolution_finished"
          PyM.modify fun s => { s with shutdown := true } : RM G κ Unit) s₁ with
      | (r, s₂) => ((r, s₂), reg₁,
          delivered reg (s₁.log.drop s.log.length) ++ delivered reg₁ (s₂.log.drop s₁.log.length))

/-- What pickling and unpickling a `SimpleEvolution` object does to its run state — algorithm.py:423-455: everything
is kept (the subscriptions and their counter too) but the executor, which is a new one. -/
def Run.reloaded (s : Run G κ) : Run G κ := { s with shutdown := false }

end Verif.Evo
