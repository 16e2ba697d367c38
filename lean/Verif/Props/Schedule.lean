import Verif.Props.Run

/-! # C39: runs and thread timing -/

namespace Verif.Evo
open PyM
variable {G κ : Type} {size : G → Nat}

/-- The claim of C39: for every ordinary configuration, the outcome of `evolve` is the same for every two
orders in which the workers may run the evaluation tasks. -/
def C39_statement : Prop :=
  ∀ (c : Cfg Nat Unit) (sub : SubCfg Nat) (m : Mode) (s : Run Nat Unit), c.Ordinary sub m → s.Ready m →
    ∀ sched', (∀ gen n, (sched' gen n).Perm (List.range n)) → evolve c s = evolve { c with sched := sched' } s

theorem runTask_outcome {c : SubCfg G} {f : G → ℚ} (hc : c.Computes fun g => .ok (f g)) (inds : List Nat)
    (s : World G) (k : Nat) (hk : k < inds.length) :
    runTask (runEval c) inds k s =
      (match genomeAt s inds[k] with
        | none => .error .attributeError
        | some g => .ok (k, f g), s) := by
  unfold runTask
  rw [List.getElem?_eq_getElem hk]
  dsimp only
  unfold genomeAt
  cases hi : s.heap[inds[k]]? with
  | none =>
    refine bind_of_error ?_
    unfold runEval
    refine bind_of_error ?_
    unfold deref
    rw [bind_of_ok (show PyM.get s = (.ok s, s) from rfl), hi]
    rfl
  | some i => rw [bind_of_ok (runEval_eq hi fun t => hc _ t)]; rfl

/-- Evaluating an individual that does not exist. -/
theorem evaluateMap_dangling {c : SubCfg G} {f : G → ℚ} (hc : c.Computes fun g => .ok (f g))
    {order inds : List Nat} (hp : order.Perm (List.range inds.length)) {s : World G} (hv : ¬ Valid s inds) :
    evaluateMap size c order inds s = (.error .attributeError, s) := by
  have hrun : ∀ k ∈ order, runTask (runEval c) inds k s =
      ((match genomeAt s (inds.getD k 0) with
        | none => .error .attributeError
        | some g => .ok (k, f g) : Except Err (Nat × ℚ)), s) := by
    intro k hk
    have hlt : k < inds.length := by simpa using hp.subset hk
    rw [runTask_outcome hc inds s k hlt]
    simp [List.getD, List.getElem?_eq_getElem hlt]
  rcases mapL_pure order hrun with ⟨k, hk, e, he, hm⟩ | hok
  · have : e = .attributeError := by
      split at he
      · simpa using he.symm
      · simp at he
    subst this
    unfold evaluateMap executorMap
    exact bind_of_error (bind_of_error hm)
  · exfalso
    apply hv
    intro r hr
    obtain ⟨k, hk, rfl⟩ := List.getElem_of_mem hr
    obtain ⟨y, hy⟩ := hok k (hp.symm.subset (by simpa using hk))
    by_contra hge
    have : genomeAt s inds[k] = none := by
      unfold genomeAt; rw [List.getElem?_eq_none (by omega)]; rfl
    simp [List.getD, List.getElem?_eq_getElem hk, this] at hy

/-- Population evaluation does not depend on the order, whatever the state. -/
theorem evaluateMap_order {c : SubCfg G} {f : G → ℚ} (hc : c.Computes fun g => .ok (f g))
    {order order' inds : List Nat} (hp : order.Perm (List.range inds.length))
    (hp' : order'.Perm (List.range inds.length)) :
    evaluateMap size c order inds = evaluateMap size c order' inds := by
  funext s
  by_cases hv : Valid s inds
  · exact C33_schedule hc hp hp' hv
  · rw [evaluateMap_dangling hc hp hv, evaluateMap_dangling hc hp' hv]

/-- C39 for evaluators that do not draw random numbers: the whole outcome of `evolve` — every individual,
every published event, `best_of_run_`, also when an exception is raised — is the same for every two orders
in which the workers run the tasks of each generation. -/
theorem C39_deterministic_partial {c : Cfg G κ} {sub : SubCfg G} (hs : c.subs = [sub]) (hm : c.submit = false)
    {f : G → ℚ} (hc : sub.Computes fun g => .ok (f g)) {sched' : Nat → Nat → List Nat}
    (h1 : ∀ gen n, (c.sched gen n).Perm (List.range n)) (h2 : ∀ gen n, (sched' gen n).Perm (List.range n)) :
    evolve c = evolve { c with sched := sched' } := by
  have hev : evaluateBody c = evaluateBody { c with sched := sched' } := by
    unfold evaluateBody
    congr 1
    funext s
    simp only [hs, hm]
    split
    · rename_i sub' is heq _
      simp only [List.cons.injEq, and_true] at heq
      subst heq
      split
      · rfl
      · simp only [Bool.false_eq_true, if_false]
        rw [evaluateMap_order hc (h1 _ _) (h2 _ _)]
    · rfl
    · rfl
  have hep : evaluatePopulation c = evaluatePopulation { c with sched := sched' } := by
    unfold evaluatePopulation; rw [hev]
  have hgen : generationIteration c = generationIteration { c with sched := sched' } := by
    unfold generationIteration; rw [hep]; rfl
  have hloop : ∀ n gen, mainLoop c n gen = mainLoop { c with sched := sched' } n gen := by
    intro n
    induction n with
    | zero => intro gen; rfl
    | succ n ih =>
      intro gen
      unfold mainLoop
      rw [hgen, ih]
      rfl
  have hinit : initRun c = initRun { c with sched := sched' } := by
    unfold initRun; rw [hep]; rfl
  have hafter : afterInit c = afterInit { c with sched := sched' } := by
    unfold afterInit; rw [hloop]; rfl
  unfold evolve
  rw [hinit, hafter]

/-- An evaluator that draws a random number. -/
def exNoisy : SubCfg Nat := { exSubCfg with evaluate := fun g t => (.ok ((g + t 0 : Nat) : ℚ), fun n => t (n + 1)) }

def exNoisyCfg : Cfg Nat Unit where
  size := fun _ => 1
  subs := [exNoisy]
  stream := fun seed n => seed + 10 ^ n
  maxGen := 0
  checker := .none
  sched := fun _ n => List.range n
  submit := false

def exNoisyRun : Run Nat Unit :=
  ⟨⟨[], 1, fun n => n⟩, [none], none, none, none, 0, 42, 42, none, [], false, []⟩

theorem exNoisy_ordinary : exNoisyCfg.Ordinary exNoisy ⟨true, none⟩ where
  subs := rfl
  dir := rfl
  creators := exCfg_ordinary.creators
  sels := exCfg_ordinary.sels
  ops := exCfg_ordinary.ops
  sched := fun _ _ => List.Perm.refl _
  map := rfl

/-- C39 is false: with a random evaluator, running the tasks in the opposite order gives other fitness
values — and another best individual — from the same seed. -/
theorem C39_refuted : ¬ C39_statement := by
  intro h
  have := congrArg (fun p => p.2.bestOfRun) (h exNoisyCfg exNoisy ⟨true, none⟩ exNoisyRun exNoisy_ordinary
    (.inl rfl) (fun _ n => (List.range n).reverse) fun _ n => List.reverse_perm _)
  revert this
  decide +kernel

/-- The example run of `Props.Run` satisfies the hypotheses. -/
example : evolve exCfg = evolve { exCfg with sched := fun _ n => (List.range n).reverse } :=
  C39_deterministic_partial (sub := exSubCfg) rfl rfl (f := fun g => (g : ℚ)) (fun _ _ => rfl)
    (fun _ _ => List.Perm.refl _) fun _ _ => List.reverse_perm _

end Verif.Evo
