import Verif.Lemmas.Evaluator

/-! # C33, C34: population evaluation -/

namespace Verif.Evo
open PyM
variable {G : Type} {size : G → Nat} {d : Bool} {s s' : World G}

/-! ## C33: scheduling -/

/-- The evaluator computes `f` of the genome, without drawing random numbers. -/
def SubCfg.Computes (c : SubCfg G) (f : G → Except Err ℚ) : Prop :=
  ∀ g t, c.evaluate g t = (f g, t)

/-- C33: for every order in which the workers run, evaluation succeeds, every individual then holds the
score of its genome (and nothing else has changed), and the first individual that no other beats is
returned. -/
theorem C33_evaluated {c : SubCfg G} {f : G → ℚ} (hc : c.Computes fun g => .ok (f g))
    {order inds : List Nat} (hp : order.Perm (List.range inds.length)) (hne : inds ≠ [])
    (hv : ∀ r ∈ inds, ∃ i, s.heap[r]? = some i ∧ i.fit.hib = d) :
    wp (evaluateMap size c order inds) (fun b s' =>
      s'.nextId = s.nextId ∧ s'.tape = s.tape ∧
      (∀ r, s'.heap[r]? = (s.heap[r]?).map fun i =>
        if r ∈ inds then { i with fit := i.fit.setFitness (.num (f i.genome)) } else i) ∧
      Evaluated size d s' inds ∧ FirstBest (Beats size d s') inds b) s := by
  let val : Nat → ℚ := fun r => ((s.heap[r]?).map fun i => f i.genome).getD 0
  have hval : ∀ r i, s.heap[r]? = some i → val r = f i.genome := by
    intro r i hi; simp [val, hi]
  unfold evaluateMap
  rw [wp_bind]
  refine ⟨_, _, executorMap_const (val := val) hp ?_, ?_⟩
  · intro r hr
    obtain ⟨i, hi, -⟩ := hv r hr
    exact runEval_eq hi fun t => by rw [hc, hval r i hi]
  dsimp only
  rw [wp_bind, zip_map_self, forL_map]
  obtain ⟨s₁, e, h1, h2, h3, h4⟩ := setAll_heap (fun r => .num (val r)) inds s
  refine ⟨_, _, e, ?_⟩
  dsimp only
  have hheap : ∀ r, s₁.heap[r]? = (s.heap[r]?).map fun i =>
      if r ∈ inds then { i with fit := i.fit.setFitness (.num (f i.genome)) } else i := by
    intro r
    rw [h4]
    cases hr : s.heap[r]? with
    | none => rfl
    | some i => simp [hval r i hr]
  have hev : Evaluated size d s₁ inds := by
    intro r hr
    obtain ⟨i, hi, hd⟩ := hv r hr
    refine ⟨_, _, i.fit.bloat, f i.genome, by rw [hheap, hi]; rfl, ?_, rfl⟩
    dsimp only
    rw [if_pos hr]
    exact ⟨rfl, rfl, hd, rfl⟩
  cases inds with
  | nil => exact absurd rfl hne
  | cons b rest =>
    dsimp only
    rw [bestLoop_eq]
    refine (winnerLoop_wp b rest hev).mono ?_
    rintro r s₂ ⟨rfl, hf⟩
    exact ⟨h1, h2, hheap, hev, hf⟩

/-- C33: the result — returned individual and final state — is the same for every two orders in which
the workers may run. -/
theorem C33_schedule {c : SubCfg G} {f : G → ℚ} (hc : c.Computes fun g => .ok (f g))
    {order order' inds : List Nat} (hp : order.Perm (List.range inds.length))
    (hp' : order'.Perm (List.range inds.length)) (hv : Valid s inds) :
    evaluateMap size c order inds s = evaluateMap size c order' inds s := by
  have key : ∀ order, order.Perm (List.range inds.length) → executorMap order (runEval c) inds s =
      (.ok (inds.map fun r => ((s.heap[r]?).map fun i => f i.genome).getD 0), s) := by
    intro order hp
    refine executorMap_const (val := fun r => ((s.heap[r]?).map fun i => f i.genome).getD 0) hp ?_
    intro r hr
    have hi := List.getElem?_eq_getElem (hv r hr)
    exact runEval_eq hi fun t => by rw [hc]; simp [hi]
  unfold evaluateMap
  rw [bind_of_ok (key order hp), bind_of_ok (key order' hp')]

/-- C33: if evaluating some individual raises, evaluation raises the exception of one of the individuals
and no fitness value is changed. -/
theorem C33_raises {c : SubCfg G} {f : G → Except Err ℚ} (hc : c.Computes f)
    {order inds : List Nat} (hp : order.Perm (List.range inds.length)) (hv : Valid s inds)
    (hbad : ∃ r ∈ inds, ∃ g e, genomeAt s r = some g ∧ f g = .error e) :
    ∃ e, evaluateMap size c order inds s = (.error e, s) ∧
      ∃ r ∈ inds, ∃ g, genomeAt s r = some g ∧ f g = .error e := by
  let res : Nat → Except Err (Nat × ℚ) := fun k =>
    match inds[k]? with
    | none => .error .indexError
    | some r =>
      match genomeAt s r with
      | none => .error .attributeError
      | some g =>
        match f g with
        | .error e => .error e
        | .ok v => .ok (k, v)
  have hrun : ∀ k ∈ order, runTask (runEval c) inds k s = (res k, s) := by
    intro k hk
    have hlt : k < inds.length := by simpa using hp.subset hk
    have hg : inds[k]? = some inds[k] := List.getElem?_eq_getElem hlt
    have hlt' : inds[k] < s.heap.length := hv _ (List.getElem_mem hlt)
    have hi := List.getElem?_eq_getElem hlt'
    have hge : genomeAt s inds[k] = some s.heap[inds[k]].genome := by unfold genomeAt; rw [hi]; rfl
    have hde : deref inds[k] s = (.ok s.heap[inds[k]], s) := by
      unfold deref
      rw [bind_of_ok (show PyM.get s = (.ok s, s) from rfl), hi]
      rfl
    simp only [res, hg, hge]
    unfold runTask
    rw [hg]
    dsimp only
    have hre : runEval c inds[k] s = (f s.heap[inds[k]].genome, s) := by
      unfold runEval
      rw [bind_of_ok hde]
      unfold rand zoom
      rw [hc]
    cases hf : f s.heap[inds[k]].genome with
    | error e => rw [bind_of_error (by rw [hre, hf])]
    | ok v => rw [bind_of_ok (by rw [hre, hf])]; rfl
  have hres : ∀ k ∈ order, ∀ e, res k = .error e →
      ∃ r ∈ inds, ∃ g, genomeAt s r = some g ∧ f g = .error e := by
    intro k hk e he
    have hlt : k < inds.length := by simpa using hp.subset hk
    have hg : inds[k]? = some inds[k] := List.getElem?_eq_getElem hlt
    have hlt' : inds[k] < s.heap.length := hv _ (List.getElem_mem hlt)
    have hi := List.getElem?_eq_getElem hlt'
    have hge : genomeAt s inds[k] = some s.heap[inds[k]].genome := by unfold genomeAt; rw [hi]; rfl
    refine ⟨inds[k], List.getElem_mem hlt, _, hge, ?_⟩
    simp only [res, hg, hge] at he
    cases hf : f s.heap[inds[k]].genome with
    | error e' => rw [hf] at he; simpa using he
    | ok v => rw [hf] at he; simp at he
  rcases mapL_pure order hrun with ⟨k, hk, e, he, hm⟩ | hok
  · refine ⟨e, ?_, hres k hk e he⟩
    unfold evaluateMap executorMap
    exact bind_of_error (bind_of_error hm)
  · obtain ⟨r, hr, g, e, hg, hf⟩ := hbad
    obtain ⟨k, hk, rfl⟩ := List.getElem_of_mem hr
    obtain ⟨y, hy⟩ := hok k (hp.symm.subset (by simpa using hk))
    simp only [res, List.getElem?_eq_getElem hk, hg, hf] at hy
    cases hy

/-! ## C34: `submit` and `map` -/

/-- The claim of C34: whenever evaluation with `map` succeeds, evaluation with `submit` succeeds and
assigns the same fitness values. -/
def C34_statement : Prop :=
  ∀ (size : Nat → Nat) (c : SubCfg Nat) (f : Nat → ℚ) (order inds : List Nat) (s s' : World Nat) (b : Nat),
    c.Computes (fun g => .ok (f g)) → order.Perm (List.range inds.length) →
    evaluateMap size c order inds s = (.ok b, s') →
    ∃ b' s'', evaluateSubmit size c order inds s = (.ok b', s'') ∧
      ∀ r ∈ inds, pureOf s''.heap r = pureOf s'.heap r

/-- What `submit` does instead: every individual ends up with *itself* as its fitness value, so that the
first comparison is a `TypeError`. -/
theorem C34_submit_raises_partial {c : SubCfg G} {f : G → ℚ} (hc : c.Computes fun g => .ok (f g))
    {order inds : List Nat} (hp : order.Perm (List.range inds.length)) (h2 : 2 ≤ inds.length)
    (hv : Valid s inds) :
    ∃ s', evaluateSubmit size c order inds s = (.error .typeError, s') ∧
      ∀ r ∈ inds, pureOf s'.heap r = .ok (.obj r) := by
  obtain ⟨vs, s₁, e1, rfl, hI⟩ := executorMap_wp (I := fun s' : World G => s'.heap.length = s.heap.length)
    (task := fun r => do
      let v ← runEval c r
      setFitness r (.num v)
      pure r) (val := id) (s := s) hp rfl (by
    intro r hr s₁ hl
    have hi := List.getElem?_eq_getElem (hl ▸ hv r hr : r < s₁.heap.length)
    rw [wp_bind]
    refine ⟨_, _, runEval_eq hi fun t => hc _ t, ?_⟩
    dsimp only
    rw [wp_bind]
    unfold setFitness
    rw [wp_update, wp_pure]
    exact ⟨rfl, by simpa using hl⟩)
  obtain ⟨s₂, e2, -, -, h3, h4⟩ := setAll_heap (fun r => .obj r) inds s₁
  have hpure : ∀ r ∈ inds, ∃ i, s₂.heap[r]? = some i ∧ i.fit.value = .obj r ∧ i.fit.evaluated = true := by
    intro r hr
    have hlt : r < s₁.heap.length := hI ▸ hv r hr
    rw [h4, List.getElem?_eq_getElem hlt]
    exact ⟨_, rfl, by dsimp only; rw [if_pos hr]; rfl, by dsimp only; rw [if_pos hr]; rfl⟩
  refine ⟨s₂, ?_, fun r hr => ?_⟩
  · unfold evaluateSubmit
    rw [bind_of_ok e1, zip_map_self, forL_map]
    simp only [id_eq]
    rw [bind_of_ok e2]
    match inds, h2 with
    | b :: p :: rest, _ =>
      dsimp only
      unfold bestLoop
      have : betterOf size s₂.heap p (some b) = .error .typeError := by
        obtain ⟨i, hi, vi, ei⟩ := hpure p (by simp)
        obtain ⟨j, hj, vj, ej⟩ := hpure b (by simp)
        unfold betterOf
        simp only [hi, hj]
        unfold Fit.betterThan Fit.checkComparable Fit.isEvaluated Fit.augmented Fit.getPure
        simp only [ei, ej, vi, vj, Bool.or_true, Bool.not_true, Bool.or_self, Bool.false_eq_true,
          if_false, if_true]
        cases i.fit.bloat with
        | some w =>
          by_cases hw : w = 0
          · simp only [hw, if_true]
            cases j.fit.bloat with
            | none => dsimp only; split <;> rfl
            | some w' =>
              by_cases hw' : w' = 0
              · simp only [hw', if_true]; split <;> rfl
              · simp only [hw', if_false]
          · simp only [hw, if_false]
        | none =>
          cases j.fit.bloat with
          | none => dsimp only; split <;> rfl
          | some w' =>
            by_cases hw' : w' = 0
            · simp only [hw', if_true]; split <;> rfl
            · simp only [hw', if_false]
      refine bind_of_error ?_
      unfold reading
      rw [bind_of_ok (show PyM.get s₂ = (.ok s₂, s₂) from rfl)]
      exact congrArg (fun x => (x, s₂)) this
  · obtain ⟨i, hi, vi, ei⟩ := hpure r hr
    unfold pureOf
    rw [hi]
    simp [Fit.getPure, vi, ei]

/-! ## Instances -/

/-- A population of three unevaluated individuals with genomes 10, 30, 20. -/
def exFresh : World Nat :=
  ⟨[⟨1, 0, 10, exFit .none, -1, [], [], false, []⟩, ⟨2, 0, 30, exFit .none, -1, [], [], false, []⟩,
    ⟨3, 0, 20, exFit .none, -1, [], [], false, []⟩], 4, fun n => n⟩

/-- The evaluator's score is the genome itself. -/
def exEval : SubCfg Nat where
  creators := []
  pick := pure 0
  ops := []
  sels := []
  popSize := 3
  nElite := 0
  hib := true
  evaluate := fun g => pure (g : ℚ)

theorem exEval_computes : exEval.Computes fun g => .ok (g : ℚ) := fun _ _ => rfl

theorem exFresh_ok : ∀ r ∈ [0, 1, 2], ∃ i, exFresh.heap[r]? = some i ∧ i.fit.hib = true := by
  intro r hr
  simp only [List.mem_cons, List.not_mem_nil, or_false] at hr
  rcases hr with rfl | rfl | rfl <;> exact ⟨_, rfl, rfl⟩

example : (evaluateMap (fun _ => 1) exEval [2, 0, 1] [0, 1, 2] exFresh).1 = .ok 1 := by decide +kernel

example : ([2, 0, 1] : List Nat).Perm (List.range [0, 1, 2].length) := by decide

example := C33_evaluated (size := fun _ => 1) exEval_computes (order := [2, 0, 1]) (inds := [0, 1, 2])
  (by decide) (by simp) exFresh_ok

/-- An evaluator that divides by the genome. -/
example : ({ exEval with evaluate := fun g => ofExcept (if g = 20 then .error .zeroDivisionError else .ok 1) } :
    SubCfg Nat).Computes (fun g => if g = 20 then .error .zeroDivisionError else .ok 1) := fun _ _ => rfl

/-- C34 is false. -/
theorem C34_refuted : ¬ C34_statement := by
  intro h
  obtain ⟨b, s', hrun, -⟩ := C33_evaluated (size := fun _ => 1) exEval_computes (order := [0, 1, 2])
    (inds := [0, 1, 2]) (by decide) (by simp) exFresh_ok
  obtain ⟨b', s'', hsub, -⟩ := h (fun _ => 1) exEval _ [0, 1, 2] [0, 1, 2] exFresh s' b exEval_computes
    (by decide) hrun
  obtain ⟨s₃, herr, -⟩ := C34_submit_raises_partial (size := fun _ => 1) exEval_computes (order := [0, 1, 2])
    (inds := [0, 1, 2]) (s := exFresh) (by decide) (by decide) (by unfold Valid; decide)
  rw [herr] at hsub
  simp at hsub

end Verif.Evo
