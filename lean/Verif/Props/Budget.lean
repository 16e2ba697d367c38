import Verif.Model.Counted
import Verif.Lemmas.Steady
import Verif.Py.Sim
import Verif.Props.Total

/-! # C129: each individual is evaluated exactly once -/

namespace Verif.Evo
open PyM
variable {G κ α : Type} {c : Cfg G κ} {sub : SubCfg G} {m : Mode}

/-! ## Recording the calls changes nothing -/

theorem onWorld_sim (p : WM G α) : Sim Prod.fst id p (onWorld p) := by
  intro x
  unfold onWorld zoom
  cases h : p x.1 with
  | mk r w => cases r <;> rfl

theorem onRun_sim (p : RM G κ α) : Sim Prod.fst id p (onRun p) := by
  intro x
  unfold onRun zoom
  cases h : p x.1 with
  | mk r w => cases r <;> rfl

theorem executorMap_beside {σ τ β : Type} {L : σ → τ} {order : List Nat} {task' : Nat → PyM τ β} {task : Nat → PyM σ β}
    (h : ∀ r, Sim L id (task' r) (task r)) (refs : List Nat) : Sim L id (executorMap order task' refs) (executorMap order task refs) := by
  unfold executorMap
  refine Sim.bind (ρ := id) ?_ fun rs => ?_
  · have := Sim.mapL (L := L) (ρ := id) (ζ := id) (f' := runTask task' refs) (f := runTask task refs) order fun i _ => by
      unfold runTask
      show Sim L id (match refs[i]? with | none => _ | some r => _) _
      cases refs[i]? with
      | none => exact Sim.raise
      | some r => exact Sim.bind (ρ := id) (h r) fun v => Sim.pure rfl
    simpa using this
  · have := Sim.mapL (L := L) (ρ := id) (ζ := id) (f' := lookupResult (σ := τ) rs) (f := lookupResult (σ := σ) rs)
      (List.range refs.length) fun i _ => by
      unfold lookupResult
      show Sim L id (match List.find? (fun p => p.1 == i) rs with | some p => _ | none => _) _
      cases List.find? (fun p => p.1 == i) rs with
      | none => exact Sim.raise
      | some p => exact Sim.pure rfl
    simpa using this

theorem callEval_sim (gen r : Nat) : Sim Prod.fst id (runEval sub r) (callEval sub gen r) := by
  unfold runEval callEval
  refine Sim.bind (ρ := id) (onWorld_sim _) fun i => ?_
  intro x
  exact onWorld_sim (rand (sub.evaluate i.genome)) (x.1, x.2 ++ [⟨gen, r, i.genome⟩])

theorem countedMap_sim {size : G → Nat} (gen : Nat) (order inds : List Nat) :
    Sim Prod.fst id (evaluateMap size sub order inds) (countedMap size sub gen order inds) := by
  unfold evaluateMap countedMap
  exact Sim.bind (ρ := id) (executorMap_beside (fun r => callEval_sim gen r) inds) fun scores => onWorld_sim _

theorem countedSubmit_sim {size : G → Nat} (gen : Nat) (order inds : List Nat) :
    Sim Prod.fst id (evaluateSubmit size sub order inds) (countedSubmit size sub gen order inds) := by
  unfold evaluateSubmit countedSubmit
  refine Sim.bind (ρ := id) (executorMap_beside (fun r => ?_) inds) fun scores => onWorld_sim _
  exact Sim.bind (ρ := id) (callEval_sim gen r) fun v => Sim.bind (ρ := id) (onWorld_sim _) fun _ => Sim.pure rfl

theorem besideRun_sim {p : WM G α} {q : PyM (World G × List (Call G)) α} (h : Sim Prod.fst id p q) :
    Sim (Prod.fst : Run G κ × List (Call G) → Run G κ) id (world p) (besideRun q) := by
  intro x
  have := h (x.1.w, x.2)
  unfold world besideRun zoom
  dsimp only at this ⊢
  rw [this]

theorem countedBody_sim : Sim Prod.fst id (evaluateBody c) (countedBody c) := by
  unfold evaluateBody countedBody
  refine Sim.get_bind fun x => ?_
  match c.subs, x.1.inds with
  | [], _ => exact Sim.raise
  | [_], [] => exact Sim.raise
  | [_], [none] => exact Sim.raise
  | [sub], [some is] =>
    refine Sim.ite Iff.rfl (fun _ => Sim.raise) fun _ => besideRun_sim ?_
    exact Sim.ite Iff.rfl (fun _ => countedSubmit_sim _ _ _) fun _ => countedMap_sim _ _ _
  | [_], none :: _ :: _ => exact Sim.raise
  | [_], some _ :: _ :: _ => exact Sim.raise
  | _ :: _ :: _, _ => exact Sim.raise

theorem countedPopulation_sim : Sim Prod.fst id (evaluatePopulation c) (countedPopulation c) := by
  unfold evaluatePopulation act countedPopulation
  exact Sim.bind (ρ := id) (onRun_sim _) fun _ => Sim.bind (ρ := id) countedBody_sim fun b =>
    Sim.bind (ρ := id) (onRun_sim _) fun _ => Sim.pure rfl

theorem countedInit_sim : Sim Prod.fst id (initRun c) (countedInit c) := by
  unfold initRun countedInit
  exact Sim.get_bind fun x => Sim.bind (ρ := id) (onRun_sim _) fun _ => Sim.bind (ρ := id) (onRun_sim _) fun _ =>
    Sim.bind (ρ := id) countedPopulation_sim fun b => Sim.bind (ρ := id) (onRun_sim _) fun _ => onRun_sim _

theorem countedGeneration_sim : Sim Prod.fst id (generationIteration c) (countedGeneration c) := by
  unfold generationIteration countedGeneration
  exact Sim.bind (ρ := id) (onRun_sim _) fun _ => Sim.bind (ρ := id) countedPopulation_sim fun b =>
    Sim.bind (ρ := id) (onRun_sim _) fun _ => Sim.bind (ρ := id) (onRun_sim _) fun _ => onRun_sim _

theorem countedLoop_sim (n gen : Nat) : Sim Prod.fst id (mainLoop c n gen) (countedLoop c n gen) := by
  induction n generalizing gen with
  | zero => exact Sim.pure rfl
  | succ n ih =>
    unfold mainLoop countedLoop
    refine Sim.bind (ρ := id) (onRun_sim _) fun _ => Sim.bind (ρ := id) (onRun_sim _) fun _ => Sim.get_bind fun x => ?_
    refine Sim.bind (ρ := id) (onRun_sim _) fun _ => Sim.bind (ρ := id) (onRun_sim _) fun _ =>
      Sim.bind (ρ := id) countedGeneration_sim fun _ => Sim.bind (ρ := id) (onRun_sim _) fun stop => ?_
    refine Sim.ite Iff.rfl (fun _ => ?_) fun _ => ?_
    · exact Sim.bind (ρ := id) (onRun_sim _) fun _ => onRun_sim _
    · exact Sim.bind (ρ := id) (onRun_sim _) fun _ => ih _

theorem countedEvolve_sim : Sim Prod.fst id (evolve c) (countedEvolve c) := by
  unfold evolve countedEvolve afterInit countedAfterInit
  refine Sim.bind (ρ := id) countedInit_sim fun _ => Sim.bind (ρ := id) ?_ fun _ => Sim.bind (ρ := id) (onRun_sim _) fun _ => onRun_sim _
  refine Sim.get_bind fun x => Sim.bind (ρ := id) (onRun_sim _) fun stop => ?_
  refine Sim.ite Iff.rfl (fun _ => ?_) fun _ => countedLoop_sim _ _
  exact Sim.bind (ρ := id) (onRun_sim _) fun _ => onRun_sim _

/-- **C129.** The record of the calls is all that `countedEvolve` adds to `evolve`. -/
theorem C129_same (c : Cfg G κ) (s : Run G κ) (calls : List (Call G)) :
    evolve c s = ((countedEvolve c (s, calls)).1, (countedEvolve c (s, calls)).2.1) := by
  have := countedEvolve_sim (c := c) (s, calls)
  rwa [except_map_id] at this

/-! ## Which calls there are -/

/-- The calls during a run, accounted for by its events: between two ends of evaluations there is exactly one call for each
individual of the population shown at the second, with the genome it has there. -/
inductive Accounts : List (Event G) → List (Call G) → Prop
  | nil : Accounts [] []
  | other {log : List (Event G)} {calls : List (Call G)} {e : Event G} (h : Accounts log calls) (he : ¬ e.IsEval) :
      Accounts (log ++ [e]) calls
  | eval {log : List (Event G)} {calls block : List (Call G)} {e : Event G} {is : List Nat} (h : Accounts log calls)
      (he : e.IsEval) (shown : e.snap.inds = [some is]) (each : (block.map Call.ref).Perm is)
      (right : ∀ k ∈ block, k.gen = e.snap.genNum ∧ (e.snap.heap[k.ref]?).map (·.genome) = some k.genome) :
      Accounts (log ++ [e]) (calls ++ block)

theorem setFitness_genomes (r : Nat) (v : FVal) (w : World G) :
    wlp (setFitness r v) (fun _ w' => ∀ q, genomeAt w' q = genomeAt w q) w := by
  unfold setFitness
  rw [wlp_update]
  intro q
  unfold genomeAt
  rw [List.getElem?_modify]
  cases w.heap[q]? with
  | none => rfl
  | some i => by_cases h : r = q <;> simp [h]

theorem bestLoop_world {size : G → Nat} (b : Nat) (is : List Nat) (w : World G) :
    wlp (bestLoop size b is) (fun _ w' => w' = w) w := by
  induction is generalizing b with
  | nil => exact wlp_pure.2 rfl
  | cons i is ih =>
    unfold bestLoop
    rw [wlp_bind, wlp_reading]
    exact fun v _ => ih _

theorem wlp_onWorld {p : WM G α} {Q : α → World G × List (Call G) → Prop} {x : World G × List (Call G)} :
    wlp (onWorld p) Q x ↔ wlp p (fun a w => Q a (w, x.2)) x.1 := wlp_zoom

theorem wlp_onRun {p : RM G κ α} {Q : α → Run G κ × List (Call G) → Prop} {x : Run G κ × List (Call G)} :
    wlp (onRun p) Q x ↔ wlp p (fun a s => Q a (s, x.2)) x.1 := wlp_zoom

/-- The second half of an evaluation: fitness values are stored and compared. -/
theorem rest_genomes {size : G → Nat} {β : Type} (f : β → FVal) (inds : List Nat) (vs : List β) (w : World G) :
    wlp (do
      forL (fun (p : Nat × β) => setFitness p.1 (f p.2)) (inds.zip vs)
      match inds with
      | [] => raise .indexError
      | b :: rest => bestLoop size b rest) (fun _ w' => ∀ q, genomeAt w' q = genomeAt w q) w := by
  rw [wlp_bind]
  have : wlp (forL (fun (p : Nat × β) => setFitness p.1 (f p.2)) (inds.zip vs)) (fun _ w' => ∀ q, genomeAt w' q = genomeAt w q) w := by
    refine wlp_forL (I := fun _ w' => ∀ q, genomeAt w' q = genomeAt w q) (fun _ => rfl) ?_
    intro pre p post w₁ _ h1
    exact (setFitness_genomes _ _ w₁).mono fun _ w₂ h2 q => (h2 q).trans (h1 q)
  refine this.mono fun _ w₁ h1 => ?_
  cases inds with
  | nil => simp
  | cons b rest => exact (bestLoop_world b rest w₁).mono fun _ w₂ h2 => by rw [h2]; exact h1

/-- The calls made by one evaluation of `inds`, the genomes being those of `w`. -/
structure Block (gen : Nat) (inds : List Nat) (w : World G) (calls : List (Call G)) (x : World G × List (Call G)) : Prop where
  genomes : ∀ q, genomeAt x.1 q = genomeAt w q
  calls : ∃ block, x.2 = calls ++ block ∧ block.map Call.ref = inds ∧
    ∀ k ∈ block, k.gen = gen ∧ genomeAt w k.ref = some k.genome

theorem executorMap_block {β : Type} {gen : Nat} {inds order : List Nat} (ho : order.Perm (List.range inds.length))
    {task : Nat → PyM (World G × List (Call G)) β} {w : World G} {calls : List (Call G)}
    (ht : ∀ r x, (∀ q, genomeAt x.1 q = genomeAt w q) → wlp (task r) (fun _ y => (∀ q, genomeAt y.1 q = genomeAt w q) ∧
      ∃ k : Call G, y.2 = x.2 ++ [k] ∧ k.ref = r ∧ k.gen = gen ∧ genomeAt w r = some k.genome) x) :
    wlp (executorMap order task inds) (fun _ y => ∃ inds', inds'.Perm inds ∧ Block gen inds' w calls y) (w, calls) := by
  unfold executorMap
  rw [wlp_bind]
  have h1 : wlp (mapL (runTask task inds) order) (fun _ y =>
      Block gen (order.filterMap fun i => inds[i]?) w calls y) (w, calls) := by
    refine wlp_mapL (I := fun pre _ y => Block gen (pre.filterMap fun i => inds[i]?) w calls y) ⟨fun _ => rfl, [], by simp⟩ ?_
    rintro pre i post ys x _ ⟨hg, block, hb1, hb2, hb3⟩
    unfold runTask
    cases hi : inds[i]? with
    | none => simp
    | some r =>
      dsimp only
      rw [wlp_bind]
      refine (ht r x hg).mono ?_
      rintro v y ⟨hg', k, k1, k2, k3, k4⟩
      rw [wlp_pure]
      refine ⟨hg', block ++ [k], by rw [k1, hb1, List.append_assoc], ?_, ?_⟩
      · simp [List.filterMap_append, hi, hb2, k2]
      · intro k' hk'
        rw [List.mem_append, List.mem_singleton] at hk'
        rcases hk' with hk' | rfl
        · exact hb3 k' hk'
        · exact ⟨k3, by rw [k2]; exact k4⟩
  have hperm : (order.filterMap fun i => inds[i]?).Perm inds := by
    have := ho.filterMap fun i => inds[i]?
    refine this.trans (List.Perm.of_eq ?_)
    clear this ho h1
    induction inds using List.reverseRecOn with
    | nil => rfl
    | append_singleton l a ih =>
      rw [List.length_append, List.length_singleton, List.range_succ, List.filterMap_append]
      congr 1
      · conv_rhs => rw [← ih]
        refine List.filterMap_congr fun i hi => ?_
        rw [List.mem_range] at hi
        rw [List.getElem?_append_left hi]
      · simp
  refine h1.mono fun rs x hx => ?_
  refine (wlp_mapL (I := fun _ _ y => y = x) rfl ?_).mono fun vs y hy => ⟨_, hperm, hy ▸ hx⟩
  rintro pre i post ys y _ rfl
  unfold lookupResult
  split
  · exact wlp_pure.2 rfl
  · simp

theorem callEval_block (gen r : Nat) {w : World G} (x : World G × List (Call G)) (hg : ∀ q, genomeAt x.1 q = genomeAt w q) :
    wlp (callEval sub gen r) (fun _ y => (∀ q, genomeAt y.1 q = genomeAt w q) ∧
      ∃ k : Call G, y.2 = x.2 ++ [k] ∧ k.ref = r ∧ k.gen = gen ∧ genomeAt w r = some k.genome) x := by
  unfold callEval
  rw [wlp_bind, wlp_onWorld, wlp_deref]
  intro i hi
  rw [wlp_bind, wlp_modify, wlp_onWorld, wlp_rand]
  refine (wlp_true _ _).mono fun v t _ => ⟨hg, _, rfl, rfl, rfl, ?_⟩
  rw [← hg r]
  unfold genomeAt
  rw [hi]; rfl

theorem counted_block {size : G → Nat} {gen : Nat} {inds order : List Nat} (ho : order.Perm (List.range inds.length))
    (w : World G) (calls : List (Call G)) (submit : Bool) :
    wlp (if submit then countedSubmit size sub gen order inds else countedMap size sub gen order inds)
      (fun _ y => ∃ inds', inds'.Perm inds ∧ Block gen inds' w calls y) (w, calls) := by
  rw [wlp_ite]
  constructor
  · intro _
    unfold countedSubmit
    rw [wlp_bind]
    refine (executorMap_block (gen := gen) ho fun r x hg => ?_).mono fun vs y hy => ?_
    · rw [wlp_bind]
      refine (callEval_block gen r x hg).mono ?_
      rintro v y ⟨hg', k⟩
      rw [wlp_bind, wlp_onWorld]
      exact (setFitness_genomes _ _ _).mono fun _ w' hw' => wlp_pure.2 ⟨fun q => (hw' q).trans (hg' q), k⟩
    · rw [wlp_onWorld]
      obtain ⟨inds', hp, hg, hb⟩ := hy
      exact (rest_genomes (fun v => .obj v) inds vs y.1).mono fun _ w' hw' => ⟨inds', hp, fun q => (hw' q).trans (hg q), hb⟩
  · intro _
    unfold countedMap
    rw [wlp_bind]
    refine (executorMap_block ho fun r x hg => callEval_block gen r x hg).mono fun vs y hy => ?_
    rw [wlp_onWorld]
    obtain ⟨inds', hp, hg, hb⟩ := hy
    exact (rest_genomes (fun v => .num v) inds vs y.1).mono fun _ w' hw' => ⟨inds', hp, fun q => (hw' q).trans (hg q), hb⟩

/-- The events of a part of a run, in which no evaluation ends. -/
theorem Accounts.more {log : List (Event G)} {calls : List (Call G)} (h : Accounts log calls) {evs : List (Event G)}
    (hn : ("population_evaluator", "after_operator") ∉ evs.map Event.tag) : Accounts (log ++ evs) calls := by
  induction evs using List.reverseRecOn with
  | nil => simpa using h
  | append_singleton l e ih =>
    rw [← List.append_assoc]
    refine (ih fun hm => hn (by rw [List.map_append]; exact List.mem_append_left _ hm)).other ?_
    rintro ⟨h1, h2⟩
    apply hn
    rw [List.map_append, List.mem_append, List.map_singleton, List.mem_singleton]
    exact .inr (Prod.ext h1.symm h2.symm)

/-- What a computation on a run with a record keeps. -/
abbrev Booked (x : Run G κ × List (Call G)) : Prop := Accounts x.1.log x.2

theorem onRun_booked {p : RM G κ α} {tags : List (String × String)} {x : Run G κ × List (Call G)}
    (hp : wlp p (fun _ s' => Goes tags x.1 s') x.1) (ht : ("population_evaluator", "after_operator") ∉ tags) (h : Booked x) :
    wlp (onRun p) (fun _ y => Booked y) x := by
  rw [wlp_onRun]
  refine hp.mono fun _ s' hg => ?_
  obtain ⟨evs, hl, he⟩ := hg.log
  show Accounts s'.log x.2
  rw [hl]
  exact h.more (by rw [he]; exact ht)

theorem modify_goes {f : Run G κ → Run G κ} (hf : ∀ s, (f s).log = s.log) {x : Run G κ × List (Call G)} (h : Booked x) :
    wlp (onRun (modify f)) (fun _ y => Booked y) x := by
  rw [wlp_onRun, wlp_modify]
  show Accounts (f x.1).log x.2
  rw [hf]
  exact h

theorem shouldTerminate_booked {gen : Nat} {x : Run G κ × List (Call G)} (h : Booked x) :
    wlp (onRun (shouldTerminate c gen)) (fun _ y => Booked y) x := by
  rw [wlp_onRun]
  intro v s' e
  obtain ⟨ks, rfl⟩ := shouldTerminate_same gen _ s' e
  exact h

theorem countedPopulation_booked (hs : ∀ g n, (c.sched g n).Perm (List.range n)) {x : Run G κ × List (Call G)} (h : Booked x) :
    wlp (countedPopulation c) (fun _ y => Booked y) x := by
  unfold countedPopulation
  rw [wlp_bind]
  refine (onRun_booked (goes_publish _ _ _) (by decide) h).mono fun _ x₁ h1 => ?_
  rw [wlp_bind]
  unfold countedBody
  rw [wlp_bind, wlp_get]
  split
  · rename_i sub is h2 h3
    rw [wlp_ite]
    refine ⟨fun _ => by simp, fun _ => ?_⟩
    unfold besideRun
    rw [wlp_zoom]
    refine (counted_block (hs _ _) x₁.1.w x₁.2 c.submit).mono ?_
    rintro b ⟨w, calls⟩ ⟨inds', hp, hg, block, hb1, hb2, hb3⟩
    rw [wlp_bind, wlp_onRun]
    unfold publish
    rw [wlp_modify]
    refine wlp_pure.2 ?_
    show Accounts (x₁.1.log ++ [_]) calls
    have hb1' : calls = x₁.2 ++ block := hb1
    rw [hb1']
    refine Accounts.eval h1 ⟨rfl, rfl⟩ (is := is) h3 (by rw [hb2]; exact hp) fun k hk => ⟨(hb3 k hk).1, ?_⟩
    have := (hg k.ref).trans (hb3 k hk).2
    exact this
  · simp
  · simp

theorem countedGeneration_booked (hs : ∀ g n, (c.sched g n).Perm (List.range n)) {x : Run G κ × List (Call G)} (h : Booked x) :
    wlp (countedGeneration c) (fun _ y => Booked y) x := by
  unfold countedGeneration
  rw [wlp_bind]
  refine (onRun_booked (goes_act "breeder" (goes_breedBody c)) (by decide) h).mono fun _ x₁ h1 => ?_
  rw [wlp_bind]
  refine (countedPopulation_booked hs h1).mono fun b x₂ h2 => ?_
  rw [wlp_bind]
  refine (modify_goes (by simp) h2).mono fun _ x₃ h3 => ?_
  rw [wlp_bind, wlp_onRun]
  have hb : wlp (recordBest c b) (fun _ s' => s'.log = x₃.1.log) x₃.1 := by
    unfold recordBest
    rw [wlp_bind, wlp_get, wlp_bind]
    unfold world
    rw [wlp_zoom]
    refine (wlp_true _ _).mono fun v w _ => ?_
    rw [wlp_ite, wlp_modify, wlp_pure]
    exact ⟨fun _ => rfl, fun _ => rfl⟩
  refine hb.mono fun _ s₄ h4 => ?_
  rw [wlp_onRun]
  have hw : wlp (recordWorst c) (fun _ s' => s'.log = s₄.log) s₄ := by
    unfold recordWorst
    rw [wlp_bind, wlp_get]
    split
    · rw [wlp_bind]
      unfold world
      rw [wlp_zoom]
      refine (wlp_true _ _).mono fun v w _ => ?_
      rw [wlp_modify]
    · simp
  refine hw.mono fun _ s₅ h5 => ?_
  show Accounts s₅.log x₃.2
  rw [h5, h4]
  exact h3

theorem countedLoop_booked (hs : ∀ g n, (c.sched g n).Perm (List.range n)) (n gen : Nat) {x : Run G κ × List (Call G)} (h : Booked x) :
    wlp (countedLoop c n gen) (fun _ y => Booked y) x := by
  induction n generalizing gen x with
  | zero => exact wlp_pure.2 h
  | succ n ih =>
    unfold countedLoop
    rw [wlp_bind]
    refine (modify_goes (by simp) h).mono fun _ x₁ h1 => ?_
    rw [wlp_bind]
    refine (onRun_booked (goes_updateGen gen _) (by simp) h1).mono fun _ x₂ h2 => ?_
    rw [wlp_bind, wlp_get, wlp_bind]
    unfold setSeed
    refine (modify_goes (by simp) h2).mono fun _ x₃ h3 => ?_
    rw [wlp_bind]
    refine (modify_goes (by simp) h3).mono fun _ x₄ h4 => ?_
    rw [wlp_bind]
    refine (countedGeneration_booked hs h4).mono fun _ x₅ h5 => ?_
    rw [wlp_bind]
    refine (shouldTerminate_booked h5).mono fun stop x₆ h6 => ?_
    rw [wlp_ite]
    constructor
    · intro _
      rw [wlp_bind]
      exact (modify_goes (by simp) h6).mono fun _ x₇ h7 => onRun_booked (goes_publish _ _ _) (by decide) h7
    · intro _
      rw [wlp_bind]
      exact (onRun_booked (goes_publish _ _ _) (by decide) h6).mono fun _ x₇ h7 => ih _ h7

theorem countedEvolve_booked (hs : ∀ g n, (c.sched g n).Perm (List.range n)) {s : Run G κ} (hlog : s.log = []) :
    wlp (countedEvolve c) (fun _ y => Booked y) (s, []) := by
  have h : Booked (s, ([] : List (Call G))) := by
    show Accounts s.log []
    rw [hlog]
    exact .nil
  unfold countedEvolve
  rw [wlp_bind]
  unfold countedInit
  rw [wlp_bind, wlp_get, wlp_bind]
  unfold setSeed
  refine (modify_goes (by simp) h).mono fun _ x₁ h1 => ?_
  rw [wlp_bind]
  have hc : wlp (createPopulation c) (fun _ s' => Goes [] x₁.1 s') x₁.1 := by
    unfold createPopulation
    refine goes_get_bind (goes_bind (goes_world _ _) (fun is s₂ _ => ?_) (b := []) rfl)
    rw [wlp_modify]
    exact Goes.quiet rfl rfl rfl rfl rfl rfl rfl
  refine (onRun_booked hc (by simp) h1).mono fun _ x₂ h2 => ?_
  rw [wlp_bind]
  refine (countedPopulation_booked hs h2).mono fun b x₃ h3 => ?_
  rw [wlp_bind]
  refine (modify_goes (by simp) h3).mono fun _ x₄ h4 => ?_
  refine (onRun_booked (goes_publish _ _ _) (by decide) h4).mono fun _ x₅ h5 => ?_
  rw [wlp_bind]
  unfold countedAfterInit
  rw [wlp_bind, wlp_get, wlp_bind]
  refine (shouldTerminate_booked h5).mono fun stop x₆ h6 => ?_
  have hend : ∀ x : Run G κ × List (Call G), Booked x → wlp (do
      onRun (publish "algorithm" "evolution_finished")
      onRun (PyM.modify fun s => { s with shutdown := true })) (fun _ y => Booked y) x := by
    intro x hx
    rw [wlp_bind]
    exact (onRun_booked (goes_publish _ _ _) (by decide) hx).mono fun _ x' h' => modify_goes (by simp) h'
  rw [wlp_ite]
  constructor
  · intro _
    rw [wlp_bind]
    refine (modify_goes (by simp) h6).mono fun _ x₇ h7 => ?_
    exact (onRun_booked (goes_publish _ _ _) (by decide) h7).mono fun _ x₈ h8 => hend x₈ h8
  · intro _
    exact (countedLoop_booked hs _ _ h6).mono fun _ x₈ h8 => hend x₈ h8

/-- **C129, calls.** The calls of the evaluator in a run that returns are those its events account for: the evaluation of
each generation calls `evaluate_individual` exactly once for each individual of the population, with its genome.  For all
configurations, creators, operators, selection methods, evaluators and checkers, with both executor methods, and for all
orders in which the workers may run. -/
theorem C129_calls (hs : ∀ g n, (c.sched g n).Perm (List.range n)) {s s' : Run G κ} {calls : List (Call G)} (hlog : s.log = [])
    (hrun : countedEvolve c (s, []) = (.ok (), (s', calls))) : Accounts s'.log calls :=
  countedEvolve_booked hs hlog () (s', calls) hrun

/-! ## How many -/

open Classical in
theorem Accounts.count {N : Nat} {log : List (Event G)} {calls : List (Call G)} (h : Accounts log calls) (hp : Paced N log) :
    calls.length = N * (log.map Event.tag).count ("population_evaluator", "after_operator") := by
  induction h with
  | nil => simp
  | @other log calls e h he ih =>
    have hp' : Paced N log := ⟨fun e' he' => hp.size e' (by simp [he']), (List.pairwise_append.1 hp.once).1⟩
    rw [ih hp', List.map_append, List.count_append]
    have : [e].map Event.tag = [e.tag] := rfl
    rw [this, List.count_singleton, if_neg, Nat.add_zero]
    intro hc
    exact he ⟨congrArg Prod.fst (eq_of_beq hc), congrArg Prod.snd (eq_of_beq hc)⟩
  | @eval log calls block e is h he shown each right ih =>
    have hp' : Paced N log := ⟨fun e' he' => hp.size e' (by simp [he']), (List.pairwise_append.1 hp.once).1⟩
    obtain ⟨js, hj, hl, -⟩ := hp.size e (by simp)
    rw [shown] at hj
    simp only [List.cons.injEq, Option.some.injEq, and_true] at hj
    have hb : block.length = N := by rw [← hl, ← hj, ← each.length_eq, List.length_map]
    rw [List.length_append, ih hp', hb, List.map_append, List.count_append]
    have : [e].map Event.tag = [("population_evaluator", "after_operator")] := by
      rw [List.map_singleton]
      congr 1
      exact Prod.ext he.1 he.2
    rw [this, List.count_singleton_self, Nat.mul_add, Nat.mul_one]

theorem Accounts.shown {log : List (Event G)} {calls : List (Call G)} (h : Accounts log calls) :
    ∀ k ∈ calls, ∃ e ∈ log, e.IsEval ∧ e.Shows k.ref := by
  induction h with
  | nil => simp
  | other h he ih =>
    intro k hk
    obtain ⟨e', h1, h2, h3⟩ := ih k hk
    exact ⟨e', by simp [h1], h2, h3⟩
  | @eval log calls block e is h he shown each right ih =>
    intro k hk
    rw [List.mem_append] at hk
    rcases hk with hk | hk
    · obtain ⟨e', h1, h2, h3⟩ := ih k hk
      exact ⟨e', by simp [h1], h2, h3⟩
    · exact ⟨e, by simp, he, is, by rw [shown]; simp, each.mem_iff.1 (List.mem_map_of_mem hk)⟩

theorem Accounts.nodup {N : Nat} {log : List (Event G)} {calls : List (Call G)} (h : Accounts log calls) (hp : Paced N log) :
    (calls.map Call.ref).Nodup := by
  induction h with
  | nil => simp
  | other h he ih => exact ih ⟨fun e' he' => hp.size e' (by simp [he']), (List.pairwise_append.1 hp.once).1⟩
  | @eval log calls block e is h he shown each right ih =>
    have hp' : Paced N log := ⟨fun e' he' => hp.size e' (by simp [he']), (List.pairwise_append.1 hp.once).1⟩
    obtain ⟨js, hj, -, hn⟩ := hp.size e (by simp)
    rw [shown] at hj
    simp only [List.cons.injEq, Option.some.injEq, and_true] at hj
    rw [List.map_append, List.nodup_append']
    refine ⟨ih hp', each.nodup_iff.2 (hj ▸ hn), fun r hr hr' => ?_⟩
    obtain ⟨k, hk, rfl⟩ := List.mem_map.1 hr
    obtain ⟨e', h1, h2, h3⟩ := h.shown k hk
    exact (List.pairwise_append.1 hp.once).2.2 e' h1 e (by simp) h2 he _ h3
      ⟨is, by rw [shown]; simp, each.mem_iff.1 hr'⟩

theorem Course.evaluations {s s' : Run G κ} {snaps : List (Snapshot G)} {stop : Bool} (h : Course c s s' snaps stop) :
    (s'.log.map Event.tag).count ("population_evaluator", "after_operator") = s'.genNum + 1 := by
  rw [h.tags, h.genNum]
  generalize snaps.length - 1 = n
  have h1 : ((List.replicate n genTags).flatten).count ("population_evaluator", "after_operator") = n := by
    induction n with
    | zero => rfl
    | succ n ih =>
      rw [List.replicate_succ, List.flatten_cons, List.count_append, ih]
      have : genTags.count ("population_evaluator", "after_operator") = 1 := by decide
      omega
  have h2 : initTags.count ("population_evaluator", "after_operator") = 1 := by decide
  rw [List.count_append, List.count_append, List.count_append, h1, h2]
  split <;> simp <;> omega

/-- **C129, budget.** In an ordinary run every event shows a population of the same size; if the run returns after
generation `g`, the evaluator has been called exactly `g + 1` times that number, and never twice for the same individual. -/
theorem C129_budget (hc : c.Ordinary sub m) {s s' : Run G κ} {calls : List (Call G)} (hr : s.Ready m) (hlog : s.log = [])
    (hg : s.genNum = 0) (hf : c.Fits s.checkers) (hrun : countedEvolve c (s, []) = (.ok (), (s', calls))) :
    ∃ N, (∃ is, s'.inds = [some is] ∧ is.length = N) ∧
      (∀ e ∈ s'.log, ∃ is, e.snap.inds = [some is] ∧ is.length = N ∧ is.Nodup) ∧
      calls.length = N * (s'.genNum + 1) ∧ (calls.map Call.ref).Nodup := by
  have hev : evolve c s = (.ok (), s') := by rw [C129_same c s [], hrun]
  obtain ⟨N, hst⟩ := evolve_steady hc hr hlog _ s' hev
  obtain ⟨snaps, stop, hco⟩ := C36_course hlog hg hf hev
  have hacc := C129_calls hc.sched hlog hrun
  obtain ⟨is, hi, hl, -⟩ := hst.pop
  exact ⟨N, ⟨is, hi, hl⟩, hst.log.size, by rw [hacc.count hst.log, hco.evaluations], hacc.nodup hst.log⟩

/-- **C129, size.** However an ordinary run ends, all events show populations of the same size, made of distinct
individuals. -/
theorem C129_size (hc : c.Ordinary sub m) {s s' : Run G κ} (hr : s.Ready m) (hlog : s.log = []) {r : Except Err Unit}
    (hrun : evolve c s = (r, s')) : ∃ N, ∀ e ∈ s'.log, ∃ is, e.snap.inds = [some is] ∧ is.length = N ∧ is.Nodup := by
  have := evolve_steady hc hr hlog r s' hrun
  cases r with
  | ok _ => obtain ⟨N, h⟩ := this; exact ⟨N, h.log.size⟩
  | error _ => obtain ⟨N, h⟩ := this; exact ⟨N, h.size⟩

/-- What the evaluator has been called for when a run with populations of `n` individuals has gone well. -/
structure Spent (c : Cfg G κ) (n : Nat) (s' : Run G κ) (calls : List (Call G)) : Prop where
  number : calls.length = n * (s'.genNum + 1)
  bound : calls.length ≤ n * (c.maxGen + 1)
  full : c.checker = .none → calls.length = n * (c.maxGen + 1)
  once : (calls.map Call.ref).Nodup
  accounts : Accounts s'.log calls

theorem Consultations.never (hn : c.checker = .none) {gen : Nat} {snaps : List (Snapshot G)} {ks ks' : List κ} {stop : Bool}
    (h : Consultations c gen snaps ks stop ks') : stop = false := by
  induction h with
  | done => rfl
  | stop _ h => simp [Asked, hn] at h
  | next _ _ _ ih => exact ih

theorem spent_of_completed {P : G → Prop} (hc : c.Ordinary sub m) {s s' : Run G κ} (hr : s.Ready m) (hlog : s.log = [])
    (hg : s.genNum = 0) (hf : c.Fits s.checkers) (hev : evolve c s = (.ok (), s')) (hd : Completed P c sub m s') :
    ∃ calls, countedEvolve c (s, []) = (.ok (), (s', calls)) ∧ Spent c sub.popSize s' calls := by
  have hrun : countedEvolve c (s, []) = (.ok (), (s', (countedEvolve c (s, [])).2.2)) := by
    have := C129_same c s []
    rw [hev] at this
    exact Prod.ext (congrArg Prod.fst this).symm (Prod.ext (congrArg Prod.snd this).symm rfl)
  refine ⟨_, hrun, ?_⟩
  obtain ⟨N, ⟨is, h1, h2⟩, -, h3, h4⟩ := C129_budget hc hr hlog hg hf hrun
  obtain ⟨-, -, js, -, -, h5, h6, -⟩ := hd
  rw [h1] at h5
  simp only [List.cons.injEq, Option.some.injEq, and_true] at h5
  have hN : N = sub.popSize := by rw [← h2, h5, h6]
  subst hN
  obtain ⟨snaps, stop, hco⟩ := C36_course hlog hg hf hev
  have hle := hco.le
  have hgn := hco.genNum
  have hb : s'.genNum + 1 ≤ c.maxGen + 1 := by omega
  refine ⟨h3, by rw [h3]; exact Nat.mul_le_mul_left _ hb, fun hn => ?_, h4, C129_calls hc.sched hlog hrun⟩
  have hfull := hco.full (hco.asked.never hn)
  have : s'.genNum = c.maxGen := by omega
  rw [h3, this]

/-! ## Instances -/

example (s : Run Nat Nat) := C129_same exCfg s

theorem exCounted_ends : (countedEvolve exCfg (exRun, [])).1 = .ok () ∧
    (countedEvolve exCfg (exRun, [])).2.2.map Call.gen = [0, 0, 0, 1, 1, 1, 2, 2, 2] := by decide +kernel

theorem pair_ran {σ τ α : Type} {p : PyM (σ × τ) α} {x : σ × τ} {a : α} (h : (p x).1 = .ok a) :
    ∃ s t, p x = (.ok a, (s, t)) := ⟨_, _, ran h⟩

example : ∃ s' calls, countedEvolve exCfg (exRun, []) = (.ok (), (s', calls)) ∧ Accounts s'.log calls := by
  obtain ⟨s', calls, h⟩ := pair_ran exCounted_ends.1
  exact ⟨s', calls, h, C129_calls exCfg_ordinary.sched rfl h⟩

example : ∃ s' calls, countedEvolve exCfg (exRun, []) = (.ok (), (s', calls)) ∧ (calls.map Call.ref).Nodup := by
  obtain ⟨s', calls, h⟩ := pair_ran exCounted_ends.1
  obtain ⟨-, -, -, -, hn⟩ := C129_budget exCfg_ordinary (s := exRun) (.inl rfl) rfl rfl (by simp [Cfg.Fits, exCfg, exRun]) h
  exact ⟨s', calls, h, hn⟩

example := C129_size exCfg_ordinary (s := exRun) (.inl rfl) rfl (r := .ok ()) (s' := (evolve exCfg exRun).2) (ran exRun_ends.1)

end Verif.Evo

namespace Verif.GP
open Verif.Evo PyM
variable {κ : Type} {cfg : GP.Cfg} {m : Mode}

/-- **C129, tree GP.** A run of tree GP whose evaluator and checkers do not raise calls the evaluator exactly `popSize`
times in each generation, once for each individual. -/
theorem C129_programs (hp : cfg.Plain) {c : Evo.Cfg GP.Ind κ} {sub : SubCfg GP.Ind}
    (h : c.BuiltWith sub m (SizedCreator cfg m sub.popSize) LibOp) (hs : c.Smooth (Legal cfg) sub) {s : Run GP.Ind κ}
    (ho : s.Open (PlainLegal cfg) c sub m) (hlog : s.log = []) (hg : s.genNum = 0) :
    ∃ s' calls, countedEvolve c (s, []) = (.ok (), (s', calls)) ∧ Spent c sub.popSize s' calls := by
  obtain ⟨s', hev, hd⟩ := C80_programs hp h hs ho
  exact ⟨s', spent_of_completed (h.ordinary (fun _ h => h.lib.good) (fun _ h => h.good)) ho.ready hlog hg ho.fits hev hd⟩

example := C129_programs exPlain exLibCfg_sized exLibCfg_smooth exLibRun_open rfl rfl

end Verif.GP

namespace Verif.GA
open Verif.Evo PyM
variable {κ : Type} {kind : Kind} {bounds : Bounds} {length : Nat} {m : Mode}

/-- **C129, vectors.** Likewise for the vector individuals. -/
theorem C129_vectors (hb : bounds.Proper kind length) {c : Evo.Cfg Vec κ} {sub : SubCfg Vec}
    (h : c.BuiltWith sub m (LibCreator kind bounds length m) (PairedOp kind length))
    (hs : c.Smooth (Legal kind bounds length) sub) {s : Run Vec κ} (ho : s.Open (Legal kind bounds length) c sub m)
    (hlog : s.log = []) (hg : s.genNum = 0) :
    ∃ s' calls, countedEvolve c (s, []) = (.ok (), (s', calls)) ∧ Spent c sub.popSize s' calls := by
  obtain ⟨s', hev, hd⟩ := C80_vectors hb h hs ho
  exact ⟨s', spent_of_completed (h.ordinary (fun _ h => h.good hb) (fun _ h => h.1.good)) ho.ready hlog hg ho.fits hev hd⟩

theorem exLib_paired : ∀ o ∈ exLibSub.ops, PairedOp .float 3 o := by
  intro o ho
  simp only [exLibSub, List.mem_cons, List.not_mem_nil, or_false] at ho
  rcases ho with rfl | rfl
  · exact ⟨.crossover _ _ _ (by omega), fun _ => le_refl _⟩
  · refine ⟨.mutation _ _ _ rfl (by simp [MutationClass.points]), fun h => ?_⟩
    simp [MutationClass.asOp, gaussNOp, Op.withFallback] at h

theorem exLib_smooth : exLibCfg.Smooth (Legal .float (.tup [0, 1]) 3) exLibSub where
  popSize := by decide
  arities := by
    intro a ha
    simp [exLibSub, crossoverOp, MutationClass.asOp, gaussNOp, Op.withFallback, Op.inPlace, tournament] at ha
    rcases ha with rfl | rfl | rfl <;> decide
  pick := fun t => ⟨0, t, rfl, by decide⟩
  select := by
    intro sel rest h
    simp only [exLibSub, List.cons.injEq] at h
    obtain ⟨rfl, -⟩ := h
    exact tournament_worksOn (by omega) (by simp [exLibSub])
  evaluate := fun _ _ => Total.pure
  calm := trivial

example : ∃ s' calls, countedEvolve exLibCfg (exLibRun, []) = (.ok (), (s', calls)) ∧ Spent exLibCfg exLibSub.popSize s' calls :=
  C129_vectors exLib_proper { exLibCfg_built with ops := exLib_paired } exLib_smooth
    ⟨.inl rfl, by simp [exLibRun], by simp [Cfg.Fits, exLibCfg, exLibRun], rfl, fun _ _ => trivial⟩ rfl rfl

end Verif.GA
