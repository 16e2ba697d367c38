import Verif.Model.MooCounted
import Verif.Props.Budget
import Verif.Props.MooCourse
import Verif.Props.MooTotal

/-! # C130: the calls of the evaluator in multi-objective runs -/

namespace Verif.Moo
open PyM
variable {G α : Type} {c : MCfg G} {n m : Nat} {ds : List Bool}

/-! ## Recording the calls changes nothing -/

theorem beside_sim {σ : Type} (p : PyM σ α) : Sim Prod.fst id p (beside (G := G) p) := by
  intro x
  unfold beside zoom
  cases h : p x.1 with
  | mk r w => cases r <;> rfl

theorem besideM_sim {p : MM G α} {q : PyM (MWorld G × List (Evo.Call G)) α} (h : Sim Prod.fst id p q) :
    Sim Prod.fst id (mworld p) (besideM q) := by
  intro x
  have := h (x.1.w, x.2)
  unfold mworld besideM zoom
  dsimp only at this ⊢
  rw [this]

theorem mcallEval_sim {sub : MSub G} (gen r : Nat) : Sim Prod.fst id (runEvalM sub r) (mcallEval sub gen r) := by
  unfold runEvalM mcallEval
  refine Sim.get_bind fun x => ?_
  intro y
  exact beside_sim (mrand (sub.evaluate (x.1.genome r))) (y.1, y.2 ++ [⟨gen, r, x.1.genome r⟩])

theorem mcountedMap_sim {sub : MSub G} (gen : Nat) (order inds : List Nat) :
    Sim Prod.fst id (evaluateM sub order inds) (mcountedMap sub gen order inds) := by
  unfold evaluateM mcountedMap
  exact Sim.bind (ρ := id) (Evo.executorMap_beside (fun r => mcallEval_sim gen r) inds) fun scores => beside_sim _

theorem mcountedPopulation_sim : Sim Prod.fst id (mevaluate c) (mcountedPopulation c) := by
  unfold mevaluate mact mcountedPopulation mevaluateBody mcountedBody
  refine Sim.bind (ρ := id) (beside_sim _) fun _ => Sim.bind (ρ := id) ?_ fun b =>
    Sim.bind (ρ := id) (beside_sim _) fun _ => Sim.pure rfl
  exact Sim.bind (ρ := id) (beside_sim _) fun is => Sim.get_bind fun x => besideM_sim (mcountedMap_sim _ _ _)

theorem mcountedInit_sim : Sim Prod.fst id (minit c) (mcountedInit c) := by
  unfold minit mcountedInit
  exact Sim.get_bind fun x => Sim.bind (ρ := id) (beside_sim _) fun _ => Sim.bind (ρ := id) (beside_sim _) fun _ =>
    Sim.bind (ρ := id) mcountedPopulation_sim fun b => Sim.bind (ρ := id) (beside_sim _) fun _ => beside_sim _

theorem mcountedGeneration_sim : Sim Prod.fst id (mgeneration c) (mcountedGeneration c) := by
  unfold mgeneration mcountedGeneration
  exact Sim.bind (ρ := id) (beside_sim _) fun _ => Sim.bind (ρ := id) mcountedPopulation_sim fun b =>
    Sim.bind (ρ := id) (beside_sim _) fun _ => beside_sim _

theorem mcountedLoop_sim (k gen : Nat) : Sim Prod.fst id (mloop c k gen) (mcountedLoop c k gen) := by
  induction k generalizing gen with
  | zero => exact Sim.pure rfl
  | succ k ih =>
    unfold mloop mcountedLoop
    refine Sim.bind (ρ := id) (beside_sim _) fun _ => Sim.bind (ρ := id) (beside_sim _) fun _ => Sim.get_bind fun x => ?_
    refine Sim.bind (ρ := id) (beside_sim _) fun _ => Sim.bind (ρ := id) (beside_sim _) fun _ =>
      Sim.bind (ρ := id) mcountedGeneration_sim fun _ => Sim.bind (ρ := id) (beside_sim _) fun stop => ?_
    refine Sim.ite Iff.rfl (fun _ => ?_) fun _ => ?_
    · exact Sim.bind (ρ := id) (beside_sim _) fun _ => beside_sim _
    · exact Sim.bind (ρ := id) (beside_sim _) fun _ => ih _

theorem mcountedEvolve_sim : Sim Prod.fst id (mevolve c) (mcountedEvolve c) := by
  unfold mevolve mcountedEvolve mafterInit mcountedAfterInit
  refine Sim.bind (ρ := id) mcountedInit_sim fun _ => Sim.bind (ρ := id) ?_ fun _ => Sim.bind (ρ := id) (beside_sim _) fun _ => beside_sim _
  refine Sim.get_bind fun x => Sim.bind (ρ := id) (beside_sim _) fun stop => ?_
  refine Sim.ite Iff.rfl (fun _ => ?_) fun _ => mcountedLoop_sim _ _
  exact Sim.bind (ρ := id) (beside_sim _) fun _ => beside_sim _

/-- **C130.** The record of the calls is all that `mcountedEvolve` adds to `mevolve`. -/
theorem C130_same (c : MCfg G) (s : MRun G) (calls : List (Evo.Call G)) :
    mevolve c s = ((mcountedEvolve c (s, calls)).1, (mcountedEvolve c (s, calls)).2.1) := by
  have := mcountedEvolve_sim (c := c) (s, calls)
  rwa [Evo.except_map_id] at this

/-! ## Which calls there are -/

/-- `evaluate_individual` returns `v` for a genome, for some state of the random generator. -/
def Gives (ev : G → Rand (List ℚ)) (g : G) (v : List ℚ) : Prop := ∃ t t', ev g t = (.ok v, t')

/-- The end of an evaluation. -/
def MEvent.IsEval (e : MEvent) : Prop := e.publisher = "population_evaluator" ∧ e.name = "after_operator"

/-- The calls during a run, accounted for by its events: between two ends of evaluations there is exactly one call for each
individual of the population shown at the second, and the objectives it has there are what the call returned. -/
inductive MAccounts (ev : G → Rand (List ℚ)) : List MEvent → List (Evo.Call G) → Prop
  | nil : MAccounts ev [] []
  | other {log : List MEvent} {calls : List (Evo.Call G)} {e : MEvent} (h : MAccounts ev log calls) (he : ¬ e.IsEval) :
      MAccounts ev (log ++ [e]) calls
  | eval {log : List MEvent} {calls block : List (Evo.Call G)} {e : MEvent} (h : MAccounts ev log calls) (he : e.IsEval)
      (nodup : e.inds.Nodup) (each : (block.map Evo.Call.ref).Perm e.inds)
      (right : ∀ k ∈ block, k.gen = e.genNum ∧ ∃ v, Gives ev k.genome v ∧ (e.fits k.ref).objs = some v) :
      MAccounts ev (log ++ [e]) (calls ++ block)

theorem wlp_beside {σ : Type} {p : PyM σ α} {Q : α → σ × List (Evo.Call G) → Prop} {x : σ × List (Evo.Call G)} :
    wlp (beside p) Q x ↔ wlp p (fun a w => Q a (w, x.2)) x.1 := wlp_zoom

/-- What the tasks of the executor have done: `done` are the places that have been worked at. -/
structure Called (sub : MSub G) (gen : Nat) (inds : List Nat) (w : MWorld G) (calls : List (Evo.Call G)) (block : List (Evo.Call G))
    (x : MWorld G × List (Evo.Call G)) (done : List Nat) : Prop where
  fits : x.1.fits = w.fits
  genome : x.1.genome = w.genome
  calls : x.2 = calls ++ block
  refs : block.map Evo.Call.ref = done.filterMap fun i => inds[i]?
  right : ∀ k ∈ block, k.gen = gen ∧ k.genome = w.genome k.ref

theorem tasks_called {sub : MSub G} {gen : Nat} {inds : List Nat} {w : MWorld G} {calls : List (Evo.Call G)} (order : List Nat) :
    wlp (mapL (Evo.runTask (mcallEval sub gen) inds) order) (fun (ys : List (Nat × List ℚ)) x => ∃ block,
      Called sub gen inds w calls block x order ∧
      ∀ p ∈ ys, ∃ r, inds[p.1]? = some r ∧ Gives sub.evaluate (w.genome r) p.2) (w, calls) := by
  refine wlp_mapL (I := fun done (ys : List (Nat × List ℚ)) x => ∃ block, Called sub gen inds w calls block x done ∧
      ∀ p ∈ ys, ∃ r, inds[p.1]? = some r ∧ Gives sub.evaluate (w.genome r) p.2) ⟨[], ⟨rfl, rfl, by simp, rfl, by simp⟩, by simp⟩ ?_
  rintro pre i post ys x _ ⟨block, hb, hy⟩
  unfold Evo.runTask
  cases hi : inds[i]? with
  | none => simp
  | some r =>
    dsimp only
    unfold mcallEval
    rw [wlp_bind, wlp_bind, wlp_get, wlp_bind, wlp_modify, wlp_beside, wlp_mrand]
    intro v t ht
    refine wlp_pure.2 ⟨block ++ [⟨gen, r, x.1.genome r⟩], ⟨hb.fits, hb.genome, ?_, ?_, ?_⟩, ?_⟩
    · show x.2 ++ _ = _
      rw [hb.calls, List.append_assoc]
    · simp [List.filterMap_append, hi, hb.refs]
    · intro k hk
      rw [List.mem_append, List.mem_singleton] at hk
      rcases hk with hk | rfl
      · exact hb.right k hk
      · exact ⟨rfl, by rw [hb.genome]⟩
    · intro p hp
      rw [List.mem_append, List.mem_singleton] at hp
      rcases hp with hp | rfl
      · exact hy p hp
      · exact ⟨r, hi, _, _, by rw [← hb.genome]; exact ht⟩

theorem places_perm {inds order : List Nat} (ho : order.Perm (List.range inds.length)) : (order.filterMap fun i => inds[i]?).Perm inds := by
  refine (ho.filterMap fun i => inds[i]?).trans (List.Perm.of_eq ?_)
  clear ho
  induction inds using List.reverseRecOn with
  | nil => rfl
  | append_singleton l a ih =>
    rw [List.length_append, List.length_singleton, List.range_succ, List.filterMap_append]
    congr 1
    · conv_rhs => rw [← ih]
      refine List.filterMap_congr fun i hi => ?_
      rw [List.mem_range] at hi
      rw [List.getElem?_append_left hi]
    · simp

theorem executorMap_called {sub : MSub G} {gen : Nat} {inds order : List Nat} {w : MWorld G} {calls : List (Evo.Call G)} :
    wlp (Evo.executorMap order (mcallEval sub gen) inds) (fun vs x => ∃ block, Called sub gen inds w calls block x order ∧
      ∀ p ∈ inds.zip vs, Gives sub.evaluate (w.genome p.1) p.2) (w, calls) := by
  unfold Evo.executorMap
  rw [wlp_bind]
  refine (tasks_called order).mono ?_
  rintro ys x ⟨block, hb, hy⟩
  refine (wlp_mapL (I := fun pre vs x' => x' = x ∧
    List.Forall₂ (fun i v => ∃ r, inds[i]? = some r ∧ Gives sub.evaluate (w.genome r) v) pre vs) ⟨rfl, .nil⟩ ?_).mono ?_
  · rintro pre i post vs x' _ ⟨rfl, hv⟩
    unfold Evo.lookupResult
    split
    · rename_i p hp
      refine wlp_pure.2 ⟨rfl, List.rel_append hv (.cons ?_ .nil)⟩
      have h1 := hy p (List.mem_of_find?_eq_some hp)
      have h2 := List.find?_some hp
      rwa [beq_iff_eq.1 h2] at h1
    · simp
  · rintro vs _ ⟨rfl, hv⟩
    refine ⟨block, hb, fun p hp => ?_⟩
    obtain ⟨i, hi, he⟩ := List.mem_iff_getElem.1 hp
    rw [List.getElem_zip] at he
    rw [List.length_zip] at hi
    have hi1 : i < inds.length := by omega
    have hi2 : i < vs.length := by omega
    obtain ⟨r, h1, h2⟩ := (List.forall₂_iff_get.1 hv).2 i (by simpa using hi1) hi2
    simp only [List.get_eq_getElem, List.getElem_range] at h1 h2
    rw [List.getElem?_eq_getElem hi1] at h1
    rw [← he, Option.some.inj h1]
    exact h2

theorem assigns_once (ps : List (Nat × List ℚ)) (w : MWorld G) :
    wlp (forL (fun (p : Nat × List ℚ) => assign p.1 p.2) ps) (fun _ w' => w'.genome = w.genome ∧ (ps.map Prod.fst).Nodup ∧
      ∀ p ∈ ps, (w'.fits p.1).objs = some p.2) w := by
  refine wlp_forL (I := fun pre (w' : MWorld G) => w'.genome = w.genome ∧ (pre.map Prod.fst).Nodup ∧ ∀ p ∈ pre, (w'.fits p.1).objs = some p.2)
    ⟨rfl, by simp, by simp⟩ ?_
  rintro pre p post w₁ _ ⟨h1, h2, h3⟩
  unfold assign
  rw [wlp_bind, wlp_get, wlp_bind, wlp_ofExcept]
  intro f hf
  rw [wlp_setFit]
  unfold Fit.set at hf
  have hnone : (w₁.fits p.1).objs = none ∧ f.objs = some p.2 := by
    split at hf
    · exact absurd hf (by simp)
    · rename_i h
      simp only [Except.ok.injEq] at hf
      exact ⟨h, by rw [← hf]⟩
  have hnew : ∀ q ∈ pre, q.1 ≠ p.1 := fun q hq he => by
    have := h3 q hq
    rw [he, hnone.1] at this
    exact absurd this (by simp)
  refine ⟨h1, ?_, fun q hq => ?_⟩
  · rw [List.map_append, List.nodup_append]
    refine ⟨h2, by simp, fun a ha b hb => ?_⟩
    obtain ⟨q, hq, rfl⟩ := List.mem_map.1 ha
    rw [List.map_singleton, List.mem_singleton] at hb
    rw [hb]
    exact hnew q hq
  · dsimp only
    rw [List.mem_append, List.mem_singleton] at hq
    rcases hq with hq | rfl
    · rw [if_neg (hnew q hq)]; exact h3 q hq
    · rw [if_pos rfl]; exact hnone.2

/-- The calls made by one evaluation. -/
structure MBlock (sub : MSub G) (gen : Nat) (inds : List Nat) (fits : Heap) (block : List (Evo.Call G)) : Prop where
  nodup : inds.Nodup
  each : (block.map Evo.Call.ref).Perm inds
  right : ∀ k ∈ block, k.gen = gen ∧ ∃ v, Gives sub.evaluate k.genome v ∧ (fits k.ref).objs = some v

theorem mcounted_block {sub : MSub G} {gen : Nat} {inds order : List Nat} (ho : order.Perm (List.range inds.length))
    (w : MWorld G) (calls : List (Evo.Call G)) :
    wlp (mcountedMap sub gen order inds) (fun _ x => ∃ block, x.2 = calls ++ block ∧ MBlock sub gen inds x.1.fits block) (w, calls) := by
  unfold mcountedMap
  rw [wlp_bind]
  have hlen : wlp (Evo.executorMap order (mcallEval sub gen) inds) (fun vs _ => vs.length = inds.length) (w, calls) :=
    (Evo.executorMap_wlp order inds (I := fun _ => True) trivial fun _ _ _ => wlp_true _ _).mono fun _ _ h => h.1
  refine (executorMap_called.and hlen).mono ?_
  rintro vs x ⟨⟨block, hb, hv⟩, hl⟩
  rw [wlp_beside, wlp_bind]
  refine (assigns_once _ _).mono ?_
  rintro _ w₁ ⟨h1, h2, h3⟩
  rw [List.map_fst_zip (by omega)] at h2
  have hp : (block.map Evo.Call.ref).Perm inds := by rw [hb.refs]; exact places_perm ho
  have key : MBlock sub gen inds w₁.fits block := by
    refine ⟨h2, hp, fun k hk => ⟨(hb.right k hk).1, ?_⟩⟩
    have hm : k.ref ∈ inds := hp.mem_iff.1 (List.mem_map.2 ⟨k, hk, rfl⟩)
    rw [← List.map_fst_zip (l₁ := inds) (l₂ := vs) (by omega)] at hm
    obtain ⟨p, hpz, hpr⟩ := List.mem_map.1 hm
    refine ⟨p.2, ?_, by rw [← hpr]; exact h3 p hpz⟩
    have := hv p hpz
    rwa [hpr, ← (hb.right k hk).2] at this
  cases inds with
  | nil => simp
  | cons b rest =>
    exact winner_wlp.mono fun _ w₂ h => ⟨block, hb.calls, by dsimp only; rw [h.2.1]; exact key⟩

/-- The events of a part of a run, in which no evaluation ends. -/
theorem MAccounts.more {ev : G → Rand (List ℚ)} {log : List MEvent} {calls : List (Evo.Call G)} (h : MAccounts ev log calls)
    {evs : List MEvent} (hn : ("population_evaluator", "after_operator") ∉ evs.map MEvent.tag) : MAccounts ev (log ++ evs) calls := by
  induction evs using List.reverseRecOn with
  | nil => simpa using h
  | append_singleton l e ih =>
    rw [← List.append_assoc]
    refine (ih fun hm => hn (by rw [List.map_append]; exact List.mem_append_left _ hm)).other ?_
    rintro ⟨h1, h2⟩
    apply hn
    rw [List.map_append, List.mem_append, List.map_singleton, List.mem_singleton]
    exact .inr (Prod.ext h1.symm h2.symm)

/-- What a computation on a run with a record keeps. -/
abbrev MBooked (c : MCfg G) (x : MRun G × List (Evo.Call G)) : Prop := MAccounts c.sub.evaluate x.1.log x.2

theorem beside_booked {p : MRM G α} {tags : List (String × String)} {x : MRun G × List (Evo.Call G)}
    (hp : wlp p (fun _ s' => MGoes tags x.1 s') x.1) (ht : ("population_evaluator", "after_operator") ∉ tags) (h : MBooked c x) :
    wlp (beside p) (fun _ y => MBooked c y) x := by
  rw [wlp_beside]
  refine hp.mono fun _ s' hg => ?_
  obtain ⟨evs, hl, he⟩ := hg.log
  show MAccounts _ s'.log x.2
  rw [hl]
  exact h.more (by rw [he]; exact ht)

theorem modify_booked {f : MRun G → MRun G} (hf : ∀ s, (f s).log = s.log) {x : MRun G × List (Evo.Call G)} (h : MBooked c x) :
    wlp (beside (modify f)) (fun _ y => MBooked c y) x := by
  rw [wlp_beside, wlp_modify]
  show MAccounts _ (f x.1).log x.2
  rw [hf]
  exact h

theorem mstop_booked {gen : Nat} {x : MRun G × List (Evo.Call G)} (h : MBooked c x) :
    wlp (beside (mstop c gen)) (fun _ y => MBooked c y) x := by
  rw [wlp_beside]
  unfold mstop
  rw [wlp_bind, wlp_get, wlp_ofExcept]
  exact fun _ _ => h

theorem individuals_booked {x : MRun G × List (Evo.Call G)} (h : MBooked c x) :
    wlp (beside individuals) (fun _ y => MBooked c y) x := by
  rw [wlp_beside, wlp_individuals]
  exact fun _ _ => h

theorem mcountedPopulation_wlp (hs : ∀ g n, (c.sched g n).Perm (List.range n)) (x : MRun G × List (Evo.Call G)) :
    wlp (mcountedPopulation c) (fun _ y => ∃ is block evs e, x.1.inds = some is ∧ y.1.inds = some is ∧ y.2 = x.2 ++ block ∧
      y.1.genNum = x.1.genNum ∧ y.1.log = x.1.log ++ [evs] ++ [e] ∧ ¬ evs.IsEval ∧ e.IsEval ∧ e.inds = is ∧ e.genNum = x.1.genNum ∧
      MBlock c.sub x.1.genNum is e.fits block) x := by
  unfold mcountedPopulation
  rw [wlp_bind, wlp_beside, wlp_mpublish, wlp_bind]
  unfold mcountedBody
  rw [wlp_bind, wlp_beside, wlp_individuals]
  intro is his
  rw [wlp_bind, wlp_get]
  unfold besideM
  rw [wlp_zoom]
  refine (mcounted_block (hs _ _) _ _).mono ?_
  rintro b ⟨w, calls⟩ ⟨block, hb, hbl⟩
  rw [wlp_bind, wlp_beside, wlp_mpublish]
  have his' : x.1.inds = some is := his
  refine wlp_pure.2 ⟨is, block, _, _, his', his', hb, rfl, rfl, ?_, ⟨rfl, rfl⟩, ?_, rfl, hbl⟩
  · rintro ⟨-, h⟩
    exact absurd h (show ¬ "before_operator" = "after_operator" by decide)
  · show x.1.inds.getD [] = is
    rw [his']; rfl

theorem mcountedPopulation_booked (hs : ∀ g n, (c.sched g n).Perm (List.range n)) {x : MRun G × List (Evo.Call G)} (h : MBooked c x) :
    wlp (mcountedPopulation c) (fun _ y => MBooked c y) x := by
  refine (mcountedPopulation_wlp hs x).mono ?_
  rintro b y ⟨is, block, e0, e, -, -, hc, -, hl, h0, h1, hi, hg, hb⟩
  show MAccounts _ y.1.log y.2
  rw [hl, hc]
  exact (h.other h0).eval h1 (hi ▸ hb.nodup) (hi ▸ hb.each) (by rw [hg]; exact hb.right)

theorem mcountedGeneration_booked (hs : ∀ g n, (c.sched g n).Perm (List.range n)) {x : MRun G × List (Evo.Call G)} (h : MBooked c x) :
    wlp (mcountedGeneration c) (fun _ y => MBooked c y) x := by
  unfold mcountedGeneration
  rw [wlp_bind]
  refine (beside_booked (mgoes_breed _) (by decide) h).mono fun _ x₁ h1 => ?_
  rw [wlp_bind]
  refine (mcountedPopulation_booked hs h1).mono fun b x₂ h2 => ?_
  rw [wlp_bind]
  exact (beside_booked (mgoes_sort _) (by decide) h2).mono fun _ x₃ h3 => beside_booked (mgoes_fronts _) (by decide) h3

theorem mcountedLoop_booked (hs : ∀ g n, (c.sched g n).Perm (List.range n)) (k gen : Nat) {x : MRun G × List (Evo.Call G)} (h : MBooked c x) :
    wlp (mcountedLoop c k gen) (fun _ y => MBooked c y) x := by
  induction k generalizing gen x with
  | zero => exact wlp_pure.2 h
  | succ k ih =>
    unfold mcountedLoop
    rw [wlp_bind]
    refine (modify_booked (by simp) h).mono fun _ x₁ h1 => ?_
    rw [wlp_bind]
    refine (individuals_booked h1).mono fun _ x₂ h2 => ?_
    rw [wlp_bind, wlp_get, wlp_bind]
    refine (modify_booked (f := fun s => { s with w := { s.w with tape := c.stream (Evo.nextSeed x₂.1.genSeed) } }) (by simp) h2).mono fun _ x₃ h3 => ?_
    rw [wlp_bind]
    refine (modify_booked (by simp) h3).mono fun _ x₄ h4 => ?_
    rw [wlp_bind]
    refine (mcountedGeneration_booked hs h4).mono fun _ x₅ h5 => ?_
    rw [wlp_bind]
    refine (mstop_booked h5).mono fun stop x₆ h6 => ?_
    rw [wlp_ite]
    constructor
    · intro _
      rw [wlp_bind]
      exact (modify_booked (by simp) h6).mono fun _ x₇ h7 => beside_booked (mgoes_publish _ _ _) (by decide) h7
    · intro _
      rw [wlp_bind]
      exact (beside_booked (mgoes_publish _ _ _) (by decide) h6).mono fun _ x₇ h7 => ih _ h7

theorem mcountedInit_booked (hs : ∀ g n, (c.sched g n).Perm (List.range n)) {x : MRun G × List (Evo.Call G)} (h : MBooked c x) :
    wlp (mcountedInit c) (fun _ y => MBooked c y) x := by
  unfold mcountedInit
  rw [wlp_bind, wlp_get, wlp_bind]
  refine (modify_booked (f := fun s => { s with w := { s.w with tape := c.stream x.1.randomSeed } }) (by simp) h).mono fun _ x₁ h1 => ?_
  rw [wlp_bind]
  have hcreate : wlp (beside (mcreate c)) (fun _ y => MBooked c y) x₁ := by
    rw [wlp_beside]
    unfold mcreate
    rw [wlp_bind, wlp_get]
    split
    · exact wlp_pure.2 h1
    · rw [wlp_bind, wlp_mworld]
      refine (wlp_true _ _).mono fun is w _ => ?_
      rw [wlp_modify]
      exact h1
  refine hcreate.mono fun _ x₂ h2 => ?_
  rw [wlp_bind]
  refine (mcountedPopulation_booked hs h2).mono fun b x₃ h3 => ?_
  rw [wlp_bind]
  exact (modify_booked (by simp) h3).mono fun _ x₄ h4 => beside_booked (mgoes_publish _ _ _) (by decide) h4

theorem mfinish_booked {x : MRun G × List (Evo.Call G)} (h : MBooked c x) : wlp (beside mfinish) (fun _ y => MBooked c y) x := by
  rw [wlp_beside]
  unfold mfinish
  rw [wlp_bind, wlp_get]
  split
  · simp
  · rw [wlp_bind, wlp_ofExcept]
    exact fun _ _ => wlp_pure.2 h

theorem mcountedEvolve_booked (hs : ∀ g n, (c.sched g n).Perm (List.range n)) {x : MRun G × List (Evo.Call G)} (h : MBooked c x) :
    wlp (mcountedEvolve c) (fun _ y => MBooked c y) x := by
  unfold mcountedEvolve mcountedAfterInit
  rw [wlp_bind]
  refine (mcountedInit_booked hs h).mono fun _ x₁ h1 => ?_
  rw [wlp_bind, wlp_bind, wlp_get, wlp_bind]
  have hend : ∀ x₂ : MRun G × List (Evo.Call G), MBooked c x₂ →
      wlp (do beside (mpublish "algorithm" "evolution_finished"); beside mfinish) (fun _ y => MBooked c y) x₂ := by
    intro x₂ h2
    rw [wlp_bind]
    exact (beside_booked (mgoes_publish _ _ _) (by decide) h2).mono fun _ x₃ h3 => mfinish_booked h3
  refine (mstop_booked h1).mono fun stop x₂ h2 => ?_
  rw [wlp_ite]
  constructor
  · intro _
    rw [wlp_bind]
    refine (modify_booked (by simp) h2).mono fun _ x₃ h3 => ?_
    exact (beside_booked (mgoes_publish _ _ _) (by decide) h3).mono fun _ x₄ h4 => hend x₄ h4
  · intro _
    exact (mcountedLoop_booked hs _ _ h2).mono fun _ x₄ h4 => hend x₄ h4

/-- **C130, calls.** The calls of the evaluator in a multi-objective run that returns are those its events account for: each
evaluation of the population calls `evaluate_individual` exactly once for each of its individuals, which are all different,
and the objectives they have at its end are those the calls returned.  For all configurations, creators, operators, selection
methods, evaluators and checkers, and all orders in which the workers may run. -/
theorem C130_calls (hs : ∀ g n, (c.sched g n).Perm (List.range n)) {s s' : MRun G} {calls : List (Evo.Call G)} (hlog : s.log = [])
    (hrun : mcountedEvolve c (s, []) = (.ok (), (s', calls))) : MAccounts c.sub.evaluate s'.log calls :=
  mcountedEvolve_booked (x := (s, [])) hs (by show MAccounts _ s.log []; rw [hlog]; exact .nil) () (s', calls) hrun

/-! ## How many -/

/-- The number of evaluations of a run that has got to generation `g`. -/
def MCfg.spent (c : MCfg G) (n g : Nat) : Nat := n + ((List.range g).map fun i => c.bred n (i + 1)).sum

theorem spent_succ (c : MCfg G) (n g : Nat) : c.spent n (g + 1) = c.spent n g + c.bred n (g + 1) := by
  unfold MCfg.spent
  rw [List.range_succ, List.map_append, List.sum_append]
  simp [Nat.add_assoc]

/-- What is known of the run is known of the run with a record. -/
theorem wlp_recorded {σ : Type} {p : PyM σ α} {q : PyM (σ × List (Evo.Call G)) α} (h : Sim Prod.fst id p q) {Q : α → σ → Prop}
    {x : σ × List (Evo.Call G)} (hp : wlp p Q x.1) : wlp q (fun a y => Q a y.1) x := by
  intro a y e
  have := h x
  rw [e] at this
  exact hp a y.1 this

theorem mcountedGeneration_count (hs : ∀ g n, (c.sched g n).Perm (List.range n)) (hc : c.Good n m ds) {k : Nat} {inds : List Nat}
    {x : MRun G × List (Evo.Call G)} (hp : x.1.Pop k m ds inds) :
    wlp (mcountedGeneration c) (fun _ y => y.2.length = x.2.length + (if c.nsga2Breeder then 2 * k else k)) x := by
  unfold mcountedGeneration
  rw [wlp_bind, wlp_beside]
  refine (mbreed_wlp hc hp).mono ?_
  rintro _ s₁ ⟨⟨inds₁, hp₁⟩, -⟩
  rw [wlp_bind]
  refine (mcountedPopulation_wlp hs _).mono ?_
  rintro b y ⟨is, block, _, _, h1, -, h2, -, -, -, -, -, -, hb⟩
  rw [wlp_bind, wlp_beside]
  refine (wlp_true _ _).mono fun _ _ _ => ?_
  rw [wlp_beside]
  refine (wlp_true _ _).mono fun _ _ _ => ?_
  dsimp only at h1 h2 ⊢
  rw [h2, List.length_append]
  have h3 := hb.each.length_eq
  rw [List.length_map] at h3
  rw [hp₁.inds] at h1
  rw [h3, ← Option.some.inj h1, hp₁.length]

/-- The invariant at the end of a generation. -/
structure MPaid (c : MCfg G) (n m : Nat) (ds : List Bool) (x : MRun G × List (Evo.Call G)) : Prop where
  inv : x.1.Inv c n m ds
  count : x.2.length = c.spent n x.1.genNum

theorem mcountedLoop_count (hs : ∀ g n, (c.sched g n).Perm (List.range n)) (hc : c.Good n m ds) (N : Nat) {x : MRun G × List (Evo.Call G)}
    (hx : MPaid c n m ds x) : wlp (mcountedLoop c N (x.1.genNum + 1)) (fun _ y => MPaid c n m ds y) x := by
  induction N generalizing x with
  | zero => exact wlp_pure.2 hx
  | succ N ih =>
    unfold mcountedLoop
    rw [wlp_bind, wlp_beside, wlp_modify, wlp_bind, wlp_beside, wlp_individuals]
    intro is his
    rw [wlp_bind, wlp_get, wlp_bind, wlp_beside]
    unfold msetSeed
    rw [wlp_modify, wlp_bind, wlp_beside, wlp_modify, wlp_bind]
    obtain ⟨inds, hp⟩ := hx.inv.pop
    refine wlp.mono (wlp.and (wlp_recorded mcountedGeneration_sim (mgeneration_wlp (k := c.size n x.1.genNum) (inds := inds)
      (k' := c.bred n (x.1.genNum + 1)) hc
      (by exact ⟨hp.inds, hp.length, hp.nodup, hp.exist, hp.dirs⟩) (by exact hx.inv.log) (by exact hx.inv.sizes)
      (bred_eq c n x.1.genNum).symm)) (mcountedGeneration_count (k := c.size n x.1.genNum) (inds := inds) hs hc
      ⟨hp.inds, hp.length, hp.nodup, hp.exist, hp.dirs⟩)) ?_
    rintro _ ⟨s₁, calls⟩ ⟨⟨hp1, hg1, hl1, hs1, pre, e1, hlog1, hev⟩, hcount⟩
    dsimp only at hg1 hp1 hl1 hs1 hlog1 hev hcount
    rw [size_eq, ← hg1] at hp1 hev
    rw [bred_eq, hx.count, ← spent_succ, ← hg1] at hcount
    rw [wlp_bind, wlp_beside]
    unfold mstop
    rw [wlp_bind, wlp_get, wlp_ofExcept]
    intro stop hstop
    rw [wlp_ite]
    refine ⟨fun hst => ?_, fun _ => ?_⟩
    · rw [wlp_bind, wlp_beside, wlp_modify, wlp_beside, wlp_mpublish]
      exact ⟨MRun.Inv.after_generation (s := s₁) hp1 hl1 hs1 hlog1 hev, hcount⟩
    · rw [wlp_bind, wlp_beside, wlp_mpublish]
      have := ih (x := ({ s₁ with log := s₁.log ++ [s₁.event "algorithm" "after_generation"] }, calls))
        ⟨MRun.Inv.after_generation (x := s₁.finalGen) hp1 hl1 hs1 hlog1 hev, hcount⟩
      dsimp only at this
      rw [← hg1]
      exact this

theorem mcountedInit_count (hs : ∀ g n, (c.sched g n).Perm (List.range n)) (hc : c.Good n m ds) {s : MRun G} (hf : s.Fresh m ds) :
    wlp (mcountedInit c) (fun _ y => MPaid c n m ds y ∧ y.1.genNum = 0) (s, []) := by
  have h1 := wlp_recorded (x := (s, [])) mcountedInit_sim (minit_wlp hc hf.inds hf.dirs hf.log hf.genNum)
  have h2 : wlp (mcountedInit c) (fun _ y => y.2.length = n) (s, []) := by
    unfold mcountedInit
    rw [wlp_bind, wlp_get, wlp_bind, wlp_beside]
    unfold msetSeed
    rw [wlp_modify, wlp_bind, wlp_beside]
    unfold mcreate
    rw [wlp_bind, wlp_get]
    dsimp only
    rw [hf.inds]
    dsimp only
    rw [wlp_bind, wlp_mworld]
    refine (hc.creates { s.w with tape := c.stream s.randomSeed } hf.dirs).mono ?_
    rintro l w ⟨hl, -⟩
    rw [wlp_modify, wlp_bind]
    refine (mcountedPopulation_wlp hs _).mono ?_
    rintro b y ⟨is, block, _, _, h1, -, h2, -, -, -, -, -, -, hb⟩
    rw [wlp_bind, wlp_beside]
    refine (wlp_true _ _).mono fun _ _ _ => ?_
    rw [wlp_beside]
    refine (wlp_true _ _).mono fun _ _ _ => ?_
    dsimp only at h1 h2 ⊢
    have h3 := hb.each.length_eq
    rw [List.length_map] at h3
    rw [h2, List.nil_append, h3, ← Option.some.inj h1, hl]
  refine (h1.and h2).mono ?_
  rintro _ y ⟨⟨hi, hg, -⟩, hn⟩
  refine ⟨⟨hi, ?_⟩, hg⟩
  rw [hn, hg]
  unfold MCfg.spent
  simp

theorem mcountedEvolve_count (hs : ∀ g n, (c.sched g n).Perm (List.range n)) (hc : c.Good n m ds) {s : MRun G} (hf : s.Fresh m ds) :
    wlp (mcountedEvolve c) (fun _ y => y.2.length = c.spent n y.1.genNum) (s, []) := by
  unfold mcountedEvolve mcountedAfterInit
  rw [wlp_bind]
  refine (mcountedInit_count hs hc hf).mono ?_
  rintro _ x₁ ⟨h1, hg⟩
  rw [wlp_bind, wlp_bind, wlp_get, wlp_bind, wlp_beside]
  have hend : ∀ x₂ : MRun G × List (Evo.Call G), x₂.2.length = c.spent n x₂.1.genNum →
      wlp (do beside (mpublish "algorithm" "evolution_finished"); beside mfinish) (fun _ y => y.2.length = c.spent n y.1.genNum) x₂ := by
    intro x₂ h2
    rw [wlp_bind, wlp_beside, wlp_mpublish, wlp_beside]
    unfold mfinish
    rw [wlp_bind, wlp_get]
    dsimp only
    split
    · simp
    · rw [wlp_bind, wlp_ofExcept]
      exact fun _ _ => wlp_pure.2 h2
  unfold mstop
  rw [wlp_bind, wlp_get, wlp_ofExcept]
  intro stop _
  rw [wlp_ite]
  constructor
  · intro _
    rw [wlp_bind, wlp_beside, wlp_modify, wlp_beside, wlp_mpublish]
    exact hend _ h1.count
  · intro _
    have := mcountedLoop_count hs hc c.maxGen h1
    rw [hg] at this
    exact this.mono fun _ y hy => hend y hy.count

/-- **C130, how many.** A multi-objective run of `N` individuals with `NSGA2Breeder` that has got through `g` generations has
called the evaluator exactly `N * (2 * g + 1)` times: the initial population once, and parents and offspring in each
generation. -/
theorem C130_budget (hs : ∀ g n, (c.sched g n).Perm (List.range n)) (hc : c.Good n m ds) (hb : c.nsga2Breeder = true)
    {s s' : MRun G} {calls : List (Evo.Call G)} (hf : s.Fresh m ds) (hrun : mcountedEvolve c (s, []) = (.ok (), (s', calls))) :
    calls.length = n * (2 * s'.genNum + 1) := by
  have : calls.length = c.spent n s'.genNum := mcountedEvolve_count hs hc hf () (s', calls) hrun
  rw [this]
  unfold MCfg.spent MCfg.bred
  simp only [hb, if_true, List.map_const', List.sum_replicate, List.length_range, smul_eq_mul]
  ring

/-- **C130, with the default breeder.** The population is halved in each generation, and the evaluator is called
`N + N + N / 2 + N / 4 + …` times. -/
theorem C130_default (hs : ∀ g n, (c.sched g n).Perm (List.range n)) (hc : c.Good n m ds) (hb : c.nsga2Breeder = false)
    {s s' : MRun G} {calls : List (Evo.Call G)} (hf : s.Fresh m ds) (hrun : mcountedEvolve c (s, []) = (.ok (), (s', calls))) :
    calls.length = n + ((List.range s'.genNum).map fun i => n / 2 ^ i).sum := by
  have : calls.length = c.spent n s'.genNum := mcountedEvolve_count hs hc hf () (s', calls) hrun
  rw [this]
  unfold MCfg.spent MCfg.bred
  simp [hb]

/-- **C130, complete runs.** A run no part of which raises completes, and its evaluator is called `N * (2 * g + 1)` times; it
is called `N * (2 * max_generation + 1)` times if the checker never says stop. -/
theorem C130_complete {P : G → Prop} (hc : c.Sound P n m ds) {s : MRun G} (hf : s.Fresh m ds) (hp : AllHave P s.w) :
    ∃ s' calls, mcountedEvolve c (s, []) = (.ok (), (s', calls)) ∧ calls.length = n * (2 * s'.genNum + 1) ∧
      MAccounts c.sub.evaluate s'.log calls ∧
      ((∀ h l b g, c.checker h l b g ≠ .ok true) → calls.length = n * (2 * c.maxGen + 1)) := by
  obtain ⟨s', h1, -, h2⟩ := C82_completes hc hf hp
  have h3 := C130_same c s []
  rw [h1] at h3
  obtain ⟨s₁, calls, h4⟩ := Evo.pair_ran (p := mcountedEvolve c) (x := (s, [])) (congrArg Prod.fst h3).symm
  have h5 : s' = s₁ := by
    have := congrArg Prod.snd h3
    rw [h4] at this
    exact this
  subst h5
  have h6 := C130_budget hc.sched hc.toGood hc.breeder hf h4
  exact ⟨s', calls, h4, h6, C130_calls hc.sched hf.log h4, fun hno => by rw [h6, h2 hno]⟩

/-- **C130, vectors.** -/
theorem C130_vectors {kind : GA.Kind} {bounds : GA.Bounds} {length : Nat} (hb : bounds.Proper kind length) {c : MCfg GA.Vec}
    (h : c.Assembled (GA.Legal kind bounds length) (VecCreator kind bounds length n m ds) (VecOp kind length) n m ds)
    {s : MRun GA.Vec} (hf : s.Fresh m ds) (hp : AllHave (GA.Legal kind bounds length) s.w) :
    ∃ s' calls, mcountedEvolve c (s, []) = (.ok (), (s', calls)) ∧ calls.length = n * (2 * s'.genNum + 1) ∧
      MAccounts c.sub.evaluate s'.log calls ∧
      ((∀ h l b g, c.checker h l b g ≠ .ok true) → calls.length = n * (2 * c.maxGen + 1)) :=
  C130_complete (h.sound (fun _ h => h.creates hb) (fun _ h => h.good) (fun _ h _ => h.worksOn hb)) hf hp

/-- **C130, programs.** -/
theorem C130_programs {cfg : GP.Cfg} (hpl : cfg.Plain) {c : MCfg GP.Ind}
    (h : c.Assembled (GP.PlainLegal cfg) (TreeCreator cfg n m ds) TreeOp n m ds)
    {s : MRun GP.Ind} (hf : s.Fresh m ds) (hp : AllHave (GP.PlainLegal cfg) s.w) :
    ∃ s' calls, mcountedEvolve c (s, []) = (.ok (), (s', calls)) ∧ calls.length = n * (2 * s'.genNum + 1) ∧
      MAccounts c.sub.evaluate s'.log calls ∧
      ((∀ h l b g, c.checker h l b g ≠ .ok true) → calls.length = n * (2 * c.maxGen + 1)) :=
  C130_complete (h.sound (fun _ h => h.creates hpl) (fun _ h => h.good) (fun _ h ha => h.worksOn hpl ha)) hf hp

/-! ## Examples -/

example : ∃ s' calls, mcountedEvolve exVector (exVectorRun, []) = (.ok (), (s', calls)) ∧ calls.length = 20 ∧
    MAccounts exVector.sub.evaluate s'.log calls := by
  obtain ⟨s', calls, h1, -, h2, h3⟩ := C130_vectors (s := exVectorRun) GA.exLib_proper exVector_assembled
    ⟨rfl, fun r hr => absurd hr (Nat.not_lt_zero r), rfl, rfl⟩ (fun r hr => absurd hr (Nat.not_lt_zero r))
  exact ⟨s', calls, h1, h3 fun h l b g => by show Except.ok false ≠ _; simp, h2⟩

example : ∃ s' calls, mcountedEvolve exProg (exProgRun, []) = (.ok (), (s', calls)) ∧ calls.length = 4 * (2 * s'.genNum + 1) := by
  obtain ⟨s', calls, h1, h2, -⟩ := C130_programs (s := exProgRun) GP.exPlain exProg_assembled
    ⟨rfl, fun r hr => absurd hr (Nat.not_lt_zero r), rfl, rfl⟩ (fun r hr => absurd hr (Nat.not_lt_zero r))
  exact ⟨s', calls, h1, h2⟩

theorem exHalved_ends : (mcountedEvolve (exCfg false 3) (exRun, [])).1 = .ok () ∧
    (mcountedEvolve (exCfg false 3) (exRun, [])).2.1.genNum = 3 ∧
    (mcountedEvolve (exCfg false 3) (exRun, [])).2.2.map (fun k => (k.gen, k.ref)) =
      [(0, 0), (0, 1), (0, 2), (0, 3), (1, 4), (1, 5), (1, 6), (1, 7), (2, 8), (2, 9), (3, 10)] := by decide +kernel

/-- Eleven calls, 4 + 4 + 2 + 1, with the default breeder. -/
example : ∃ s' calls, mcountedEvolve (exCfg false 3) (exRun, []) = (.ok (), (s', calls)) ∧
    calls.length = 4 + ((List.range s'.genNum).map fun i => 4 / 2 ^ i).sum := by
  obtain ⟨s', calls, h⟩ := Evo.pair_ran exHalved_ends.1
  exact ⟨s', calls, h, C130_default (fun _ _ => List.Perm.refl _) (exCfg_good false 3) rfl exRun_fresh h⟩

end Verif.Moo
