import Verif.Lemmas.Ageless
import Verif.Props.Reproducible
import Verif.Props.Legal

/-! # C100 — resuming a paused experiment -/

namespace Verif.Evo
open PyM
variable {G κ : Type} {c : Cfg G κ} {s s' t : Run G κ} {size : G → Nat} {sub : SubCfg G} {f : G → ℚ}

/-! ## What is compared -/

/-- The individuals of the population, as they can be seen in a snapshot, except for their `gen` attribute: id, genome,
fitness, lineage. -/
def Snapshot.people (s : Snapshot G) : List (Option (List (Option (Ind G)))) :=
  s.inds.map (Option.map (List.map fun r => (s.heap[r]?).map Ind.ungen))

/-- The populations shown by the `after_generation` events. -/
def generations (l : List (Event G)) : List (List (Option (List (Option (Ind G))))) :=
  (l.filter fun e => e.name == "after_generation").map fun e => e.snap.people

/-- A new algorithm object, given the population and the generation seed of an earlier one, any `random_seed`,
`generation_num` and `best_of_run_`, and its own executor, in a process that has drawn random numbers meanwhile. -/
def Run.resumedWith (s : Run G κ) (randomSeed genNum : Nat) (best : Option Nat) (checkers : List κ) (tape : Tape) : Run G κ :=
  { s with w := { s.w with tape := tape }, randomSeed := randomSeed, genNum := genNum, bestOfRun := best, bestOfGen := none, worstOfGen := none, finalGen := none, checkers := checkers, shutdown := false, log := [] }

/-- The configuration with another `max_generation`. -/
def Cfg.upTo (c : Cfg G κ) (n : Nat) : Cfg G κ := { c with maxGen := n }

/-! ## Inversions -/

theorem world_ok {α : Type} {m : WM G α} {a : α} (h : (world m : RM G κ α) s = (.ok a, t)) :
    ∃ w, m s.w = (.ok a, w) ∧ t = { s with w := w } := by
  simp only [world, PyM.zoom, Prod.mk.injEq] at h
  exact ⟨(m s.w).2, Prod.ext h.1 rfl, h.2.symm⟩

theorem act_ok {α : Type} {p : String} {m : RM G κ α} {a : α} (h : act p m s = (.ok a, t)) :
    ∃ u, m { s with log := s.log ++ [⟨p, "before_operator", s.snapshot⟩] } = (.ok a, u) ∧
      t = { u with log := u.log ++ [⟨p, "after_operator", u.snapshot⟩] } := by
  unfold act at h
  obtain ⟨_, s₁, h1, h⟩ := bind_ok.1 h
  obtain ⟨b, u, h2, h⟩ := bind_ok.1 h
  obtain ⟨_, s₃, h3, h⟩ := bind_ok.1 h
  simp only [publish, PyM.modify, Prod.mk.injEq] at h1 h3
  obtain ⟨-, rfl⟩ := h1
  obtain ⟨-, rfl⟩ := h3
  simp only [pure, PyM.pure, Prod.mk.injEq, Except.ok.injEq] at h
  obtain ⟨rfl, rfl⟩ := h
  exact ⟨u, h2, rfl⟩

theorem generations_append (l m : List (Event G)) : generations (l ++ m) = generations l ++ generations m := by
  simp [generations]

theorem generations_other {e : Event G} (h : e.name ≠ "after_generation") : generations [e] = [] := by
  simp [generations, h]

/-- What `bestLoop` leaves of the state: everything. -/
theorem bestLoop_state (b : Nat) (is : List Nat) (w : World G) : (bestLoop size b is w).2 = w := by
  induction is generalizing b with
  | nil => rfl
  | cons p ps ih =>
    unfold bestLoop reading
    rw [bind_run]
    have : ∀ x : Except Err Bool, ((PyM.get >>= fun w : World G => ofExcept x) w : Except Err Bool × World G) = (x, w) := by
      intro x; cases x <;> rfl
    have e : ((PyM.get >>= fun w : World G => ofExcept (betterOf size w.heap p (some b))) w : Except Err Bool × World G) =
        (betterOf size w.heap p (some b), w) := by
      rw [bind_of_ok (show (PyM.get w : Except Err (World G) × World G) = (.ok w, w) from rfl)]
      cases betterOf size w.heap p (some b) <;> rfl
    rw [e]
    cases betterOf size w.heap p (some b) with
    | error e => rfl
    | ok v => exact ih _

/-- What an evaluation that returns has done. -/
theorem evaluateMap_ok (hd : sub.Computes fun g => .ok (f g)) {order inds : List Nat}
    (hp : order.Perm (List.range inds.length)) {w w' : World G} {b : Nat}
    (h : evaluateMap size sub order inds w = (.ok b, w')) :
    Valid w inds ∧ w'.nextId = w.nextId ∧ w'.tape = w.tape ∧
      ∀ r, w'.heap[r]? = (w.heap[r]?).map fun i =>
        if r ∈ inds then { i with fit := i.fit.setFitness (.num (f i.genome)) } else i := by
  by_cases hv : Valid w inds
  · refine ⟨hv, ?_⟩
    let val : Nat → ℚ := fun r => ((w.heap[r]?).map fun i => f i.genome).getD 0
    have hval : ∀ r i, w.heap[r]? = some i → val r = f i.genome := by
      intro r i hi; simp [val, hi]
    unfold evaluateMap at h
    rw [bind_of_ok (executorMap_const (val := val) hp fun r hr => by
      have hi := List.getElem?_eq_getElem (hv r hr)
      exact runEval_eq hi fun t => by rw [hd, hval r _ hi])] at h
    rw [zip_map_self] at h
    obtain ⟨w₁, e, h1, h2, h3, h4⟩ := setAll_heap (fun r => .num (val r)) inds w
    rw [bind_of_ok (by rw [forL_map]; exact e)] at h
    have hw : w' = w₁ := by
      cases inds with
      | nil => simp [PyM.raise] at h
      | cons b rest =>
        have := bestLoop_state (size := size) b rest w₁
        dsimp only at h
        rw [h] at this
        exact this
    subst hw
    refine ⟨h1, h2, fun r => ?_⟩
    rw [h4]
    cases hr : w.heap[r]? with
    | none => rfl
    | some i => simp [hval r i hr]
  · rw [evaluateMap_dangling hd hp hv] at h
    simp at h

/-- The individuals hold the scores of their genomes. -/
def Scored (f : G → ℚ) (heap : List (Ind G)) (is : List Nat) : Prop :=
  ∀ r ∈ is, ∀ i, heap[r]? = some i → i.fit.value = .num (f i.genome) ∧ i.fit.evaluated = true

theorem evaluateMap_scored (hd : sub.Computes fun g => .ok (f g)) {order inds : List Nat}
    (hp : order.Perm (List.range inds.length)) {w w' : World G} {b : Nat}
    (h : evaluateMap size sub order inds w = (.ok b, w')) : Scored f w'.heap inds := by
  obtain ⟨hv, -, -, hh⟩ := evaluateMap_ok hd hp h
  intro r hr i hi
  rw [hh, List.getElem?_eq_getElem (hv r hr)] at hi
  simp only [Option.map_some, if_pos hr, Option.some.injEq] at hi
  subst hi
  exact ⟨rfl, rfl⟩

/-- Evaluating again changes nothing. -/
theorem evaluateMap_again (hd : sub.Computes fun g => .ok (f g)) {order inds : List Nat}
    (hp : order.Perm (List.range inds.length)) {w w' : World G} {b : Nat} (hs : Scored f w.heap inds)
    (h : evaluateMap size sub order inds w = (.ok b, w')) : w' = w := by
  obtain ⟨hv, h1, h2, hh⟩ := evaluateMap_ok hd hp h
  obtain ⟨hp', n', t'⟩ := w'
  obtain ⟨hp0, n0, t0⟩ := w
  simp only at h1 h2 hh hs
  subst h1 h2
  congr 1
  apply List.ext_getElem?
  intro r
  rw [hh]
  cases hi : hp0[r]? with
  | none => rfl
  | some i =>
    simp only [Option.map_some, Option.some.injEq]
    split
    · rename_i hr
      obtain ⟨e1, e2⟩ := hs r hr i hi
      obtain ⟨a1, a2, a3, ⟨v, ev, hib, rel, ca, bl⟩, a5, a6, a7, a8, a9⟩ := i
      simp only at e1 e2
      subst e1 e2
      rfl
    · rfl

/-! ## One generation -/

/-- Everything except generation numbers, the bookkeeping of the algorithm and the random generators. -/
structure Alike (s t : Run G κ) : Prop where
  heap : s.w.heap.map Ind.ungen = t.w.heap.map Ind.ungen
  nextId : s.w.nextId = t.w.nextId
  inds : s.inds = t.inds
  genSeed : s.genSeed = t.genSeed

theorem Alike.refl (s : Run G κ) : Alike s s := ⟨rfl, rfl, rfl, rfl⟩
theorem Alike.trans {u : Run G κ} (h : Alike s t) (h' : Alike t u) : Alike s u :=
  ⟨h.heap.trans h'.heap, h.nextId.trans h'.nextId, h.inds.trans h'.inds, h.genSeed.trans h'.genSeed⟩
theorem Alike.symm (h : Alike s t) : Alike t s := ⟨h.heap.symm, h.nextId.symm, h.inds.symm, h.genSeed.symm⟩

theorem Alike.people (h : Alike s t) : s.snapshot.people = t.snapshot.people := by
  unfold Snapshot.people Run.snapshot
  dsimp only
  rw [h.inds]
  congr 2
  funext l
  congr 1
  funext r
  rw [← ungen_get, ← ungen_get, h.heap]

theorem updateGen_alike {gen : Nat} (h : updateGen gen s = (.ok (), t)) : Alike s t ∧ t.log = s.log ∧ t.genNum = s.genNum := by
  have hst : Stays (fun u : Run G κ => Alike s u ∧ u.log = s.log ∧ u.genNum = s.genNum) (updateGen gen) := by
    refine Stays.bind Stays.get fun s₀ => Stays.forL _ fun is => ?_
    cases is with
    | none => exact Stays.raise _
    | some is =>
      intro u hu
      have : Stays (fun w : World G => w.heap.map Ind.ungen = u.w.heap.map Ind.ungen ∧ w.nextId = u.w.nextId)
          (forL (fun r => update r fun i => { i with gen := gen }) is) := by
        refine Stays.forL _ fun r w hw => ⟨?_, hw.2⟩
        rw [← hw.1]
        show (w.heap.modify r _).map Ind.ungen = _
        apply List.ext_getElem?
        intro n
        rw [ungen_get, ungen_get, List.getElem?_modify]
        cases w.heap[n]? with
        | none => rfl
        | some i => by_cases hr : r = n <;> simp [hr, Ind.ungen]
      have h' := this u.w ⟨rfl, rfl⟩
      exact ⟨⟨hu.1.heap.trans h'.1.symm, hu.1.nextId.trans h'.2.symm, hu.1.inds, hu.1.genSeed⟩, hu.2⟩
  exact hst.of_ok ⟨Alike.refl s, rfl, rfl⟩ h

theorem reading_state {α : Type} (g : List (Ind G) → Except Err α) (w : World G) : reading g w = (g w.heap, w) := by
  unfold reading
  rw [bind_of_ok (show (PyM.get w : Except Err (World G) × World G) = (.ok w, w) from rfl)]
  cases g w.heap <;> rfl

theorem recordBest_quiet {b : Nat} (h : recordBest c b s = (.ok (), t)) :
    t.w = s.w ∧ t.inds = s.inds ∧ t.genSeed = s.genSeed ∧ t.log = s.log := by
  unfold recordBest at h
  obtain ⟨s₁, s₂, h1, h⟩ := bind_ok.1 h
  simp only [PyM.get, Prod.mk.injEq, Except.ok.injEq] at h1
  obtain ⟨rfl, rfl⟩ := h1
  obtain ⟨v, s₃, h2, h⟩ := bind_ok.1 h
  obtain ⟨w, h3, rfl⟩ := world_ok h2
  rw [reading_state] at h3
  simp only [Prod.mk.injEq] at h3
  obtain ⟨-, rfl⟩ := h3
  split at h
  · simp only [PyM.modify, Prod.mk.injEq] at h
    obtain ⟨-, rfl⟩ := h
    exact ⟨rfl, rfl, rfl, rfl⟩
  · simp only [pure, PyM.pure, Prod.mk.injEq] at h
    obtain ⟨-, rfl⟩ := h
    exact ⟨rfl, rfl, rfl, rfl⟩

theorem recordWorst_quiet (h : recordWorst c s = (.ok (), t)) :
    t.w = s.w ∧ t.inds = s.inds ∧ t.genSeed = s.genSeed ∧ t.log = s.log := by
  unfold recordWorst at h
  obtain ⟨s₁, s₂, h1, h⟩ := bind_ok.1 h
  simp only [PyM.get, Prod.mk.injEq, Except.ok.injEq] at h1
  obtain ⟨rfl, rfl⟩ := h1
  have key : ∀ (sub : SubCfg G) (is : List Nat), ((do
      let w ← world (reading fun h => worstIndividual c.size h sub.hib is)
      modify fun s => { s with worstOfGen := some w } : RM G κ Unit)) s = (.ok (), t) →
      t.w = s.w ∧ t.inds = s.inds ∧ t.genSeed = s.genSeed ∧ t.log = s.log := by
    intro sub is h
    obtain ⟨v, s₃, h2, h⟩ := bind_ok.1 h
    obtain ⟨w, h3, rfl⟩ := world_ok h2
    rw [reading_state] at h3
    simp only [Prod.mk.injEq] at h3
    obtain ⟨-, rfl⟩ := h3
    simp only [PyM.modify, Prod.mk.injEq] at h
    obtain ⟨-, rfl⟩ := h
    exact ⟨rfl, rfl, rfl, rfl⟩
  rcases hs : c.subs with _ | ⟨sub, rest⟩
  · simp [hs, PyM.raise] at h
  · rcases hi : s.inds with _ | ⟨_ | is, irest⟩
    · simp [hs, hi, PyM.raise] at h
    · simp [hs, hi, PyM.raise] at h
    · rw [hs, hi] at h
      rw [← hi]
      exact key sub is h

theorem evaluatePopulation_ok {b : Nat} (hs : c.subs = [sub]) (hm : c.submit = false)
    (h : evaluatePopulation c s = (.ok b, t)) : ∃ is, s.inds = [some is] ∧
      evaluateMap c.size sub (c.sched s.genNum is.length) is s.w = (.ok b, t.w) ∧ t.inds = s.inds ∧ t.genSeed = s.genSeed ∧
        generations t.log = generations s.log ∧ t.genNum = s.genNum := by
  obtain ⟨u, h1, rfl⟩ := act_ok h
  unfold evaluateBody at h1
  obtain ⟨s₁, s₂, h2, h1⟩ := bind_ok.1 h1
  simp only [PyM.get, Prod.mk.injEq, Except.ok.injEq] at h2
  obtain ⟨rfl, rfl⟩ := h2
  rw [hs] at h1
  dsimp only at h1
  rcases hi : s.inds with _ | ⟨_ | is, _ | ⟨i2, irest⟩⟩
  · simp [hi, PyM.raise] at h1
  · simp [hi, PyM.raise] at h1
  · simp [hi, PyM.raise] at h1
  · simp only [hi, hm, Bool.false_eq_true, if_false] at h1
    split at h1
    · simp [PyM.raise] at h1
    · obtain ⟨w, h3, rfl⟩ := world_ok h1
      refine ⟨is, rfl, h3, rfl, rfl, ?_, rfl⟩
      rw [generations_append, generations_append, generations_other (e := ⟨_, "before_operator", _⟩) (by simp),
        generations_other (e := ⟨_, "after_operator", _⟩) (by simp)]
      simp
  · simp [hi, PyM.raise] at h1

theorem breed_ok (h : breed c s = (.ok (), t)) :
    ∃ is, breedAll c.size (c.subs.zip s.inds) s.w = (.ok is, t.w) ∧ t.inds = is ∧ t.genSeed = s.genSeed ∧
      generations t.log = generations s.log ∧ t.genNum = s.genNum := by
  obtain ⟨u, h1, rfl⟩ := act_ok h
  unfold breedBody at h1
  obtain ⟨s₁, s₂, h2, h1⟩ := bind_ok.1 h1
  simp only [PyM.get, Prod.mk.injEq, Except.ok.injEq] at h2
  obtain ⟨rfl, rfl⟩ := h2
  obtain ⟨is, s₃, h2, h1⟩ := bind_ok.1 h1
  obtain ⟨w, h3, rfl⟩ := world_ok h2
  simp only [PyM.modify, Prod.mk.injEq] at h1
  obtain ⟨-, rfl⟩ := h1
  refine ⟨is, h3, rfl, rfl, ?_, rfl⟩
  rw [generations_append, generations_append, generations_other (e := ⟨_, "before_operator", _⟩) (by simp),
    generations_other (e := ⟨_, "after_operator", _⟩) (by simp)]
  simp

/-- What one round of the main loop does to the population. -/
theorem round_ok (hch : c.checker = .none) (hs : c.subs = [sub]) (hm : c.submit = false) {n gen : Nat}
    (h : mainLoop c (n + 1) gen s = (.ok (), t)) :
    ∃ (u : Run G κ) (w₁ w₂ : World G) (is : List Nat) (b : Nat),
      w₁.heap.map Ind.ungen = s.w.heap.map Ind.ungen ∧ w₁.nextId = s.w.nextId ∧ w₁.tape = c.stream (nextSeed s.genSeed) ∧
      breedAll c.size (c.subs.zip s.inds) w₁ = (.ok [some is], w₂) ∧
      evaluateMap c.size sub (c.sched gen is.length) is w₂ = (.ok b, u.w) ∧
      u.inds = [some is] ∧ u.genSeed = nextSeed s.genSeed ∧ generations u.log = generations s.log ++ [u.snapshot.people] ∧
      mainLoop c n (gen + 1) u = (.ok (), t) := by
  unfold mainLoop at h
  obtain ⟨_, s₁, h1, h⟩ := bind_ok.1 h
  simp only [PyM.modify, Prod.mk.injEq] at h1
  obtain ⟨-, rfl⟩ := h1
  obtain ⟨_, s₂, h2, h⟩ := bind_ok.1 h
  obtain ⟨a2, l2, g2⟩ := updateGen_alike h2
  obtain ⟨_, s₃, h3, h⟩ := bind_ok.1 h
  simp only [PyM.get, Prod.mk.injEq, Except.ok.injEq] at h3
  obtain ⟨rfl, rfl⟩ := h3
  obtain ⟨_, s₄, h4, h⟩ := bind_ok.1 h
  simp only [setSeed, PyM.modify, Prod.mk.injEq] at h4
  obtain ⟨-, rfl⟩ := h4
  obtain ⟨_, s₅, h5, h⟩ := bind_ok.1 h
  simp only [PyM.modify, Prod.mk.injEq] at h5
  obtain ⟨-, rfl⟩ := h5
  obtain ⟨_, s₆, h6, h⟩ := bind_ok.1 h
  unfold generationIteration at h6
  obtain ⟨_, s₇, h7, h6⟩ := bind_ok.1 h6
  obtain ⟨inds', hb, i7, g7, l7, n7⟩ := breed_ok h7
  obtain ⟨b, s₈, h8, h6⟩ := bind_ok.1 h6
  obtain ⟨is, hi, he, i8, g8, l8, n8⟩ := evaluatePopulation_ok hs hm h8
  obtain ⟨_, s₉, h9, h6⟩ := bind_ok.1 h6
  simp only [PyM.modify, Prod.mk.injEq] at h9
  obtain ⟨-, rfl⟩ := h9
  obtain ⟨_, s₁₀, h10, h6⟩ := bind_ok.1 h6
  obtain ⟨w10, i10, g10, l10⟩ := recordBest_quiet h10
  obtain ⟨w11, i11, g11, l11⟩ := recordWorst_quiet h6
  obtain ⟨stop, s₁₂, h12, h⟩ := bind_ok.1 h
  simp only [shouldTerminate, hch, Prod.mk.injEq, Except.ok.injEq] at h12
  obtain ⟨rfl, rfl⟩ := h12
  simp only [Bool.false_eq_true, if_false] at h
  obtain ⟨_, s₁₃, h13, h⟩ := bind_ok.1 h
  simp only [publish, PyM.modify, Prod.mk.injEq] at h13
  obtain ⟨-, rfl⟩ := h13
  dsimp only at *
  refine ⟨_, { s₂.w with tape := c.stream (nextSeed s₂.genSeed) }, s₇.w, is, b, a2.heap.symm, a2.nextId.symm, ?_, ?_, ?_, ?_, ?_, ?_, h⟩
  · show c.stream _ = c.stream _
    rw [← a2.genSeed]
  · rw [← hi, i7, a2.inds]
    exact hb
  · show evaluateMap c.size sub (c.sched gen is.length) is s₇.w = (.ok b, s₆.w)
    rw [w11, w10]
    rw [n7, g2] at he
    exact he
  · show s₆.inds = _
    rw [i11, i10]
    exact i8.trans hi
  · show s₆.genSeed = _
    rw [g11, g10]
    show s₈.genSeed = _
    rw [g8, g7, ← a2.genSeed]
  · show generations (s₆.log ++ _) = _
    rw [generations_append, l11, l10]
    show generations s₈.log ++ _ = _
    rw [l8, l7]
    show generations s₂.log ++ _ = _
    rw [l2]
    rfl

/-- Runs that agree about the individuals and the seed go on agreeing, whatever generation number they start from. -/
theorem mainLoop_alike (hch : c.checker = .none) (hs : c.subs = [sub]) (hm : c.submit = false)
    (hd : sub.Computes fun g => .ok (f g)) (hsc : ∀ gen n, (c.sched gen n).Perm (List.range n))
    (ho : ∀ o ∈ sub.ops, o.Ageless) (hsl : ∀ sel ∈ sub.sels, sel.Ageless) {n gen gen' : Nat} {s s' t t' : Run G κ}
    (ha : Alike s s') (h : mainLoop c n gen s = (.ok (), t)) (h' : mainLoop c n gen' s' = (.ok (), t')) :
    Alike t t' ∧ ∃ l, generations t.log = generations s.log ++ l ∧ generations t'.log = generations s'.log ++ l := by
  induction n generalizing gen gen' s s' with
  | zero =>
    simp only [mainLoop, pure, PyM.pure, Prod.mk.injEq] at h h'
    obtain ⟨-, rfl⟩ := h
    obtain ⟨-, rfl⟩ := h'
    exact ⟨ha, [], by simp, by simp⟩
  | succ n ih =>
    obtain ⟨u, w₁, w₂, is, b, k1, k2, k3, k4, k5, k6, k7, k8, k9⟩ := round_ok hch hs hm h
    obtain ⟨u', w₁', w₂', is', b', k1', k2', k3', k4', k5', k6', k7', k8', k9'⟩ := round_ok hch hs hm h'
    have hw : w₁.ungen = w₁'.ungen := by
      unfold World.ungen
      rw [k1, k1', k2, k2', k3, k3', ha.heap, ha.nextId, ha.genSeed]
    rw [ha.inds] at k4
    have hz : ∀ p ∈ c.subs.zip s'.inds, p.1 = sub := by
      intro p hp
      have := (List.of_mem_zip (a := p.1) (b := p.2) hp).1
      simpa [hs] using this
    have hB := (breedAll_ageless (size := c.size) (c.subs.zip s'.inds) (fun p hp => by rw [hz p hp]; exact ho)
      (fun p hp => by rw [hz p hp]; exact hsl)).same hw
    rw [k4, k4'] at hB
    simp only [Except.ok.injEq, List.cons.injEq, Option.some.injEq, and_true] at hB
    obtain ⟨rfl, hw2⟩ := hB
    rw [evaluateMap_order hd (hsc gen' is.length) (hsc gen is.length)] at k5'
    have hE := (evaluateMap_ageless (size := c.size) sub (c.sched gen is.length) is).same hw2
    rw [k5, k5'] at hE
    have hu : Alike u u' := ⟨congrArg World.heap (show u.w.ungen = u'.w.ungen from hE.2), by have := congrArg World.nextId (show u.w.ungen = u'.w.ungen from hE.2); exact this, k6.trans k6'.symm,
      by rw [k7, k7', ha.genSeed]⟩
    obtain ⟨hA, l, e1, e2⟩ := ih hu k9 k9'
    refine ⟨hA, u.snapshot.people :: l, ?_, ?_⟩
    · rw [e1, k8, List.append_assoc]; rfl
    · rw [e2, k8', List.append_assoc, hu.people]; rfl

theorem bind_bind {σ α β γ : Type} (m : PyM σ α) (g : α → PyM σ β) (h : β → PyM σ γ) :
    ((m >>= g) >>= h) = (m >>= fun a => g a >>= h) := by
  funext s
  simp only [bind_run]
  rcases m s with ⟨r, s'⟩
  cases r <;> rfl

/-- Without a termination checker the main loop can be cut anywhere. -/
theorem mainLoop_add (hch : c.checker = .none) (m n gen : Nat) :
    mainLoop c (m + n) gen = (mainLoop c m gen >>= fun _ => mainLoop c n (gen + m)) := by
  induction m generalizing gen with
  | zero => funext s; simp only [Nat.zero_add, Nat.add_zero]; rfl
  | succ m ih =>
    funext s
    rw [Nat.succ_add]
    have hst : ∀ u : Run G κ, shouldTerminate c gen u = (.ok false, u) := fun u => by simp only [shouldTerminate, hch]
    have key : ∀ k, mainLoop c (k + 1) gen = ((do
        modify fun s => { s with genNum := gen }
        updateGen gen
        let s ← PyM.get
        setSeed c (nextSeed s.genSeed)
        modify fun s => { s with genSeed := nextSeed s.genSeed }
        generationIteration c
        publish "algorithm" "after_generation" : RM G κ Unit) >>= fun _ => mainLoop c k (gen + 1)) := by
      intro k
      funext s
      conv_lhs => unfold mainLoop
      simp only [bind_bind]
      refine bind_congr fun _ s₁ _ => bind_congr fun _ s₂ _ => bind_congr fun _ s₃ _ => bind_congr fun _ s₄ _ =>
        bind_congr fun _ s₅ _ => bind_congr fun _ s₆ _ => ?_
      rw [bind_of_ok (hst s₆)]
      rfl
    rw [key (m + n), key m, ih]
    simp only [bind_bind, Nat.add_assoc, Nat.add_comm 1 m]

theorem mainLoop_maxGen (k n gen : Nat) : mainLoop (c.upTo k) n gen = mainLoop c n gen := by
  induction n generalizing gen with
  | zero => rfl
  | succ n ih =>
    unfold mainLoop
    rw [ih]
    rfl

/-! ## The whole run -/

theorem evolve_parts (hch : c.checker = .none) (h : evolve c s = (.ok (), t)) :
    ∃ s₁ s₂, initRun c s = (.ok (), s₁) ∧ mainLoop c c.maxGen 1 s₁ = (.ok (), s₂) ∧
      t = { s₂ with log := s₂.log ++ [⟨"algorithm", "evolution_finished", s₂.snapshot⟩], shutdown := true } := by
  unfold evolve at h
  obtain ⟨_, s₁, h1, h⟩ := bind_ok.1 h
  obtain ⟨_, s₂, h2, h⟩ := bind_ok.1 h
  obtain ⟨_, s₃, h3, h⟩ := bind_ok.1 h
  simp only [publish, PyM.modify, Prod.mk.injEq] at h3 h
  obtain ⟨-, rfl⟩ := h3
  obtain ⟨-, rfl⟩ := h
  refine ⟨s₁, s₂, h1, ?_, rfl⟩
  unfold afterInit at h2
  obtain ⟨_, s₃, h3, h2⟩ := bind_ok.1 h2
  simp only [PyM.get, Prod.mk.injEq, Except.ok.injEq] at h3
  obtain ⟨rfl, rfl⟩ := h3
  obtain ⟨stop, s₄, h4, h2⟩ := bind_ok.1 h2
  simp only [shouldTerminate, hch, Prod.mk.injEq, Except.ok.injEq] at h4
  obtain ⟨rfl, rfl⟩ := h4
  simpa using h2

/-- There is one population, and it holds the scores of its genomes. -/
def AtRest (f : G → ℚ) (s : Run G κ) : Prop := ∃ is, s.inds = [some is] ∧ Scored f s.w.heap is

theorem initRun_atRest (hs : c.subs = [sub]) (hm : c.submit = false)
    (hd : sub.Computes fun g => .ok (f g)) (hsc : ∀ gen n, (c.sched gen n).Perm (List.range n))
    (h : initRun c s = (.ok (), t)) :
    AtRest f t ∧ generations t.log = generations s.log ∧ t.genSeed = s.genSeed ∧ (AtRest f s → Alike s t) := by
  unfold initRun at h
  obtain ⟨_, s₁, h1, h⟩ := bind_ok.1 h
  simp only [PyM.get, Prod.mk.injEq, Except.ok.injEq] at h1
  obtain ⟨rfl, rfl⟩ := h1
  obtain ⟨_, s₂, h2, h⟩ := bind_ok.1 h
  simp only [setSeed, PyM.modify, Prod.mk.injEq] at h2
  obtain ⟨-, rfl⟩ := h2
  obtain ⟨_, s₃, h3, h⟩ := bind_ok.1 h
  unfold createPopulation at h3
  obtain ⟨_, s₄, h4, h3⟩ := bind_ok.1 h3
  simp only [PyM.get, Prod.mk.injEq, Except.ok.injEq] at h4
  obtain ⟨rfl, rfl⟩ := h4
  obtain ⟨is₀, s₄, h4, h3⟩ := bind_ok.1 h3
  obtain ⟨w, h5, rfl⟩ := world_ok h4
  simp only [PyM.modify, Prod.mk.injEq] at h3
  obtain ⟨-, rfl⟩ := h3
  obtain ⟨b, s₆, h6, h⟩ := bind_ok.1 h
  obtain ⟨is, hi, he, i6, g6, l6, -⟩ := evaluatePopulation_ok hs hm h6
  obtain ⟨_, s₇, h7, h⟩ := bind_ok.1 h
  simp only [PyM.modify, publish, Prod.mk.injEq] at h7 h
  obtain ⟨-, rfl⟩ := h7
  obtain ⟨-, rfl⟩ := h
  refine ⟨⟨is, i6.trans hi, evaluateMap_scored hd (hsc _ _) he⟩, ?_, g6, ?_⟩
  · rw [generations_append, generations_other (by simp), List.append_nil]
    exact l6
  · rintro ⟨js, hj, hjs⟩
    dsimp only at h5 hi he
    rw [hj, hs] at h5
    have hc : mapL (fun (p : SubCfg G × Option (List Nat)) => createSub p.1 p.2) ([sub].zip [some js])
        { s.w with tape := c.stream s.randomSeed } = (.ok [some js], { s.w with tape := c.stream s.randomSeed }) := rfl
    rw [hc] at h5
    simp only [Prod.mk.injEq, Except.ok.injEq] at h5
    obtain ⟨rfl, rfl⟩ := h5
    simp only [List.cons.injEq, Option.some.injEq, and_true] at hi
    subst hi
    have hw := evaluateMap_again (w := { s.w with tape := c.stream s.randomSeed }) hd (hsc _ _) hjs he
    refine ⟨?_, ?_, ?_, g6.symm⟩
    · show s.w.heap.map _ = s₆.w.heap.map _
      rw [hw]
    · show s.w.nextId = s₆.w.nextId
      rw [hw]
    · show s.inds = s₆.inds
      rw [hj, i6]

theorem mainLoop_atRest (hch : c.checker = .none) (hs : c.subs = [sub]) (hm : c.submit = false)
    (hd : sub.Computes fun g => .ok (f g)) (hsc : ∀ gen n, (c.sched gen n).Perm (List.range n)) {n gen : Nat} {s t : Run G κ}
    (h0 : AtRest f s) (h : mainLoop c n gen s = (.ok (), t)) : AtRest f t := by
  induction n generalizing gen s with
  | zero =>
    simp only [mainLoop, pure, PyM.pure, Prod.mk.injEq] at h
    obtain ⟨-, rfl⟩ := h
    exact h0
  | succ n ih =>
    obtain ⟨u, w₁, w₂, is, b, k1, k2, k3, k4, k5, k6, k7, k8, k9⟩ := round_ok hch hs hm h
    exact ih ⟨is, k6, evaluateMap_scored hd (hsc _ _) k5⟩ k9

/-- C100, the part that holds: an experiment of `g` generations, continued by a second algorithm object that was given
the population and the generation seed, breeds the same individuals generation by generation as an experiment of `g + m`
generations: same ids, genomes, fitness, lineage and records, and ends with the same population and seed.  (Their `gen`
attributes differ; `best_of_run_`, `generation_num` and the random seed given to the second object do not matter.)  There
is no termination checker and the evaluator draws no random numbers. -/
theorem C100_continued_partial (hch : c.checker = .none) (hs : c.subs = [sub]) (hm : c.submit = false)
    (hd : sub.Computes fun g => .ok (f g)) (hsc : ∀ gen n, (c.sched gen n).Perm (List.range n))
    (ho : ∀ o ∈ sub.ops, o.Ageless) (hsl : ∀ sel ∈ sub.sels, sel.Ageless) {g m : Nat} {s₁ s₂ s₃ : Run G κ}
    {rs gn : Nat} {best : Option Nat} {ks : List κ} {tape : Tape}
    (h1 : evolve (c.upTo g) s = (.ok (), s₁))
    (h2 : evolve (c.upTo m) (s₁.resumedWith rs gn best ks tape) = (.ok (), s₂))
    (h3 : evolve (c.upTo (g + m)) s = (.ok (), s₃)) :
    generations s₃.log = generations s₁.log ++ generations s₂.log ∧ s₂.snapshot.people = s₃.snapshot.people ∧
      s₂.genSeed = s₃.genSeed := by
  obtain ⟨a₁, b₁, i1, l1, rfl⟩ := evolve_parts (c := (c.upTo g)) hch h1
  obtain ⟨a₂, b₂, i2, l2, rfl⟩ := evolve_parts (c := (c.upTo m)) hch h2
  obtain ⟨a₃, b₃, i3, l3, rfl⟩ := evolve_parts (c := (c.upTo (g + m))) hch h3
  rw [mainLoop_maxGen] at l1 l2 l3
  change mainLoop c g 1 _ = _ at l1
  change mainLoop c m 1 _ = _ at l2
  change mainLoop c (g + m) 1 _ = _ at l3
  have e13 : a₃ = a₁ := by
    have : initRun (c.upTo (g + m)) s = initRun (c.upTo g) s := rfl
    rw [this, i1] at i3
    simpa using i3.symm
  subst e13
  obtain ⟨st1, lg1, -, -⟩ := initRun_atRest (c := (c.upTo g)) hs hm hd hsc i1
  have stb := mainLoop_atRest hch hs hm hd hsc st1 l1
  rw [mainLoop_add hch] at l3
  obtain ⟨_, b', l1', l3⟩ := bind_ok.1 l3
  rw [l1] at l1'
  simp only [Prod.mk.injEq, true_and] at l1'
  subst l1'
  obtain ⟨-, lg2, -, al⟩ := initRun_atRest (c := (c.upTo m)) hs hm hd hsc i2
  have hA : Alike b₁ a₂ := by
    have h := al stb
    exact ⟨h.heap, h.nextId, h.inds, h.genSeed⟩
  obtain ⟨hAl, l, e1, e2⟩ := mainLoop_alike hch hs hm hd hsc ho hsl hA l3 l2
  refine ⟨?_, hAl.symm.people, hAl.genSeed.symm⟩
  simp only [generations_append, generations_other (e := ⟨"algorithm", "evolution_finished", _⟩) (by simp), List.append_nil]
  rw [e1, e2, lg2]
  rfl

/-! ## The part that does not hold -/

/-- The full claim of C100: in addition the second algorithm object goes on counting generations, and its `best_of_run_`
is the best individual of the whole experiment: the one it was given is not better. -/
def C100_statement : Prop :=
  ∀ (c : Cfg Nat Unit) (sub : SubCfg Nat) (f : Nat → ℚ) (s s₁ s₂ : Run Nat Unit) (g m rs : Nat) (tape : Tape),
    c.checker = .none → c.subs = [sub] → c.submit = false → (sub.Computes fun g => .ok (f g)) →
    (∀ gen n, (c.sched gen n).Perm (List.range n)) → (∀ o ∈ sub.ops, o.Ageless) → (∀ sel ∈ sub.sels, sel.Ageless) →
    evolve (c.upTo g) s = (.ok (), s₁) → s.genNum = 0 →
    evolve (c.upTo m) (s₁.resumedWith rs s₁.genNum s₁.bestOfRun [] tape) = (.ok (), s₂) →
    s₂.genNum = g + m ∧ ∀ b, s₁.bestOfRun = some b → betterOf c.size s₂.w.heap b s₂.bestOfRun ≠ .ok true

/-- Genomes go down by one in every generation; the fitness is the genome. -/
def exDown : SubCfg Nat where
  creators := [createIndividuals 0 (fun t => (.ok (t 0 % 7 + 5), fun n => t (n + 1))) (fun h => ⟨.none, false, h, false, true, none⟩) true]
  pick := pure 0
  ops := [Op.inPlace "Decr" 1 1 fun gs => pure (some (gs.map (· - 1)))]
  sels := [tournament (fun _ => 1) 2 false]
  popSize := 3
  nElite := 0
  hib := true
  evaluate := fun g => pure g

def exDownCfg : Cfg Nat Unit where
  size := fun _ => 1
  subs := [exDown]
  stream := fun seed n => seed + n
  maxGen := 0
  checker := .none
  sched := fun _ n => List.range n
  submit := false

def exDownRun : Run Nat Unit := ⟨⟨[], 1, fun n => n⟩, [none], none, none, none, 0, 42, 42, none, [], false, []⟩

def exPaused : Run Nat Unit := (evolve (exDownCfg.upTo 2) exDownRun).2

def exResumed : Run Nat Unit := exPaused.resumedWith 7 exPaused.genNum exPaused.bestOfRun [] (fun n => 3 * n)

theorem exPaused_ends : (evolve (exDownCfg.upTo 2) exDownRun).1 = .ok () ∧ exPaused.genNum = 2 ∧
    exPaused.bestOfRun = some 2 := by decide +kernel

theorem exResumed_ends : (evolve (exDownCfg.upTo 1) exResumed).1 = .ok () ∧
    (evolve (exDownCfg.upTo 1) exResumed).2.genNum = 1 ∧
    betterOf (fun _ => 1) (evolve (exDownCfg.upTo 1) exResumed).2.w.heap 2
      (evolve (exDownCfg.upTo 1) exResumed).2.bestOfRun = .ok true := by decide +kernel

theorem exPaused_ran : evolve (exDownCfg.upTo 2) exDownRun = (.ok (), exPaused) := ran exPaused_ends.1

theorem exResumed_ran : evolve (exDownCfg.upTo 1) (exPaused.resumedWith 7 exPaused.genNum exPaused.bestOfRun [] fun n => 3 * n) =
    (.ok (), (evolve (exDownCfg.upTo 1) exResumed).2) := ran exResumed_ends.1

theorem exUncut_ends : (evolve (exDownCfg.upTo (2 + 1)) exDownRun).1 = .ok () ∧
    (generations (evolve (exDownCfg.upTo (2 + 1)) exDownRun).2.log).length = 3 := by decide +kernel

theorem exDown_computes : exDown.Computes fun g => .ok (g : ℚ) := fun _ _ => rfl

theorem exDown_ops : ∀ o ∈ exDown.ops, o.Ageless := by
  intro o ho
  simp only [exDown, List.mem_singleton] at ho
  subst ho
  exact inPlace_ageless _ _ _ _

theorem exDown_sels : ∀ sel ∈ exDown.sels, sel.Ageless := by
  intro sel h
  simp only [exDown, List.mem_singleton] at h
  subst h
  exact tournament_ageless _ _

/-- The hypotheses of the partial claim are met by an experiment of two generations continued by one. -/
example := C100_continued_partial (c := exDownCfg) rfl rfl rfl exDown_computes (fun _ _ => List.Perm.refl _) exDown_ops exDown_sels
  (g := 2) (m := 1) (s := exDownRun) exPaused_ran exResumed_ran (ran exUncut_ends.1)

/-- C100 is false: the second object counts its generations from one. -/
theorem C100_refuted : ¬ C100_statement := fun h => by
  have := (h exDownCfg exDown _ exDownRun exPaused (evolve (exDownCfg.upTo 1) exResumed).2 2 1 7 (fun n => 3 * n) rfl rfl rfl exDown_computes (fun _ _ => List.Perm.refl _)
    exDown_ops exDown_sels exPaused_ran rfl exResumed_ran).1
  rw [exResumed_ends.2.1] at this
  omega

/-- C100 is false also of `best_of_run_`: the one the second object was given is better than the one it ends with. -/
theorem C100_best_refuted : ¬ ∀ (c : Cfg Nat Unit) (sub : SubCfg Nat) (f : Nat → ℚ) (s s₁ s₂ : Run Nat Unit) (g m rs : Nat) (tape : Tape),
    c.checker = .none → c.subs = [sub] → c.submit = false → (sub.Computes fun g => .ok (f g)) →
    (∀ gen n, (c.sched gen n).Perm (List.range n)) → (∀ o ∈ sub.ops, o.Ageless) → (∀ sel ∈ sub.sels, sel.Ageless) →
    evolve (c.upTo g) s = (.ok (), s₁) → s.genNum = 0 →
    evolve (c.upTo m) (s₁.resumedWith rs s₁.genNum s₁.bestOfRun [] tape) = (.ok (), s₂) →
    ∀ b, s₁.bestOfRun = some b → betterOf c.size s₂.w.heap b s₂.bestOfRun ≠ .ok true := fun h => by
  have := h exDownCfg exDown _ exDownRun exPaused (evolve (exDownCfg.upTo 1) exResumed).2 2 1 7 (fun n => 3 * n) rfl rfl rfl exDown_computes (fun _ _ => List.Perm.refl _)
    exDown_ops exDown_sels exPaused_ran rfl exResumed_ran 2 exPaused_ends.2.2
  exact this exResumed_ends.2.2

end Verif.Evo

/-! ## The operators of the library -/

namespace Verif.GP
open Verif.Evo

theorem LibOp.ageless {o : Op GP.Ind} (h : LibOp o) : o.Ageless := by
  cases h <;> exact inPlace_ageless _ _ _ _

end Verif.GP

namespace Verif.GA
open Verif.Evo
variable {kind : Kind} {length : Nat}

theorem LibOp.ageless {o : Op Vec} (h : LibOp kind length o) : o.Ageless := by
  cases h with
  | crossover p arity k hk => exact inPlace_ageless _ _ _ _
  | mutation c p arity hc hn =>
    rcases c.asOp_eq p arity with ⟨name, e⟩ | ⟨name, d, -, -, -, -, -, -, -, -, -, name', e', e⟩
    · rw [e]; exact inPlace_ageless _ _ _ _
    · rw [e]
      refine withFallback_ageless _ _ _ _ ?_
      rw [e']
      exact inPlace_ageless _ _ _ _

end Verif.GA
