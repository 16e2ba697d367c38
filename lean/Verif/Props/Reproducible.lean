import Verif.Lemmas.Reloc
import Verif.Props.Schedule

/-! # C38: runs are reproducible from their seed -/

namespace Verif.Evo
open PyM
variable {G κ : Type} {c : Cfg G κ} {ψ : Nat → Nat → κ → κ} {s s' : Run G κ}

/-! ## Independence of the past -/

/-- What can be seen of an individual, apart from ids and addresses. -/
structure View (G : Type) where
  genome : G
  gen : Nat
  evaluated : Bool
  score : Option ℚ
  selectedBy : List String
  appliedOps : List String

/-- The fitness value, if it is a number. -/
def FVal.score : FVal → Option ℚ
  | .num q => some q
  | _ => Option.none

def Ind.view (i : Ind G) : View G := ⟨i.genome, i.gen, i.fit.evaluated, i.fit.value.score, i.selectedBy, i.appliedOps⟩

def viewAt (h : List (Ind G)) (r : Nat) : Option (View G) := (h[r]?).map Ind.view

/-- What can be seen of an algorithm at some moment: the populations, the best individuals, generation and seed. -/
structure Look (G : Type) where
  populations : List (Option (List (Option (View G))))
  bestOfRun : Option (Option (View G))
  bestOfGen : Option (Option (View G))
  genNum : Nat
  genSeed : Nat

def Snapshot.look (s : Snapshot G) : Look G where
  populations := s.inds.map (Option.map (List.map (viewAt s.heap)))
  bestOfRun := s.bestOfRun.map (viewAt s.heap)
  bestOfGen := s.bestOfGen.map (viewAt s.heap)
  genNum := s.genNum
  genSeed := s.genSeed

/-- Everything that can be seen at the end of a run: the final state, and all that observers saw at every event. -/
def Run.looks (s : Run G κ) :=
  (s.snapshot.look, s.worstOfGen.map (viewAt s.w.heap), s.finalGen, s.log.map fun e => (e.publisher, e.name, e.snap.look))

theorem viewAt_moved (J : List (Ind G)) (k : Nat) (h : List (Ind G)) (r : Nat) :
    viewAt (movedHeap J k h) (r + J.length) = viewAt h r := by
  unfold viewAt
  rw [movedHeap_get, Option.map_map]
  congr 1
  funext i
  show View.mk _ _ _ (FVal.score (FVal.moved J.length i.fit.value)) _ _ = View.mk _ _ _ _ _ _
  congr 1
  cases i.fit.value <;> rfl

theorem look_moved (J : List (Ind G)) (k : Nat) (s : Snapshot G) : (s.moved J k).look = s.look := by
  unfold Snapshot.look Snapshot.moved movedInds movedRefs
  simp only [List.map_map, Option.map_map, Look.mk.injEq]
  refine ⟨?_, ?_, ?_, trivial, trivial⟩
  · congr 1
    funext o
    cases o with
    | none => rfl
    | some l =>
      simp only [Function.comp, Option.map_some, List.map_map]
      congr 2
      funext r
      exact viewAt_moved J k s.heap r
  · congr 1
    funext r
    exact viewAt_moved J k s.heap r
  · congr 1
    funext r
    exact viewAt_moved J k s.heap r

theorem looks_moved (J : List (Ind G)) (k : Nat) (φ : κ → κ) (s : Run G κ) : (s.moved J k φ).looks = s.looks := by
  unfold Run.looks
  have h1 : (s.moved J k φ).snapshot.look = s.snapshot.look := look_moved J k s.snapshot
  rw [h1]
  show (_, (s.worstOfGen.map (· + J.length)).map (viewAt (movedHeap J k s.w.heap)), _, (s.log.map (Event.moved J k)).map _) = _
  rw [Option.map_map, List.map_map]
  congr 2
  · congr 1
    funext r
    exact viewAt_moved J k s.w.heap r
  · congr 1
    congr 1
    funext e
    show (e.publisher, e.name, (e.snap.moved J k).look) = _
    rw [look_moved]

/-- Nothing is drawn before the generators are seeded. -/
theorem evolve_tape (c : Cfg G κ) (s : Run G κ) (t : Tape) : evolve c { s with w := { s.w with tape := t } } = evolve c s := rfl

/-- C38: two runs of the same configuration in worlds with different pasts (other individuals exist, other ids have
been given out, the random generators are in other states) end in the same way, and all that can be seen of them is
the same. -/
theorem C38_reproducible (hc : c.Uniform ψ) (s : Run G κ) (J : List (Ind G)) (k : Nat) (t : Tape)
    (hk : s.checkers.map (ψ J.length k) = s.checkers) (s₂ : Run G κ)
    (h2 : s₂ = { s.moved J k id with w := { (s.moved J k id).w with tape := t } }) :
    (evolve c s₂).1 = (evolve c s).1 ∧ (evolve c s₂).2.looks = (evolve c s).2.looks := by
  subst h2
  rw [evolve_tape]
  have e : s.moved J k id = s.moved J k (ψ J.length k) := by
    unfold Run.moved
    rw [hk, List.map_id]
  rw [e]
  have := evolve_sim (J := J) (k := k) hc s
  rw [this]
  exact ⟨except_map_id _, looks_moved _ _ _ _⟩

/-- A run that has not started: nothing but its configuration and seeds. -/
structure Run.Fresh (s : Run G κ) : Prop where
  inds : ∀ is ∈ s.inds, is = none
  bestOfRun : s.bestOfRun = none
  bestOfGen : s.bestOfGen = none
  worstOfGen : s.worstOfGen = none
  log : s.log = []

/-- C38: two fresh runs of the same configuration with the same seeds, in any two worlds. -/
theorem C38_fresh (hc : c.Uniform ψ) {s : Run G κ} (hf : s.Fresh) (hk : ∀ x ∈ s.checkers, ∀ n k, ψ n k x = x) (w : World G) :
    (evolve c { s with w := w }).1 = (evolve c s).1 ∧ (evolve c { s with w := w }).2.looks = (evolve c s).2.looks := by
  have key : ∀ w : World G, (evolve c { s with w := w }).1 = (evolve c { s with w := ⟨[], 0, w.tape⟩ }).1 ∧
      (evolve c { s with w := w }).2.looks = (evolve c { s with w := ⟨[], 0, w.tape⟩ }).2.looks := by
    intro w
    refine C38_reproducible hc { s with w := ⟨[], 0, w.tape⟩ } w.heap w.nextId w.tape ?_ _ ?_
    · show s.checkers.map _ = s.checkers
      exact (List.map_congr_left fun x hx => hk x hx _ _).trans (List.map_id _)
    · obtain ⟨h1, h2, h3, h4, h5⟩ := hf
      obtain ⟨w0, inds, b1, b2, b3, gn, rs, gs, fg, cks, sd, log⟩ := s
      simp only at h1 h2 h3 h4 h5
      subst h2 h3 h4 h5
      have : movedInds w.heap.length inds = inds := by
        unfold movedInds
        refine (List.map_congr_left fun x hx => ?_).trans (List.map_id _)
        rw [h1 x hx]
        rfl
      simp only [Run.moved, World.moved, movedHeap, this]
      simp
  have h1 := key w
  have h2 := key s.w
  have h3 : evolve c { s with w := ⟨[], 0, w.tape⟩ } = evolve c { s with w := ⟨[], 0, s.w.tape⟩ } := rfl
  rw [h3] at h1
  exact ⟨h1.1.trans h2.1.symm, h1.2.trans h2.2.symm⟩

/-- C38: with an evaluator that draws no random numbers, the order in which the workers evaluate individuals does not
matter either. -/
theorem C38_any_schedule {sub : SubCfg G} (hc : c.Uniform ψ) (hs : c.subs = [sub]) (hm : c.submit = false) {f : G → ℚ}
    (hd : sub.Computes fun g => .ok (f g)) {sched' : Nat → Nat → List Nat}
    (h1 : ∀ gen n, (c.sched gen n).Perm (List.range n)) (h2 : ∀ gen n, (sched' gen n).Perm (List.range n))
    (hf : s.Fresh) (hk : ∀ x ∈ s.checkers, ∀ n k, ψ n k x = x) (w : World G) :
    (evolve { c with sched := sched' } { s with w := w }).1 = (evolve c s).1 ∧
      (evolve { c with sched := sched' } { s with w := w }).2.looks = (evolve c s).2.looks := by
  rw [← C39_deterministic_partial hs hm hd h1 h2]
  exact C38_fresh hc hf hk w

/-! ## Seeds -/

/-- The property `I` of the state survives the computation, whether it returns or raises. -/
def Stays {σ α : Type} (I : σ → Prop) (m : PyM σ α) : Prop := ∀ s, I s → I (m s).2

theorem Stays.pure {σ α : Type} {I : σ → Prop} (a : α) : Stays I (pure a : PyM σ α) := fun _ h => h
theorem Stays.raise {σ α : Type} {I : σ → Prop} (e : Err) : Stays I (raise e : PyM σ α) := fun _ h => h
theorem Stays.get {σ : Type} {I : σ → Prop} : Stays I (PyM.get : PyM σ σ) := fun _ h => h
theorem Stays.bind {σ α β : Type} {I : σ → Prop} {m : PyM σ α} {f : α → PyM σ β} (hm : Stays I m) (hf : ∀ a, Stays I (f a)) :
    Stays I (m >>= f) := by
  intro s h
  rw [bind_run]
  have := hm s h
  rcases hms : m s with ⟨r, s₁⟩
  rw [hms] at this
  cases r with
  | error e => exact this
  | ok a => exact hf a s₁ this
theorem Stays.forL {σ α : Type} {I : σ → Prop} {f : α → PyM σ Unit} (xs : List α) (hf : ∀ a, Stays I (f a)) :
    Stays I (forL f xs) := by
  induction xs with
  | nil => exact Stays.pure _
  | cons x xs ih => exact Stays.bind (hf x) fun _ => ih
theorem Stays.ite {σ α : Type} {I : σ → Prop} {c : Prop} [Decidable c] {m n : PyM σ α} (h1 : Stays I m) (h2 : Stays I n) :
    Stays I (if c then m else n) := by split <;> assumption

/-- A property of states that depends on the numbers and seeds only, and that publishing an event keeps. -/
structure SeedInv (I : Run G κ → Prop) : Prop where
  only : ∀ s s' : Run G κ, s'.genNum = s.genNum → s'.genSeed = s.genSeed → s'.log = s.log → I s → I s'
  publish : ∀ (s : Run G κ) p n, I s → I { s with log := s.log ++ [⟨p, n, s.snapshot⟩] }

section
variable {I : Run G κ → Prop} (hO : ∀ s s' : Run G κ, s'.genNum = s.genNum → s'.genSeed = s.genSeed → s'.log = s.log → I s → I s')
include hO

theorem stays_world_of {α : Type} (m : WM G α) : Stays I (world m) := by
  intro s h
  unfold world PyM.zoom
  exact hO s _ rfl rfl rfl h

theorem stays_shouldTerminate (gen : Nat) : Stays I (shouldTerminate c gen) := by
  intro s h
  unfold shouldTerminate
  split
  · exact h
  · split
    · exact hO s _ rfl rfl rfl h
    · exact h
  · split
    · exact hO s _ rfl rfl rfl h
    · exact hO s _ rfl rfl rfl h

theorem stays_updateGen (gen : Nat) : Stays I (updateGen gen : RM G κ Unit) := by
  refine Stays.bind Stays.get fun s => Stays.forL _ fun is => ?_
  cases is with
  | none => exact Stays.raise _
  | some is => exact stays_world_of hO _

end

section
variable {I : Run G κ → Prop} (hI : SeedInv I)
include hI

theorem stays_modify {f : Run G κ → Run G κ} (h1 : ∀ s, (f s).genNum = s.genNum) (h2 : ∀ s, (f s).genSeed = s.genSeed)
    (h3 : ∀ s, (f s).log = s.log) : Stays I (modify f) := fun s h => hI.only s (f s) (h1 s) (h2 s) (h3 s) h

theorem stays_world {α : Type} (m : WM G α) : Stays I (world m) := stays_world_of hI.only m

theorem stays_publish (p n : String) : Stays I (publish p n) := fun s h => hI.publish s p n h

theorem stays_act {α : Type} {m : RM G κ α} (p : String) (h : Stays I m) : Stays I (act p m) :=
  Stays.bind (stays_publish hI _ _) fun _ => Stays.bind h fun _ => Stays.bind (stays_publish hI _ _) fun _ => Stays.pure _

theorem stays_evaluate : Stays I (evaluatePopulation c) := by
  refine stays_act hI _ (Stays.bind Stays.get fun s => ?_)
  split
  · exact Stays.ite (Stays.raise _) (stays_world hI _)
  · exact Stays.raise _
  · exact Stays.raise _

theorem stays_init : Stays I (initRun c) := by
  refine Stays.bind Stays.get fun s => Stays.bind (stays_modify hI (fun _ => rfl) (fun _ => rfl) fun _ => rfl) fun _ => ?_
  refine Stays.bind (Stays.bind Stays.get fun s => Stays.bind (stays_world hI _) fun _ =>
    stays_modify hI (fun _ => rfl) (fun _ => rfl) fun _ => rfl) fun _ => ?_
  exact Stays.bind (stays_evaluate hI) fun _ => Stays.bind (stays_modify hI (fun _ => rfl) (fun _ => rfl) fun _ => rfl)
    fun _ => stays_publish hI _ _

theorem stays_generation : Stays I (generationIteration c) := by
  refine Stays.bind (stays_act hI _ (Stays.bind Stays.get fun s => Stays.bind (stays_world hI _) fun _ =>
    stays_modify hI (fun _ => rfl) (fun _ => rfl) fun _ => rfl)) fun _ => ?_
  refine Stays.bind (stays_evaluate hI) fun b => Stays.bind (stays_modify hI (fun _ => rfl) (fun _ => rfl) fun _ => rfl) fun _ => ?_
  refine Stays.bind (Stays.bind Stays.get fun s => Stays.bind (stays_world hI _) fun v => ?_) fun _ => Stays.bind Stays.get fun s => ?_
  · exact Stays.ite (stays_modify hI (fun _ => rfl) (fun _ => rfl) fun _ => rfl) (Stays.pure _)
  · split
    · exact Stays.bind (stays_world hI _) fun _ => stays_modify hI (fun _ => rfl) (fun _ => rfl) fun _ => rfl
    · exact Stays.raise _

end

/-- Everything that was published shows the seed that belongs to the generation. -/
def SeedsShown (g : Nat → Nat) (s : Run G κ) : Prop := ∀ e ∈ s.log, e.snap.genSeed = g e.snap.genNum

theorem seedInv (g : Nat → Nat) : SeedInv fun s : Run G κ => s.genSeed = g s.genNum ∧ SeedsShown g s where
  only s s' h1 h2 h3 h := by
    refine ⟨by rw [h1, h2]; exact h.1, ?_⟩
    unfold SeedsShown
    rw [h3]
    exact h.2
  publish s p n h := by
    refine ⟨h.1, ?_⟩
    intro e he
    simp only [List.mem_append, List.mem_singleton] at he
    rcases he with he | rfl
    · exact h.2 e he
    · exact h.1

theorem Stays.tri {σ α : Type} {I E : σ → Prop} {m : PyM σ α} (h : Stays I m) {s : σ} (hs : I s) (he : ∀ s, I s → E s) :
    tri m (fun _ s' => I s') E s := by
  intro r s' hr
  have := h s hs
  rw [hr] at this
  cases r with
  | ok a => exact this
  | error e => exact he _ this

/-- The seed of generation `g` when the run was started with the generation seed `s0`. -/
def seedOf (s0 g : Nat) : Nat := if g = 0 then s0 else (s0 + g) % 2 ^ 32

theorem nextSeed_seedOf (s0 g : Nat) : nextSeed (seedOf s0 g) = seedOf s0 (g + 1) := by
  unfold nextSeed seedOf
  rw [if_neg (Nat.succ_ne_zero g)]
  split
  · subst_vars; rfl
  · omega

theorem mainLoop_seeds (s0 n gen : Nat) {s : Run G κ} (hg : s.genNum + 1 = gen)
    (h : s.genSeed = seedOf s0 s.genNum ∧ SeedsShown (seedOf s0) s) :
    tri (mainLoop c n gen) (fun _ s' => s'.genSeed = seedOf s0 s'.genNum ∧ SeedsShown (seedOf s0) s')
      (SeedsShown (seedOf s0)) s := by
  induction n generalizing gen s with
  | zero => exact tri_pure h
  | succ n ih =>
    have hI := seedInv (G := G) (κ := κ) (seedOf s0)
    unfold mainLoop
    refine tri_bind (tri_modify (tri_bind ?_))
    refine tri.mono (Stays.tri (I := fun s' : Run G κ => s'.genNum = gen ∧ s'.genSeed = s.genSeed ∧ s'.log = s.log)
      (stays_updateGen (fun a b h1 h2 h3 h => ⟨h1.trans h.1, h2.trans h.2.1, h3.trans h.2.2⟩) gen) ⟨rfl, rfl, rfl⟩
      fun s' h' => by unfold SeedsShown; rw [h'.2.2]; exact h.2) ?_
    rintro _ s₁ ⟨h1, h2, h3⟩
    refine tri_bind (tri_get (tri_bind (tri_modify (tri_bind (tri_modify (tri_bind ?_))))))
    have hstart : nextSeed s₁.genSeed = seedOf s0 s₁.genNum ∧ SeedsShown (seedOf s0) s₁ := by
      refine ⟨by rw [h1, h2, h.1, nextSeed_seedOf, hg], by unfold SeedsShown; rw [h3]; exact h.2⟩
    refine tri.mono (Stays.tri (I := fun s' : Run G κ => s'.genNum = gen ∧ s'.genSeed = seedOf s0 s'.genNum ∧ SeedsShown (seedOf s0) s')
      (stays_generation (c := c) ?_) ⟨h1, hstart⟩ fun s' h' => h'.2.2) ?_
    · exact ⟨fun a b e1 e2 e3 e => ⟨e1.trans e.1, hI.only a b e1 e2 e3 e.2⟩, fun a p n e => ⟨e.1, hI.publish a p n e.2⟩⟩
    intro _ s₂ h4
    refine tri_bind (tri.mono (Stays.tri (I := fun s' : Run G κ => s'.genNum = gen ∧ s'.genSeed = seedOf s0 s'.genNum ∧ SeedsShown (seedOf s0) s')
      (stays_shouldTerminate (c := c) (fun a b e1 e2 e3 e => ⟨e1.trans e.1, hI.only a b e1 e2 e3 e.2⟩) gen) h4 fun s' h' => h'.2.2) ?_)
    intro stop s₃ h5
    refine tri_ite (fun _ => tri_bind (tri_modify (tri_modify ?_))) fun _ => tri_bind (tri_modify (ih _ ?_ ?_))
    · exact hI.publish { s₃ with finalGen := some gen } _ _ (hI.only s₃ _ rfl rfl rfl h5.2)
    · show s₃.genNum + 1 = gen + 1
      rw [h5.1]
    · exact hI.publish s₃ _ _ h5.2

/-- C38: whatever is observed in a run shows, in generation `g`, the seed `(generation_seed + g) mod 2^32`. -/
theorem C38_generation_seeds (hlog : s.log = []) (hg : s.genNum = 0) {r : Except Err Unit} (h : evolve c s = (r, s')) :
    ∀ e ∈ s'.log, e.snap.genSeed = if e.snap.genNum = 0 then s.genSeed else (s.genSeed + e.snap.genNum) % 2 ^ 32 := by
  have hI := seedInv (G := G) (κ := κ) (seedOf s.genSeed)
  have key : tri (evolve c) (fun _ s' => s'.genSeed = seedOf s.genSeed s'.genNum ∧ SeedsShown (seedOf s.genSeed) s')
      (SeedsShown (seedOf s.genSeed)) s := by
    unfold evolve
    have h0 : s.genNum = 0 ∧ s.genSeed = seedOf s.genSeed s.genNum ∧ SeedsShown (seedOf s.genSeed) s := by
      refine ⟨hg, by rw [hg]; rfl, ?_⟩
      unfold SeedsShown
      rw [hlog]
      simp
    have hI0 : SeedInv fun s' : Run G κ => s'.genNum = 0 ∧ s'.genSeed = seedOf s.genSeed s'.genNum ∧ SeedsShown (seedOf s.genSeed) s' :=
      ⟨fun a b e1 e2 e3 e => ⟨e1.trans e.1, hI.only a b e1 e2 e3 e.2⟩, fun a p n e => ⟨e.1, hI.publish a p n e.2⟩⟩
    refine tri_bind (tri.mono (Stays.tri (stays_init hI0) h0 fun s' h' => h'.2.2) fun _ s₁ h1 => ?_)
    refine tri_bind (tri.mono (Q := fun _ s' => s'.genSeed = seedOf s.genSeed s'.genNum ∧ SeedsShown (seedOf s.genSeed) s') ?_ ?_)
    · unfold afterInit
      refine tri_bind (tri_get (tri_bind (tri.mono (Stays.tri (stays_shouldTerminate hI0.only _) h1 fun s' h' => h'.2.2) ?_)))
      intro stop s₂ h2
      refine tri_ite (fun _ => tri_bind (tri_modify (tri_modify ?_))) fun _ => mainLoop_seeds _ _ _ (by rw [h2.1]) h2.2
      exact hI.publish { s₂ with finalGen := some 0 } _ _ (hI.only s₂ _ rfl rfl rfl h2.2)
    · intro _ s₂ h2
      exact tri_bind (tri_modify (tri_modify (hI.only _ _ rfl rfl rfl (hI.publish s₂ _ _ h2))))
  have := key r s' h
  cases r with
  | ok _ => exact this.2
  | error _ => exact this

theorem bind_congr {σ α β : Type} {m : PyM σ α} {f f' : α → PyM σ β} {s : σ}
    (h : ∀ a s', m s = (.ok a, s') → f a s' = f' a s') : (m >>= f) s = (m >>= f') s := by
  rw [bind_run, bind_run]
  rcases hm : m s with ⟨r, s'⟩
  cases r with
  | error e => rfl
  | ok a => exact h a s' hm

theorem Stays.of_ok {σ α : Type} {I : σ → Prop} {m : PyM σ α} (h : Stays I m) {s s' : σ} {a : α} (hs : I s)
    (hm : m s = (.ok a, s')) : I s' := by
  have := h s hs
  rwa [hm] at this

theorem genSeedInv (x : Nat) : SeedInv fun s : Run G κ => s.genSeed = x :=
  ⟨fun _ _ _ h2 _ h => h2.trans h, fun _ _ _ h => h⟩

/-- C38: generation by generation, the main loop draws its random numbers from the generators seeded with the seed of the state it
finds plus one, two, and so on. -/
theorem C38_loop_streams {st : Nat → Tape} (n gen : Nat) {s : Run G κ}
    (h : ∀ j, 1 ≤ j → j ≤ n → st ((s.genSeed + j) % 2 ^ 32) = c.stream ((s.genSeed + j) % 2 ^ 32)) :
    mainLoop { c with stream := st } n gen s = mainLoop c n gen s := by
  induction n generalizing gen s with
  | zero => rfl
  | succ n ih =>
    unfold mainLoop
    refine bind_congr fun _ s₁ h1 => bind_congr fun _ s₂ h2 => bind_congr fun x s₃ h3 => ?_
    have g1 : s₁.genSeed = s.genSeed := by
      simp only [PyM.modify, Prod.mk.injEq] at h1
      rw [← h1.2]
    have g2 : s₂.genSeed = s.genSeed := Stays.of_ok (stays_updateGen (genSeedInv s.genSeed).only gen) g1 h2
    simp only [PyM.get, Prod.mk.injEq, Except.ok.injEq] at h3
    obtain ⟨rfl, rfl⟩ := h3
    have e : setSeed { c with stream := st } (nextSeed s₂.genSeed) = (setSeed c (nextSeed s₂.genSeed) : RM G κ Unit) := by
      unfold setSeed
      have : st (nextSeed s₂.genSeed) = c.stream (nextSeed s₂.genSeed) := by
        rw [g2]
        exact h 1 (le_refl 1) (by omega)
      simp only [this]
    rw [e]
    refine bind_congr fun _ s₄ h4 => bind_congr fun _ s₅ h5 => ?_
    have g5 : s₅.genSeed = (s.genSeed + 1) % 2 ^ 32 := by
      simp only [setSeed, PyM.modify, Prod.mk.injEq] at h4 h5
      rw [← h5.2, ← h4.2]
      show nextSeed s₂.genSeed = _
      rw [g2]
      rfl
    have e2 : generationIteration { c with stream := st } = generationIteration c := rfl
    have e3 : shouldTerminate { c with stream := st } gen = shouldTerminate c gen := rfl
    rw [e2, e3]
    refine bind_congr fun _ s₆ h6 => bind_congr fun stop s₇ h7 => ?_
    have g6 := Stays.of_ok (stays_generation (c := c) (genSeedInv _)) g5 h6
    have g7 := Stays.of_ok (stays_shouldTerminate (c := c) (genSeedInv _).only gen) g6 h7
    split
    · rfl
    · refine bind_congr fun _ s₈ h8 => ih _ ?_
      intro j hj hjn
      have g8 := Stays.of_ok (stays_publish (genSeedInv _) _ _) g7 h8
      rw [g8]
      have : ((s.genSeed + 1) % 2 ^ 32 + j) % 2 ^ 32 = (s.genSeed + (j + 1)) % 2 ^ 32 := by omega
      rw [this]
      exact h (j + 1) (by omega) (by omega)

/-- C38: generation `g` draws its random numbers from the generators seeded with `(generation_seed + g) mod 2^32`, the
initial population from those seeded with `random_seed`; no other random numbers are used in a run. -/
theorem C38_streams {st : Nat → Tape} (h0 : st s.randomSeed = c.stream s.randomSeed)
    (h : ∀ g, 1 ≤ g → g ≤ c.maxGen → st ((s.genSeed + g) % 2 ^ 32) = c.stream ((s.genSeed + g) % 2 ^ 32)) :
    evolve { c with stream := st } s = evolve c s := by
  have hi : initRun { c with stream := st } s = initRun c s := by
    unfold initRun
    refine bind_congr fun x s₁ h1 => ?_
    simp only [PyM.get, Prod.mk.injEq, Except.ok.injEq] at h1
    obtain ⟨rfl, rfl⟩ := h1
    have e : setSeed { c with stream := st } s.randomSeed = (setSeed c s.randomSeed : RM G κ Unit) := by
      unfold setSeed
      simp only [h0]
    rw [e]
    rfl
  unfold evolve
  rw [bind_run, bind_run, hi]
  rcases hr : initRun c s with ⟨r, s₁⟩
  cases r with
  | error e => rfl
  | ok _ =>
    have g1 : s₁.genSeed = s.genSeed := Stays.of_ok (stays_init (genSeedInv _)) rfl hr
    have : afterInit { c with stream := st } s₁ = afterInit c s₁ := by
      unfold afterInit
      refine bind_congr fun x s₂ h2 => ?_
      simp only [PyM.get, Prod.mk.injEq, Except.ok.injEq] at h2
      obtain ⟨rfl, rfl⟩ := h2
      refine bind_congr fun stop s₂ h2 => ?_
      have g2 := Stays.of_ok (stays_shouldTerminate (c := { c with stream := st }) (genSeedInv _).only s₁.genNum) g1 h2
      split
      · rfl
      · exact C38_loop_streams _ _ fun j h1 h2 => by rw [g2]; exact h j h1 h2
    show (afterInit { c with stream := st } >>= _) s₁ = (afterInit c >>= _) s₁
    rw [bind_run, bind_run, this]

/-- C38: what follows after a generation depends on the state of the random generators in no way: only on the
population, the seed and the other attributes at that point. -/
theorem C38_resume (n gen : Nat) (s : Run G κ) (t : Tape) :
    (mainLoop c (n + 1) gen { s with w := { s.w with tape := t } }) = mainLoop c (n + 1) gen s ∨
    ∃ e s₁, mainLoop c (n + 1) gen s = (.error e, s₁) ∧
      mainLoop c (n + 1) gen { s with w := { s.w with tape := t } } = (.error e, { s₁ with w := { s₁.w with tape := t } }) := by
  have hsim : Sim (fun s : Run G κ => { s with w := { s.w with tape := t } }) id (updateGen gen) (updateGen gen) := by
    unfold updateGen
    refine Sim.get_bind fun s => ?_
    have := Sim.forL (L := fun s : Run G κ => { s with w := { s.w with tape := t } }) (ζ := id)
      (f' := fun (is : Option (List Nat)) => match is with | none => raise .typeError | some is => world (forL (fun r => update r fun i => { i with gen := gen }) is))
      (f := fun (is : Option (List Nat)) => match is with | none => raise .typeError | some is => world (forL (fun r => update r fun i => { i with gen := gen }) is))
      s.inds (fun is _ => by
        cases is with
        | none => exact Sim.raise
        | some is =>
          refine Sim.zoom (L := fun w : World G => { w with tape := t }) ?_ (fun _ => rfl) (fun _ _ => rfl)
          have := Sim.forL (L := fun w : World G => { w with tape := t }) (ζ := id)
            (f' := fun r => update r fun i => { i with gen := gen }) (f := fun r => update r fun i => { i with gen := gen }) is
            fun r _ => Sim.modify fun _ => rfl
          rwa [List.map_id] at this)
    rwa [List.map_id] at this
  unfold mainLoop
  rw [bind_run, bind_run]
  show ((updateGen gen >>= _) _) = ((updateGen gen >>= _) { s with genNum := gen }) ∨ ∃ e s₁, ((updateGen gen >>= _) { s with genNum := gen }) = _ ∧ ((updateGen gen >>= _) _) = _
  rw [bind_run, bind_run]
  have h := hsim { s with genNum := gen }
  dsimp only at h ⊢
  rw [h]
  rcases updateGen gen { s with genNum := gen } with ⟨r, s₁⟩
  cases r with
  | error e => exact .inr ⟨e, s₁, rfl, rfl⟩
  | ok _ => exact .inl rfl

/-! ## Instances -/

/-- A loop over one generation uses the generators of its seed only. -/
example (s : Run Nat Nat) (c : Cfg Nat Nat) (hs : s.genSeed = 7) :
    mainLoop { c with stream := fun n => if n = 8 then c.stream n else fun _ => 0 } 1 1 s = mainLoop c 1 1 s := by
  refine C38_loop_streams 1 1 fun j h1 h2 => ?_
  obtain rfl : j = 1 := by omega
  rw [hs]
  exact if_pos (by decide)

theorem exCfg_uniform : exCfg.Uniform fun _ _ => id where
  creators := by
    intro sub hs create h
    simp only [exCfg, List.mem_singleton] at hs
    subst hs
    simp only [exSubCfg, List.mem_singleton] at h
    subst h
    exact createIndividuals_uniform _ _ _ fun _ => rfl
  ops := by
    intro sub hs o ho
    simp only [exCfg, List.mem_singleton] at hs
    subst hs
    simp only [exSubCfg, exSub, List.mem_singleton] at ho
    subst ho
    exact inPlace_uniform _ _ _ _
  sels := by
    intro sub hs sel h
    simp only [exCfg, List.mem_singleton] at hs
    subst hs
    simp only [exSubCfg, exSub, List.mem_singleton] at h
    subst h
    exact tournament_uniform _ _
  checkers := by
    intro t ht
    simp only [List.mem_cons, List.not_mem_nil, or_false] at ht
    rcases ht with rfl | rfl <;> exact fun _ _ _ _ _ _ _ => rfl

/-- The example run in a world in which three individuals exist already. -/
example : (evolve exCfg { exRun with w := exWorld }).2.looks = (evolve exCfg exRun).2.looks :=
  (C38_fresh exCfg_uniform ⟨by simp [exRun], rfl, rfl, rfl, rfl⟩ (fun _ _ _ _ => rfl) exWorld).2

/-- The seeds of the example run, which begins with seed 42 and has two generations. -/
example : (evolve exCfg exRun).2.log.map (fun e => (e.snap.genNum, e.snap.genSeed)) =
    List.replicate 3 (0, 42) ++ List.replicate 5 (1, 43) ++ List.replicate 6 (2, 44) := by decide +kernel

example := C38_generation_seeds (c := exCfg) (s := exRun) rfl rfl (ran exRun_ends.1)

end Verif.Evo
