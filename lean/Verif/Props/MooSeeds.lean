import Verif.Props.Reproducible
import Verif.Props.MooReproducible
import Verif.Props.MooTotal

/-! # C83: where the random numbers of a multi-objective run come from

The initial population draws from the generators seeded with `random_seed`, generation `g` from those seeded with
`(generation_seed + g) mod 2^32`. -/

namespace Verif.Moo
open PyM
open Verif.Evo (Stays bind_congr nextSeed)
variable {G : Type} {c : MCfg G}

/-- The seed is what it was. -/
def SeedIs (x : Nat) (s : MRun G) : Prop := s.genSeed = x

theorem seedIs_publish (x : Nat) (p n : String) : Stays (SeedIs x) (mpublish p n : MRM G Unit) := fun _ h => h

theorem seedIs_individuals (x : Nat) : Stays (SeedIs x) (individuals : MRM G (List Nat)) := by
  intro s h
  unfold individuals
  rw [bind_of_ok (show PyM.get s = (.ok s, s) from rfl)]
  cases s.inds <;> exact h

theorem seedIs_world (x : Nat) {α : Type} (m : MM G α) : Stays (SeedIs x) (mworld m) := by
  intro s h
  exact h

theorem seedIs_act (x : Nat) {α : Type} {m : MRM G α} (p : String) (h : Stays (SeedIs x) m) : Stays (SeedIs x) (mact p m) :=
  Stays.bind (seedIs_publish x _ _) fun _ => Stays.bind h fun _ => Stays.bind (seedIs_publish x _ _) fun _ => Stays.pure _

theorem seedIs_evaluate (x : Nat) : Stays (SeedIs x) (mevaluate c) :=
  seedIs_act x _ (Stays.bind (seedIs_individuals x) fun _ => Stays.bind Stays.get fun _ => seedIs_world x _)

theorem seedIs_generation (x : Nat) : Stays (SeedIs x) (mgeneration c) := by
  refine Stays.bind (seedIs_act x _ (Stays.bind (seedIs_individuals x) fun _ => Stays.bind (seedIs_world x _) fun _ => fun _ h => h)) fun _ => ?_
  refine Stays.bind (seedIs_evaluate x) fun _ => ?_
  refine Stays.bind (Stays.bind (seedIs_individuals x) fun _ => Stays.bind Stays.get fun _ => Stays.bind (seedIs_world x _) fun _ => fun _ h => h) fun _ => ?_
  exact Stays.bind (seedIs_individuals x) fun _ => fun _ h => h

theorem seedIs_init (x : Nat) : Stays (SeedIs x) (minit c) := by
  refine Stays.bind Stays.get fun s => Stays.bind (fun _ h => h) fun _ => ?_
  refine Stays.bind (Stays.bind Stays.get fun s => ?_) fun _ => ?_
  · cases s.inds with
    | some _ => exact Stays.pure _
    | none => exact Stays.bind (seedIs_world x _) fun _ => fun _ h => h
  · exact Stays.bind (seedIs_evaluate x) fun _ => Stays.bind (fun _ h => h) fun _ => seedIs_publish x _ _

theorem seedIs_stop (x gen : Nat) : Stays (SeedIs x) (mstop c gen) := by
  refine Stays.bind Stays.get fun s => ?_
  unfold PyM.ofExcept
  cases c.checker s.w.fits (s.inds.getD []) s.bestOfRun gen <;> exact fun _ h => h

/-- **C83**: generation by generation, the main loop draws its random numbers from the generators seeded with the seed of the state it
finds plus one, two, and so on. -/
theorem C83_loop_streams_partial {st : Nat → Tape} (n gen : Nat) {s : MRun G}
    (h : ∀ j, 1 ≤ j → j ≤ n → st ((s.genSeed + j) % 2 ^ 32) = c.stream ((s.genSeed + j) % 2 ^ 32)) :
    mloop { c with stream := st } n gen s = mloop c n gen s := by
  induction n generalizing gen s with
  | zero => rfl
  | succ n ih =>
    unfold mloop
    refine bind_congr fun _ s₁ h1 => bind_congr fun _ s₂ h2 => bind_congr fun x s₃ h3 => ?_
    have g1 : s₁.genSeed = s.genSeed := by
      simp only [PyM.modify, Prod.mk.injEq] at h1
      rw [← h1.2]
    have g2 : s₂.genSeed = s.genSeed := Stays.of_ok (seedIs_individuals s.genSeed) g1 h2
    simp only [PyM.get, Prod.mk.injEq, Except.ok.injEq] at h3
    obtain ⟨rfl, rfl⟩ := h3
    have e : msetSeed { c with stream := st } (nextSeed s₂.genSeed) = (msetSeed c (nextSeed s₂.genSeed) : MRM G Unit) := by
      unfold msetSeed
      have : st (nextSeed s₂.genSeed) = c.stream (nextSeed s₂.genSeed) := by
        rw [g2]
        exact h 1 (le_refl 1) (by omega)
      simp only [this]
    rw [e]
    refine bind_congr fun _ s₄ h4 => bind_congr fun _ s₅ h5 => ?_
    have g5 : s₅.genSeed = (s.genSeed + 1) % 2 ^ 32 := by
      simp only [msetSeed, PyM.modify, Prod.mk.injEq] at h4 h5
      rw [← h5.2, ← h4.2]
      show nextSeed s₂.genSeed = _
      rw [g2]
      rfl
    have e2 : mgeneration { c with stream := st } = mgeneration c := rfl
    have e3 : mstop { c with stream := st } gen = mstop c gen := rfl
    rw [e2, e3]
    refine bind_congr fun _ s₆ h6 => bind_congr fun stop s₇ h7 => ?_
    have g6 := Stays.of_ok (seedIs_generation (c := c) _) g5 h6
    have g7 := Stays.of_ok (seedIs_stop (c := c) _ gen) g6 h7
    split
    · rfl
    · refine bind_congr fun _ s₈ h8 => ih _ ?_
      intro j hj hjn
      have g8 : s₈.genSeed = (s.genSeed + 1) % 2 ^ 32 := Stays.of_ok (seedIs_publish _ _ _) g7 h8
      rw [g8]
      have : ((s.genSeed + 1) % 2 ^ 32 + j) % 2 ^ 32 = (s.genSeed + (j + 1)) % 2 ^ 32 := by omega
      rw [this]
      exact h (j + 1) (by omega) (by omega)

/-- **C83**: the initial population is drawn from the generators seeded with `random_seed`, generation `g` from those seeded with
`(generation_seed + g) mod 2^32`; no other random numbers are used in a run. -/
theorem C83_streams_partial {st : Nat → Tape} {s : MRun G} (h0 : st s.randomSeed = c.stream s.randomSeed)
    (h : ∀ g, 1 ≤ g → g ≤ c.maxGen → st ((s.genSeed + g) % 2 ^ 32) = c.stream ((s.genSeed + g) % 2 ^ 32)) :
    mevolve { c with stream := st } s = mevolve c s := by
  have hi : minit { c with stream := st } s = minit c s := by
    unfold minit
    refine bind_congr fun x s₁ h1 => ?_
    simp only [PyM.get, Prod.mk.injEq, Except.ok.injEq] at h1
    obtain ⟨rfl, rfl⟩ := h1
    have e : msetSeed { c with stream := st } s.randomSeed = (msetSeed c s.randomSeed : MRM G Unit) := by
      unfold msetSeed
      simp only [h0]
    rw [e]
    rfl
  unfold mevolve
  rw [bind_run, bind_run, hi]
  rcases hr : minit c s with ⟨r, s₁⟩
  cases r with
  | error e => rfl
  | ok _ =>
    have g1 : s₁.genSeed = s.genSeed := Stays.of_ok (seedIs_init _) rfl hr
    have : mafterInit { c with stream := st } s₁ = mafterInit c s₁ := by
      unfold mafterInit
      refine bind_congr fun x s₂ h2 => ?_
      simp only [PyM.get, Prod.mk.injEq, Except.ok.injEq] at h2
      obtain ⟨rfl, rfl⟩ := h2
      refine bind_congr fun stop s₂ h2 => ?_
      have g2 : s₂.genSeed = s.genSeed := Stays.of_ok (seedIs_stop (c := { c with stream := st }) _ s₁.genNum) g1 h2
      split
      · rfl
      · exact C83_loop_streams_partial _ _ fun j h1 h2 => by rw [g2]; exact h j h1 h2
    show (mafterInit { c with stream := st } >>= _) s₁ = (mafterInit c >>= _) s₁
    rw [bind_run, bind_run, this]

/-- **C83**: what follows after a generation does not depend on the state of the random generators: only on the population, the seed
and the other attributes at that point. -/
theorem C83_resume_partial (n gen : Nat) (s : MRun G) (t : Tape) (hi : s.inds ≠ none) :
    mloop c (n + 1) gen { s with w := { s.w with tape := t } } = mloop c (n + 1) gen s := by
  obtain ⟨is, hs⟩ := Option.ne_none_iff_exists'.1 hi
  unfold mloop
  have e : ∀ s : MRun G, s.inds = some is → individuals { s with genNum := gen } = (.ok is, { s with genNum := gen }) := by
    intro s hs
    obtain ⟨w, inds, a, b, d, e, f, g, l⟩ := s
    simp only at hs
    subst hs
    rfl
  rw [bind_run, bind_run]
  show (individuals >>= _) { { s with w := { s.w with tape := t } } with genNum := gen } = (individuals >>= _) { s with genNum := gen }
  rw [bind_run, bind_run, e { s with w := { s.w with tape := t } } hs, e s hs]
  rfl

/-! ## Non-vacuity -/

/-- Other generators that agree for the seeds the sample run uses: 7 for the initial population, 8 and 9 for the generations. -/
example : mevolve { exVector with stream := fun n => if 7 ≤ n ∧ n ≤ 9 then exVector.stream n else fun _ => 0 } exVectorRun =
    mevolve exVector exVectorRun := by
  refine C83_streams_partial (if_pos (by decide)) fun g h1 h2 => ?_
  have h2 : g ≤ 2 := h2
  obtain rfl | rfl : g = 1 ∨ g = 2 := by omega
  · exact if_pos (by decide)
  · exact if_pos (by decide)

/-- A loop over one generation uses the generators of its seed only. -/
example (s : MRun GA.Vec) (hs : s.genSeed = 7) :
    mloop { exVector with stream := fun n => if n = 8 then exVector.stream n else fun _ => 0 } 1 1 s = mloop exVector 1 1 s := by
  refine C83_loop_streams_partial 1 1 fun j h1 h2 => ?_
  obtain rfl : j = 1 := by omega
  rw [hs]
  exact if_pos (by decide)

example := C83_resume_partial (c := exVector) 1 1 { exVectorRun with inds := some [0] } (fun n => n) (by simp)

end Verif.Moo
