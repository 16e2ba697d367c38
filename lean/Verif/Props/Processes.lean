import Verif.Model.Processes
import Verif.Props.MooTotal
import Verif.Props.Run

/-! # C150 — threads and processes -/

namespace Verif.Evo
open PyM
variable {G κ : Type}

/-- The evaluator draws no random numbers: neither does it use the generator, nor does its result depend on it.  (It may raise.) -/
def Quiet {α : Type} (evaluate : G → Rand α) : Prop :=
  ∀ g t t', (evaluate g t).1 = (evaluate g t').1 ∧ (evaluate g t).2 = t

theorem loopBy_same (c : Cfg G κ) : ∀ n gen, loopBy (evaluateBody c) c n gen = mainLoop c n gen
  | 0, _ => rfl
  | n + 1, gen => by
    unfold loopBy mainLoop
    simp only [loopBy_same c n (gen + 1)]
    rfl

/-- With the evaluator of the thread executor the run is the run of `Model/Evolution`. -/
theorem evolveBy_same (c : Cfg G κ) : evolveBy (evaluateBody c) c = evolve c := by
  unfold evolveBy evolve afterInitBy afterInit
  simp only [loopBy_same]
  rfl

theorem procEval_eq {c : SubCfg G} (hq : Quiet c.evaluate) (own : Nat → Tape) : procEval c own = runEval c := by
  funext r s
  unfold procEval runEval
  rw [bind_run, bind_run]
  rcases deref r s with ⟨_ | i, s'⟩
  · rfl
  · dsimp only
    unfold rand zoom PyM.ofExcept
    dsimp only
    rw [(hq i.genome s'.tape (own r)).1, (hq i.genome s'.tape (own r)).2]

theorem procBody_eq {c : Cfg G κ} (hq : ∀ sub ∈ c.subs, Quiet sub.evaluate) (hm : c.submit = false) (own : Nat → Nat → Tape) :
    procBody c own = evaluateBody c := by
  have h : ∀ sub ∈ c.subs, ∀ own order is, procMap c.size sub own order is = evaluateMap c.size sub order is := by
    intro sub hs own order is
    unfold procMap evaluateMap
    rw [procEval_eq (hq sub hs)]
    rfl
  funext s
  unfold procBody evaluateBody
  rw [bind_run, bind_run]
  show (match c.subs, s.inds with | _, _ => _ : RM G κ Nat) s = (match c.subs, s.inds with | _, _ => _ : RM G κ Nat) s
  rw [hm]
  rcases hsubs : c.subs with _ | ⟨sub, _ | ⟨_, _⟩⟩
  · rfl
  · rcases s.inds with _ | ⟨_ | is, _ | ⟨_, _⟩⟩
    · rfl
    · rfl
    · rfl
    · dsimp only
      rw [h sub (by rw [hsubs]; simp)]
      rfl
    · rfl
  · rfl

/-- C150 as stated: a run with processes is the same run as with threads. -/
def C150_statement : Prop :=
  ∀ (G κ : Type) (c : Cfg G κ) (own : Nat → Nat → Tape), c.submit = false → procEvolve c own = evolve c

/-- **C150**, for evaluators that draw no random numbers: a run with processes is the same run as with threads, whatever the state
of the workers' random generators; this includes the exceptions. -/
theorem C150_partial {c : Cfg G κ} (hq : ∀ sub ∈ c.subs, Quiet sub.evaluate) (hm : c.submit = false) (own : Nat → Nat → Tape) :
    procEvolve c own = evolve c := by
  unfold procEvolve
  rw [procBody_eq hq hm, evolveBy_same]

/-- The run of `exCfg` is one of those. -/
example (own : Nat → Nat → Tape) : procEvolve exCfg own = evolve exCfg :=
  C150_partial (fun sub hs => by
    simp only [exCfg, List.mem_singleton] at hs
    subst hs
    exact fun _ _ _ => ⟨rfl, rfl⟩) rfl own

/-- The configuration `exCfg` with a noisy evaluator. -/
def exDrawing : Cfg Nat Nat :=
  { exCfg with subs := [{ exSubCfg with evaluate := fun g => do
    let k ← Rand.below 10
    pure ((g : ℚ) + k) }] }

/-- The genome of the best individual of a run. -/
def exBestGenome (s : Run Nat Nat) : Option Nat :=
  s.bestOfRun.bind fun r => (s.w.heap[r]?).map (·.genome)

/-- C150 is false of evaluators that draw random numbers: with the same seed the best of the run depends on the state of the
random generators of the workers, and may differ from that of a run with threads.  (So such runs are not reproducible from
their seed, either.) -/
theorem C150_refuted : (procEvolve exDrawing (fun _ _ _ => 0) exRun).1 = .ok () ∧
    (procEvolve exDrawing (fun g r _ => 7 * g + 3 * r) exRun).1 = .ok () ∧ (evolve exDrawing exRun).1 = .ok () ∧
    exBestGenome (procEvolve exDrawing (fun _ _ _ => 0) exRun).2 = some 4 ∧
    exBestGenome (procEvolve exDrawing (fun g r _ => 7 * g + 3 * r) exRun).2 = some 2 ∧
    exBestGenome (evolve exDrawing exRun).2 = some 2 := by
  decide +kernel

theorem C150_statement_refuted : ¬ C150_statement := by
  intro h
  have h1 := h Nat Nat exDrawing (fun _ _ _ => 0) rfl
  obtain ⟨-, -, -, h2, -, h3⟩ := C150_refuted
  rw [h1, h3] at h2
  cases h2

end Verif.Evo

namespace Verif.Moo
open PyM Evo
variable {G : Type}

theorem mloopBy_same (c : MCfg G) : ∀ n gen, mloopBy (mevaluateBody c) c n gen = mloop c n gen
  | 0, _ => rfl
  | n + 1, gen => by
    unfold mloopBy mloop
    simp only [mloopBy_same c n (gen + 1)]
    rfl

theorem mevolveBy_same (c : MCfg G) : mevolveBy (mevaluateBody c) c = mevolve c := by
  unfold mevolveBy mevolve mafterInitBy mafterInit
  simp only [mloopBy_same]
  rfl

theorem procEvalM_eq {c : MSub G} (hq : Quiet c.evaluate) (own : Nat → Tape) : procEvalM c own = runEvalM c := by
  funext r w
  unfold procEvalM runEvalM
  rw [bind_run, bind_run]
  show PyM.ofExcept (c.evaluate (w.genome r) (own r)).1 w = mrand (c.evaluate (w.genome r)) w
  unfold mrand zoom PyM.ofExcept
  dsimp only
  rw [(hq (w.genome r) w.tape (own r)).1, (hq (w.genome r) w.tape (own r)).2]

/-- **C150** for multi-objective runs. -/
theorem C150_moo_partial {c : MCfg G} (hq : Quiet c.sub.evaluate) (own : Nat → Nat → Tape) : mprocEvolve c own = mevolve c := by
  unfold mprocEvolve
  rw [← mevolveBy_same]
  congr 1
  unfold mprocBody mevaluateBody evaluateM
  simp only [procEvalM_eq hq]
  rfl

example (own : Nat → Nat → Tape) : mprocEvolve (exCfg true 2) own = mevolve (exCfg true 2) :=
  C150_moo_partial (fun _ _ _ => ⟨rfl, rfl⟩) own

end Verif.Moo
