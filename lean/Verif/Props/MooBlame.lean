import Verif.Lemmas.Tamed
import Verif.Props.MooShorter

/-! # C128: the only exceptions of a multi-objective run put together correctly are those of the user's code

C82 assumes that the evaluator and the termination checker raise nothing.  Here they may: whatever the run raises has then
been raised by one of them. -/

namespace Verif.Moo
open PyM Evo
variable {G : Type} {P : G → Prop} {n m : Nat} {ds : List Bool} {c : MCfg G} {B : Err → Prop}

/-- `MCfg.Assembled` without the demands that the evaluator and the termination checker raise nothing. -/
structure MCfg.Composed (Creator : MM G (List Nat) → Prop) (Ops : MOp G → Prop) (c : MCfg G)
    (n m : Nat) (ds : List Bool) : Prop where
  breeder : c.nsga2Breeder = true
  size : 0 < n
  directions : ds.length = m
  creator : Creator c.sub.create
  ops : ∀ o ∈ c.sub.ops, Ops o
  arities : ∀ o ∈ c.sub.ops, o.arity ≠ 0 ∧ o.arity ∣ n
  sels : ∃ arity k replace, c.sub.sels = [⟨arity, tournamentM k replace⟩] ∧ (replace = true ∨ k ≤ n)
  evaluates : c.sub.Evaluates m
  order : ∀ g k l, (c.setOrder g k l).Perm l
  sched : ∀ g k, (c.sched g k).Perm (List.range k)

/-- The exceptions of the evaluator on genomes satisfying `P`. -/
def MCfg.EvaluatorRaises (P : G → Prop) (c : MCfg G) (e : Err) : Prop := ∃ g t t', P g ∧ c.sub.evaluate g t = (.error e, t')

/-- The exceptions of the termination checker, given a population of `n` individuals with `m` objectives each and a best of
the run. -/
def MCfg.CheckerRaises (c : MCfg G) (n m : Nat) (e : Err) : Prop :=
  ∃ fits inds best gen, MConsulted n m fits inds best ∧ c.checker fits inds best gen = .error e

/-- `evolve` completes, or raises an exception the evaluator raises on a genome satisfying `P` or the termination checker
raises. -/
def MCompletesOrBlames (P : G → Prop) (c : MCfg G) (n m : Nat) (s : MRun G) : Prop :=
  (∃ s', mevolve c s = (.ok (), s') ∧ MCompleted P n m s') ∨
    ∃ e s', mevolve c s = (.error e, s') ∧ (c.EvaluatorRaises P e ∨ c.CheckerRaises n m e)

/-! ## The tame configuration -/

open Classical in
/-- Answer zeros instead of raising an exception, on genomes satisfying `P`. -/
noncomputable def tameMEval (P : G → Prop) (m : Nat) (evaluate : G → Rand (List ℚ)) (g : G) : Rand (List ℚ) := fun t =>
  if P g then
    match evaluate g t with
    | (.ok x, t') => (.ok x, t')
    | (.error _, t') => (.ok (List.replicate m 0), t')
  else evaluate g t

open Classical in
/-- The configuration whose evaluator and checker answer instead of raising exceptions. -/
noncomputable def MCfg.tame (P : G → Prop) (n m : Nat) (c : MCfg G) : MCfg G :=
  { c with
    sub := { c.sub with evaluate := tameMEval P m c.sub.evaluate }
    checker := fun fits inds best gen =>
      if MConsulted n m fits inds best then .ok (match c.checker fits inds best gen with | .ok b => b | .error _ => false)
      else c.checker fits inds best gen }

theorem tameMEval_until (hB : ∀ e, c.EvaluatorRaises P e → B e) (g : G) :
    Until B (c.sub.evaluate g) (tameMEval P m c.sub.evaluate g) := by
  intro t
  unfold tameMEval
  by_cases hP : P g
  · rw [if_pos hP]
    cases hr : c.sub.evaluate g t with
    | mk r t' =>
      cases r with
      | ok x => exact .inl rfl
      | error e => exact .inr ⟨e, t', hB e ⟨g, t, t', hP, hr⟩, rfl⟩
  · rw [if_neg hP]
    exact .inl rfl

theorem mevaluate_until (hB : ∀ e, c.EvaluatorRaises P e → B e) : Until B (mevaluate c) (mevaluate (c.tame P n m)) := by
  unfold mevaluate mact mevaluateBody
  refine (Until.refl _).bind fun _ => Until.bind ?_ fun _ => Until.refl _
  refine (Until.refl _).bind fun is => Until.get fun s => Until.zoom ?_
  unfold evaluateM
  refine (executorMap_until (fun r => ?_) is).bind fun _ => Until.refl _
  unfold runEvalM
  exact (Until.refl _).bind fun w => (tameMEval_until hB _).zoom

theorem mbreed_tame : mbreed (c.tame P n m) = mbreed c := rfl

theorem msetSeed_tame (k : Nat) : msetSeed (c.tame P n m) k = msetSeed c k := rfl

theorem msort_tame : msort (c.tame P n m) = msort c := rfl

theorem mcreate_tame : mcreate (c.tame P n m) = mcreate c := rfl

theorem mgeneration_until (hB : ∀ e, c.EvaluatorRaises P e → B e) : Until B (mgeneration c) (mgeneration (c.tame P n m)) := by
  unfold mgeneration
  rw [mbreed_tame, msort_tame]
  exact (Until.refl _).bind fun _ => (mevaluate_until hB).bind fun _ => Until.refl _

theorem mstop_until (hB : ∀ e, c.CheckerRaises n m e → B e) (gen : Nat) : Until B (mstop c gen) (mstop (c.tame P n m) gen) := by
  unfold mstop
  refine Until.get fun s => fun s' => ?_
  by_cases hcon : MConsulted n m s.w.fits (s.inds.getD []) s.bestOfRun
  swap
  · refine .inl ?_
    simp only [MCfg.tame, if_neg hcon]
  simp only [MCfg.tame, if_pos hcon]
  cases hr : c.checker s.w.fits (s.inds.getD []) s.bestOfRun gen with
  | ok b => exact .inl rfl
  | error e => exact .inr ⟨e, s', hB e ⟨_, _, _, _, hcon, hr⟩, rfl⟩

theorem mloop_until (hB : ∀ e, c.EvaluatorRaises P e → B e) (hC : ∀ e, c.CheckerRaises n m e → B e) (k gen : Nat) :
    Until B (mloop c k gen) (mloop (c.tame P n m) k gen) := by
  induction k generalizing gen with
  | zero => exact Until.refl _
  | succ k ih =>
    unfold mloop
    simp only [msetSeed_tame]
    refine (Until.refl _).bind fun _ => (Until.refl _).bind fun _ => Until.get fun s => ?_
    refine (Until.refl _).bind fun _ => (Until.refl _).bind fun _ => (mgeneration_until hB).bind fun _ =>
      (mstop_until hC gen).bind fun stop => ?_
    cases stop with
    | true => rw [if_pos rfl, if_pos rfl]; exact Until.refl _
    | false => rw [if_neg (by simp), if_neg (by simp)]; exact (Until.refl _).bind fun _ => ih _

theorem mevolve_until (hB : ∀ e, c.EvaluatorRaises P e → B e) (hC : ∀ e, c.CheckerRaises n m e → B e) :
    Until B (mevolve c) (mevolve (c.tame P n m)) := by
  unfold mevolve minit mafterInit
  rw [mcreate_tame]
  simp only [msetSeed_tame]
  refine Until.bind ?_ fun _ => Until.bind ?_ fun _ => Until.refl _
  · exact Until.get fun s => (Until.refl _).bind fun _ => (Until.refl _).bind fun _ => (mevaluate_until hB).bind fun _ => Until.refl _
  · refine Until.get fun s => (mstop_until hC _).bind fun stop => ?_
    cases stop with
    | true => rw [if_pos rfl, if_pos rfl]; exact Until.refl _
    | false => rw [if_neg (by simp), if_neg (by simp)]; exact mloop_until hB hC _ _

theorem MCfg.Composed.tame {Creator : MM G (List Nat) → Prop} {Ops : MOp G → Prop} (h : c.Composed Creator Ops n m ds)
    {Q : G → Prop} (hQ : ∀ g, Q g → P g) : (c.tame P n m).Assembled Q Creator Ops n m ds where
  breeder := h.breeder
  size := h.size
  directions := h.directions
  creator := h.creator
  ops := h.ops
  arities := h.arities
  sels := h.sels
  evaluates := by
    intro g t
    have h0 := h.evaluates g t
    intro v t' hr
    change tameMEval P m c.sub.evaluate g t = _ at hr
    unfold tameMEval at hr
    split at hr
    · cases hr' : c.sub.evaluate g t with
      | mk r t'' =>
        rw [hr'] at hr
        cases r with
        | ok x => exact h0 v t' (hr'.trans hr)
        | error e =>
          have := congrArg Prod.fst hr
          cases this
          simp
    · exact h0 v t' hr
  evaluate := by
    intro g hg t
    show ∃ a s', tameMEval P m c.sub.evaluate g t = (.ok a, s')
    unfold tameMEval
    rw [if_pos (hQ g hg)]
    cases hr : c.sub.evaluate g t with
    | mk r t' => cases r <;> exact ⟨_, _, rfl⟩
  order := h.order
  sched := h.sched
  calm := fun _ _ _ _ h => ⟨_, if_pos h⟩

theorem mblames_of_tame {s s' : MRun G} (hrun : mevolve (c.tame P n m) s = (.ok (), s')) (hc : MCompleted P n m s') :
    MCompletesOrBlames P c n m s := by
  rcases mevolve_until (P := P) (n := n) (m := m) (B := fun e => c.EvaluatorRaises P e ∨ c.CheckerRaises n m e) (fun _ => .inl) (fun _ => .inr) s with
    h | ⟨e, s'', hB, h⟩
  · exact .inl ⟨s', h.trans hrun, hc⟩
  · exact .inr ⟨e, s'', h, hB⟩

/-- **C128**, vectors: a run of `NSGA2Evolution` with `NSGA2Breeder` put together from vector creators, crossover and mutations
completes, or raises an exception of its evaluator or of its termination checker. -/
theorem C128_vectors {kind : GA.Kind} {bounds : GA.Bounds} {length : Nat} (hb : bounds.Proper kind length) {c : MCfg GA.Vec}
    (h : c.Composed (VecCreator kind bounds length n m ds) (VecOp kind length) n m ds)
    {s : MRun GA.Vec} (hf : s.Fresh m ds) (hp : AllHave (GA.Legal kind bounds length) s.w) :
    MCompletesOrBlames (GA.Legal kind bounds length) c n m s := by
  obtain ⟨s', h1, h2⟩ := C82_vectors hb (h.tame (P := GA.Legal kind bounds length) fun _ h => h) hf hp
  exact mblames_of_tame h1 h2

/-- **C128**, programs. -/
theorem C128_programs {cfg : GP.Cfg} (hp : cfg.Plain) {c : MCfg GP.Ind}
    (h : c.Composed (TreeCreator cfg n m ds) TreeOp n m ds)
    {s : MRun GP.Ind} (hf : s.Fresh m ds) (hs : AllHave (GP.PlainLegal cfg) s.w) :
    MCompletesOrBlames (GP.Legal cfg) c n m s := by
  obtain ⟨s', h1, h2⟩ := C82_programs hp (h.tame (P := GP.Legal cfg) fun _ h => h.1) hf hs
  exact mblames_of_tame h1 h2

/-! A run whose evaluator raises on some vectors and whose checker is the default one, which raises always. -/

def exMBlame : MCfg GA.Vec :=
  { exVector with
    sub := { exVector.sub with evaluate := fun v =>
      if 9 / 10 < v.vector.headD 0 then raise (.user 7) else PyM.pure [v.vector.headD 0, v.vector.tail.headD 0] } }

theorem exMBlame_composed : exMBlame.Composed (VecCreator .float (.tup [0, 1]) 3 4 2 [false, true]) (VecOp .float 3) 4 2 [false, true] where
  breeder := rfl
  size := by decide
  directions := rfl
  creator := exVector_assembled.creator
  ops := exVector_assembled.ops
  arities := exVector_assembled.arities
  sels := exVector_assembled.sels
  evaluates := by
    intro g t
    change wlp (if 9 / 10 < g.vector.headD 0 then raise (.user 7) else PyM.pure [g.vector.headD 0, g.vector.tail.headD 0]) _ t
    split
    · exact wlp_raise.2 trivial
    · exact wlp_pure.2 rfl
  order := exVector_assembled.order
  sched := exVector_assembled.sched

example : MCompletesOrBlames (GA.Legal .float (.tup [0, 1]) 3) exMBlame 4 2 exVectorRun :=
  C128_vectors GA.exLib_proper exMBlame_composed (s := exVectorRun) ⟨rfl, fun r hr => absurd hr (Nat.not_lt_zero r), rfl, rfl⟩
    (fun r hr => absurd hr (Nat.not_lt_zero r))

example : (mevolve exMBlame exVectorRun).1 = .error (.user 7) ∨ (mevolve exMBlame exVectorRun).1 = .ok () := by
  decide +kernel

/-- With the default checker a run raises `TypeError`, unless the evaluator raises something before. -/
example : (mevolve { exVector with checker := defaultChecker } exVectorRun).1 = .error .typeError := exDefault_raises

def exMProgBlame : MCfg GP.Ind :=
  { exProg with
    sub := { exProg.sub with evaluate := fun i =>
      if i.tree.length = 3 then raise .zeroDivisionError else PyM.pure [i.tree.length, - i.tree.length] } }

theorem exMProgBlame_composed : exMProgBlame.Composed (TreeCreator GP.Sample.cfg 4 2 [false, false]) TreeOp 4 2 [false, false] where
  breeder := rfl
  size := by decide
  directions := rfl
  creator := exProg_assembled.creator
  ops := exProg_assembled.ops
  arities := exProg_assembled.arities
  sels := exProg_assembled.sels
  evaluates := by
    intro g t
    change wlp (if g.tree.length = 3 then raise .zeroDivisionError else PyM.pure [(g.tree.length : ℚ), - (g.tree.length : ℚ)]) _ t
    split
    · exact wlp_raise.2 trivial
    · exact wlp_pure.2 rfl
  order := exProg_assembled.order
  sched := exProg_assembled.sched

example : MCompletesOrBlames (GP.Legal GP.Sample.cfg) exMProgBlame 4 2 exProgRun :=
  C128_programs GP.exPlain exMProgBlame_composed (s := exProgRun) ⟨rfl, fun r hr => absurd hr (Nat.not_lt_zero r), rfl, rfl⟩
    (fun r hr => absurd hr (Nat.not_lt_zero r))

/-- This run raises the exception of its evaluator. -/
example : (mevolve exMProgBlame exProgRun).1 = .error .zeroDivisionError := by decide +kernel

end Verif.Moo
