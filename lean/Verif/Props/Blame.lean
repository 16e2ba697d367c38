import Verif.Lemmas.Tamed
import Verif.Props.Total

/-! # C121: the only exceptions of a run put together correctly are those of the user's code

C80 assumes that the evaluator and the termination checkers raise nothing.  Here they may: whatever the run raises has then
been raised by one of them. -/

namespace Verif.Evo
open PyM
variable {G κ : Type} {P : G → Prop} {K : κ → Prop} {c : Cfg G κ} {sub : SubCfg G} {m : Mode}

/-- What a run needs beside working creators and operators (`Cfg.Smooth`), without anything about the evaluator and the
termination checkers. -/
structure Cfg.Fitting (c : Cfg G κ) (sub : SubCfg G) : Prop where
  popSize : 0 < sub.popSize
  arities : ∀ a ∈ sub.sels.map (·.arity) ++ sub.ops.map (·.arity), a ≠ 0 ∧ a ∣ sub.popSize
  pick : ∀ t, ∃ k t', sub.pick t = (.ok k, t') ∧ k < sub.creators.length
  select : ∀ sel rest, sub.sels = sel :: rest → sel.WorksOn c.size sub.hib sub.popSize

/-- `evolve` completes, or raises an exception the evaluator raises on a genome satisfying `P`, or one a termination checker
raises when it is given an evaluated population and a best individual with a score and is in a state satisfying `K`. -/
def CompletesOrBlames (P : G → Prop) (c : Cfg G κ) (sub : SubCfg G) (m : Mode) (s : Run G κ) (K : κ → Prop := fun _ => True) :
    Prop :=
  (∃ s', evolve c s = (.ok (), s') ∧ Completed P c sub m s') ∨
    ∃ e s', evolve c s = (.error e, s') ∧ (sub.EvaluatorRaises P e ∨ c.CheckerRaises sub.hib K e)

/-- In a run the answers of the checkers keep the property `K` of their states. -/
def Cfg.KeepsStates (c : Cfg G κ) (hib : Bool) (K : κ → Prop) : Prop :=
  ∀ t ∈ c.checker.all, ∀ k heap inds best gen v k', Consulted c.size hib K k heap inds best →
    t k heap inds best gen = (.ok v, k') → K k'

theorem tameEval_total (evaluate : G → Rand ℚ) (g : G) (h : P g) : Total (tameEval P evaluate g) := by
  intro t
  unfold tameEval
  rw [if_pos h]
  cases hr : evaluate g t with
  | mk r t' => cases r <;> simp

theorem tameChecker_calm {size : G → Nat} {hib : Bool} {t : Checker G κ}
    (hK : ∀ k heap inds best gen v k', Consulted size hib K k heap inds best → t k heap inds best gen = (.ok v, k') → K k') :
    Checker.Calm size hib K (tameChecker size hib K t) := by
  intro k heap inds best gen hc
  unfold tameChecker
  rw [if_pos hc]
  cases hr : t k heap inds best gen with
  | mk r k' =>
    cases r with
    | error e => exact ⟨_, _, rfl, hc.1⟩
    | ok v => exact ⟨_, _, rfl, hK _ _ _ _ _ _ _ hc hr⟩

theorem Cfg.tame_calm {hib : Bool} (hK : c.KeepsStates hib K) : (c.tame P hib K).Calm hib K := by
  unfold Cfg.Calm
  show match c.checker.tame c.size hib K with
    | .none => True
    | .one t => Checker.Calm c.size hib K t
    | .many ts => ∀ t ∈ ts, Checker.Calm c.size hib K t
  unfold Cfg.KeepsStates at hK
  cases hch : c.checker with
  | none => trivial
  | one t =>
    rw [hch] at hK
    exact tameChecker_calm (hK t (by simp [Checkers.all]))
  | many ts =>
    rw [hch] at hK
    intro t ht
    obtain ⟨u, hu, rfl⟩ := List.mem_map.1 ht
    exact tameChecker_calm (hK u (by simpa [Checkers.all] using hu))

theorem Cfg.Fitting.smooth (h : c.Fitting sub) (hK : c.KeepsStates sub.hib K) {Q : G → Prop} (hQ : ∀ g, Q g → P g) :
    (c.tame P sub.hib K).Smooth Q (sub.tame P) K where
  popSize := h.popSize
  arities := h.arities
  pick := h.pick
  select := h.select
  evaluate := fun g hg => tameEval_total _ g (hQ g hg)
  calm := Cfg.tame_calm hK

theorem Cfg.BuiltWith.tame {hib : Bool} {CR : (Nat → Bool → WM G (List Nat)) → Prop} {OP : Op G → Prop} (h : c.BuiltWith sub m CR OP) :
    (c.tame P hib K).BuiltWith (sub.tame P) m CR OP where
  subs := by simp [Cfg.tame, h.subs]
  dir := h.dir
  creators := h.creators
  sels := h.sels
  ops := h.ops
  sched := h.sched
  map := h.map

theorem Run.Open.tame {hib : Bool} {Q : G → Prop} {s : Run G κ} (h : s.Open Q c sub m K) :
    s.Open Q (c.tame P hib K) (sub.tame P) m K where
  states := h.states
  ready := h.ready
  given := h.given
  fits := by
    have := h.fits
    unfold Cfg.Fits at this ⊢
    show match c.checker.tame c.size hib K with | .none => _ | .one _ => _ | .many ts => _
    cases hc : c.checker with
    | none => trivial
    | one t => simpa [hc, Checkers.tame] using this
    | many ts => simpa [hc, Checkers.tame] using this
  executor := h.executor

/-- From a run of the tame configuration to one of the configuration itself. -/
theorem blames_of_tame (hsub : c.subs = [sub]) {s s' : Run G κ} (hrun : evolve (c.tame P sub.hib K) s = (.ok (), s'))
    (hc : Completed P (c.tame P sub.hib K) (sub.tame P) m s') : CompletesOrBlames P c sub m s K := by
  rcases evolve_until (P := P) (hib := sub.hib) (K := K) (B := fun e => sub.EvaluatorRaises P e ∨ c.CheckerRaises sub.hib K e) hsub (fun _ => .inl) (fun _ => .inr) s with
    h | ⟨e, s'', hB, h⟩
  · exact .inl ⟨s', h.trans hrun, hc⟩
  · exact .inr ⟨e, s'', h, hB⟩

/-- **C121** for any representation: a run whose creators, operators and selection method work completes, or raises an
exception of the evaluator or of a termination checker. -/
theorem C121_blames {CR : (Nat → Bool → WM G (List Nat)) → Prop} {OP : Op G → Prop} (h : c.BuiltWith sub m CR OP)
    (hf : c.Fitting sub) (hcg : ∀ create, CR create → CreatorGood m create)
    (hcw : ∀ create, CR create → CreatorWorks P sub.popSize sub.hib create)
    (hog : ∀ o, OP o → o.Good) (hop : ∀ o, OP o → o.Preserves P) (how : ∀ o, OP o → o.WorksOn P) {s : Run G κ}
    (hK : c.KeepsStates sub.hib K) (ho : s.Open P c sub m K) : CompletesOrBlames P c sub m s K := by
  obtain ⟨s', h1, h2⟩ := C80_completes (h.tame.sound (hf.smooth (P := P) hK fun _ h => h) hcg hcw hog hop how) ho.tame
  exact blames_of_tame h.subs h1 h2

end Verif.Evo

namespace Verif.GA
open PyM Verif.Evo
variable {κ : Type} {K : κ → Prop} {kind : Kind} {bounds : Bounds} {length : Nat} {m : Mode}

/-- **C121** for vectors. -/
theorem C121_vectors (hb : bounds.Proper kind length) {c : Evo.Cfg Vec κ} {sub : SubCfg Vec}
    (h : c.BuiltWith sub m (LibCreator kind bounds length m) (PairedOp kind length)) (hf : c.Fitting sub) {s : Run Vec κ}
    (hK : c.KeepsStates sub.hib K) (ho : s.Open (Legal kind bounds length) c sub m K) :
    CompletesOrBlames (Legal kind bounds length) c sub m s K := by
  obtain ⟨s', h1, h2⟩ := C80_vectors hb h.tame (hf.smooth (P := Legal kind bounds length) hK fun _ h => h) ho.tame
  exact blames_of_tame h.subs h1 h2

/-! A run with an evaluator that raises on vectors starting with a number over 1/2 and a checker that raises in generation 1. -/

def exBlameSub : SubCfg Vec :=
  { exLibSub with evaluate := fun v => if 1 / 2 < v.vector.headD 0 then raise (.user 7) else pure (v.vector.headD 0) }

def exBlameCfg : Evo.Cfg Vec Unit :=
  { exLibCfg with subs := [exBlameSub], checker := .one fun k _ _ _ gen => if gen = 1 then (.error (.user 8), k) else (.ok false, k) }

def exBlameRun : Run Vec Unit := { exLibRun with checkers := [()] }

theorem exBlame_built : exBlameCfg.BuiltWith exBlameSub ⟨true, none⟩ (LibCreator .float (.tup [0, 1]) 3 ⟨true, none⟩)
    (PairedOp .float 3) where
  subs := rfl
  dir := rfl
  creators := exLibCfg_built.creators
  sels := exLibCfg_built.sels
  ops := by
    intro o ho
    change o ∈ exLibSub.ops at ho
    simp only [exLibSub, List.mem_cons, List.not_mem_nil, or_false] at ho
    rcases ho with rfl | rfl
    · exact ⟨.crossover _ _ _ (by omega), fun _ => le_refl _⟩
    · refine ⟨.mutation _ _ _ rfl (by simp [MutationClass.points]), fun h => ?_⟩
      simp [MutationClass.asOp, gaussNOp, Op.withFallback] at h
  sched := exLibCfg_built.sched
  map := rfl

theorem exBlame_fitting : exBlameCfg.Fitting exBlameSub where
  popSize := by decide
  arities := by
    intro a ha
    change a ∈ exLibSub.sels.map (·.arity) ++ exLibSub.ops.map (·.arity) at ha
    simp [exLibSub, crossoverOp, MutationClass.asOp, gaussNOp, Op.withFallback, Op.inPlace, tournament] at ha
    rcases ha with rfl | rfl | rfl <;> decide
  pick := fun t => ⟨0, t, rfl, by decide⟩
  select := by
    intro sel rest h
    change exLibSub.sels = sel :: rest at h
    simp only [exLibSub, List.cons.injEq] at h
    obtain ⟨rfl, -⟩ := h
    exact tournament_worksOn (by omega) (by simp [exBlameSub, exLibSub])

example : CompletesOrBlames (Legal .float (.tup [0, 1]) 3) exBlameCfg exBlameSub ⟨true, none⟩ exBlameRun :=
  C121_vectors exLib_proper exBlame_built exBlame_fitting (K := fun _ => True) (fun _ _ _ _ _ _ _ _ _ _ _ => trivial)
    ⟨.inl rfl, by simp [exBlameRun, exLibRun], rfl, rfl, fun _ _ => trivial⟩

example : (evolve exBlameCfg exBlameRun).1 = .error (.user 7) ∨ (evolve exBlameCfg exBlameRun).1 = .error (.user 8) := by
  decide +kernel

end Verif.GA

namespace Verif.GP
open PyM Verif.Evo
variable {κ : Type} {K : κ → Prop} {cfg : GP.Cfg} {m : Mode}

/-- **C121** for programs. -/
theorem C121_programs (hp : cfg.Plain) {c : Evo.Cfg GP.Ind κ} {sub : SubCfg GP.Ind}
    (h : c.BuiltWith sub m (SizedCreator cfg m sub.popSize) LibOp) (hf : c.Fitting sub) {s : Run GP.Ind κ}
    (hK : c.KeepsStates sub.hib K) (ho : s.Open (PlainLegal cfg) c sub m K) : CompletesOrBlames (Legal cfg) c sub m s K := by
  obtain ⟨s', h1, h2⟩ := C80_programs hp (c := c.tame (Legal cfg) sub.hib K) (sub := sub.tame (Legal cfg)) h.tame
    (hf.smooth (P := Legal cfg) hK fun _ h => h) ho.tame
  exact blames_of_tame h.subs h1 h2

/-! An evaluator that divides by a number depending on the program: it raises `ZeroDivisionError` on some programs. -/

def exBlameSub : SubCfg GP.Ind :=
  { exLibSub with evaluate := fun i => if i.tree.length = 3 then raise .zeroDivisionError else pure i.tree.length }

def exBlameCfg : Evo.Cfg GP.Ind Unit := { exLibCfg with subs := [exBlameSub] }

theorem exBlame_built : exBlameCfg.BuiltWith exBlameSub ⟨true, none⟩
    (SizedCreator Sample.cfg ⟨true, none⟩ exBlameSub.popSize) LibOp where
  subs := rfl
  dir := rfl
  creators := exLibCfg_sized.creators
  sels := exLibCfg_sized.sels
  ops := exLibCfg_sized.ops
  sched := exLibCfg_sized.sched
  map := rfl

theorem exBlame_fitting : exBlameCfg.Fitting exBlameSub where
  popSize := exLibCfg_smooth.popSize
  arities := exLibCfg_smooth.arities
  pick := exLibCfg_smooth.pick
  select := exLibCfg_smooth.select

theorem exBlame_open : exLibRun.Open (PlainLegal Sample.cfg) exBlameCfg exBlameSub ⟨true, none⟩ where
  ready := .inl rfl
  given := exLibRun_open.given
  fits := exLibRun_open.fits
  executor := rfl

example : CompletesOrBlames (Legal Sample.cfg) exBlameCfg exBlameSub ⟨true, none⟩ exLibRun :=
  C121_programs exPlain exBlame_built exBlame_fitting (K := fun _ => True) (fun _ _ _ _ _ _ _ _ _ _ _ => trivial) exBlame_open

/-- This run raises the exception of its evaluator. -/
example : (evolve exBlameCfg exLibRun).1 = .error .zeroDivisionError := by decide +kernel

end Verif.GP
