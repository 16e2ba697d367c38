import Verif.Props.Unstuck
import Verif.Props.Positions
import Verif.Lemmas.FreeGP

/-! # C151, programs: a run never gets stuck -/

namespace Verif.GP
open PyM Verif.Evo
variable {κ : Type} {K : κ → Prop} {cfg : GP.Cfg} {m : Mode}

theorem Cfg.Untyped.uses (hu : cfg.Untyped) (hr : cfg.rootType = none) {τ : Option Ty} (h : cfg.Uses τ) : τ = none := by
  have hm : ∀ τ, cfg.Mentions τ → τ = none := by
    rintro τ (h | ⟨f, hf, h | h⟩ | ⟨kv, hkv, h⟩)
    · rw [h, hr]
    · exact (hu.1 f hf).1 τ h
    · rw [h, (hu.1 f hf).2]
    · rw [← h, hu.2 kv hkv]
  rcases h with h | ⟨-, -, t, ht, -⟩
  · exact hm τ h
  · cases hm _ ht

mutual
theorem hasType_none {p : Prog} (hok : p.Ok) (hf : ∀ f ∈ p.fns, (∀ t ∈ f.params, t = none) ∧ f.ret = none)
    (ht : ∀ v t, Node.term v t ∈ p.flatten → t = none) : p.HasType none := by
  match p with
  | .term v t => exact ht v t (by simp [Prog.flatten])
  | .app f args =>
    refine ⟨(hf f (by simp [Prog.fns])).2, haveTypes_none hok.2 hok.1 (hf f (by simp [Prog.fns])).1 (fun g hg => hf g ?_)
      fun v t h => ht v t ?_⟩
    · simp [Prog.fns, hg]
    · simp [Prog.flatten, h]
theorem haveTypes_none {ps : List Prog} {τs : List (Option Ty)} (hok : Prog.OkAll ps) (hl : ps.length = τs.length)
    (hτ : ∀ t ∈ τs, t = none) (hf : ∀ f ∈ Prog.fnsAll ps, (∀ t ∈ f.params, t = none) ∧ f.ret = none)
    (ht : ∀ v t, Node.term v t ∈ Prog.flattenAll ps → t = none) : Prog.HaveTypes ps τs := by
  match ps, τs with
  | [], [] => trivial
  | p :: ps, τ :: τs =>
    obtain rfl := hτ τ (by simp)
    exact ⟨hasType_none hok.1 (fun f h => hf f (by simp [Prog.fnsAll, h])) fun v t h => ht v t (by simp [Prog.flattenAll, h]),
      haveTypes_none hok.2 (by simpa using hl) (fun t h => hτ t (by simp [h])) (fun f h => hf f (by simp [Prog.fnsAll, h]))
        fun v t h => ht v t (by simp [Prog.flattenAll, h])⟩
  | [], τ :: τs => simp at hl
  | p :: ps, [] => simp at hl
end

theorem mutation_canMake {p : ℚ} (hp : 0 ≤ p) (hu : cfg.Untyped) (hr : cfg.rootType = none) (hd : DistinctKeys cfg.terminalSet)
    (herc : cfg.ErcProper) {lo hi attempts : Nat} (hle : lo ≤ hi) (hpos : 0 < attempts) {q : Prog}
    (hq : q.Growable cfg none lo hi) : (mutationOp p lo hi attempts).CanMake (PlainLegal cfg) ⟨cfg, q.flatten⟩ := by
  refine Op.inPlace_canMake _ hp _ fun i hi' => ?_
  obtain ⟨⟨hcfg, p', htree, hok, hfns⟩, hplain⟩ := hi'
  obtain ⟨icfg, itree⟩ := i
  cases hcfg
  simp only at htree hfns hplain
  subst htree
  have hty : p'.HasType none := hasType_none hok (fun f hf => hu.1 f (hfns f hf)) fun v t h =>
    hu.uses hr (hplain _ h).1
  obtain ⟨t, t', ht⟩ := C87_mutation_anywhere_partial icfg hd herc hu p' hty
    (fun f hf => ⟨hfns f hf, .inr (hu.1 f (hfns f hf))⟩) lo hi hle attempts hpos q hq
  exact ⟨t, t', (bind_of_ok ht).trans rfl⟩

/-- **C151, programs.** A run of the tree creators and operators of the library over untyped functions and terminals with
tournament selection, whose last operator is the subtree mutation: in whichever generation, after whatever has happened,
every program in the range of the grow method of the mutation can still be found. -/
theorem C151_programs (hpl : cfg.Plain) (hu : cfg.Untyped) (hroot : cfg.rootType = none) (hd : DistinctKeys cfg.terminalSet)
    (herc : cfg.ErcProper) {c : Evo.Cfg GP.Ind κ} {sub : SubCfg GP.Ind}
    (h : c.BuiltWith sub m (SizedCreator cfg m sub.popSize) LibOp) (hs : c.Smooth (Legal cfg) sub K)
    (hsel : ∀ sel ∈ sub.sels, ∃ size k replace, sel = tournament size k replace) {os : List (Op GP.Ind)}
    {p : ℚ} {lo hi attempts : Nat} (hops : sub.ops = os ++ [mutationOp p lo hi attempts]) (hp : 0 ≤ p) (hle : lo ≤ hi)
    (hpos : 0 < attempts) {q : Prog} (hq : q.Growable cfg none lo hi) {N : Nat} {s s' : Run GP.Ind κ}
    (ho : s.Open (PlainLegal cfg) c sub m K)
    (hlog : s.log = []) (hg : s.genNum = 0) (hmax : c.maxGen < 2 ^ 32) (hseed : (s.genSeed + N) % 2 ^ 32 ≠ s.randomSeed)
    (hN : 1 ≤ N) (hrun : evolve c s = (.ok (), s')) (hreach : ∃ e ∈ s'.log, e.IsEval ∧ e.snap.genNum = N) :
    ∃ t s'', evolve (c.redrawn ((s.genSeed + N) % 2 ^ 32) t) s = (.ok (), s'') ∧
      (∃ e ∈ s''.log, e.Holds N ⟨cfg, q.flatten⟩) ∧ SameUntil N s'.log s''.log := by
  have ha : ∀ o ∈ sub.ops, o.arity ≠ 0 := fun o ho =>
    (hs.arities o.arity (List.mem_append_right _ (List.mem_map_of_mem ho))).1
  have h' : c.BuiltWith sub m (SizedCreator cfg m sub.popSize) fun o => LibOp o ∧ o.arity ≠ 0 :=
    { h with ops := fun o ho => ⟨h.ops o ho, ha o ho⟩ }
  have hs' : c.Smooth (PlainLegal cfg) sub K := { hs with evaluate := fun g hg => hs.evaluate g hg.1 }
  have hsound := h'.sound hs' (fun _ h => h.lib.good) (fun _ h => h.works hpl _) (fun _ h => h.1.good)
      (fun _ h => h.1.preserves_plain hpl) (fun _ h => h.1.worksOn hpl h.2)
  refine evolve_makes hsound ⟨fun sel hs source dest => ?_, fun o ho => (h.ops o ho).free⟩ hops rfl
    (mutation_canMake hp hu hroot hd herc hle hpos hq) ho hlog hg hmax hseed hN hrun hreach
  obtain ⟨size, k, replace, rfl⟩ := hsel sel hs
  exact FreeW.tournamentSelect _ _ _ _ _

/-! A run with crossover and mutation. -/

def exFindSub : SubCfg GP.Ind := { exLibSub with ops := [crossoverOp 1 2 1, mutationOp 1 0 2 1] }

def exFindCfg : Evo.Cfg GP.Ind Unit := { exLibCfg with subs := [exFindSub] }

theorem exFindRun_ends : (evolve exFindCfg exLibRun).1 = .ok () ∧ (evolve exFindCfg exLibRun).2.log.any (fun e =>
    (e.publisher == "population_evaluator" && e.name == "after_operator") && (e.snap.genNum == 2)) = true := by decide +kernel

/-- `add(x, y)` -/
def exSought : Prog := .app Sample.add [.term Sample.x none, .term Sample.y none]

theorem exSought_growable : exSought.Growable Sample.cfg none 0 2 := by
  refine ⟨?_, ⟨?_, ?_⟩, ?_, ?_⟩ <;>
    simp [exSought, Prog.HasType, Prog.HaveTypes, Prog.fns, Prog.fnsAll, Prog.terms, Prog.termsAll, Cfg.Leaf, Sample.cfg,
      Sample.add, Sample.x, Sample.y, Fn.Legal, Prog.termDepths, Prog.termDepthsAll, Prog.fnDepths, Prog.fnDepthsAll]

theorem exFindCfg_sized : exFindCfg.BuiltWith exFindSub ⟨true, none⟩
    (SizedCreator Sample.cfg ⟨true, none⟩ exFindSub.popSize) LibOp where
  subs := rfl
  dir := rfl
  creators := exLibCfg_sized.creators
  sels := exLibCfg_sized.sels
  ops := by
    intro o ho
    simp only [exFindSub, List.mem_cons, List.not_mem_nil, or_false] at ho
    rcases ho with rfl | rfl
    · exact .crossover _ _ _
    · exact .mutation _ _ _ _
  sched := exLibCfg_sized.sched
  map := rfl

theorem exFindCfg_smooth : exFindCfg.Smooth (Legal Sample.cfg) exFindSub where
  popSize := by decide
  arities := by
    intro a ha
    simp [exFindSub, exLibSub, crossoverOp, mutationOp, Op.inPlace, tournament] at ha
    rcases ha with rfl | rfl | rfl <;> decide
  pick := exLibCfg_smooth.pick
  select := exLibCfg_smooth.select
  evaluate := fun _ _ => Total.pure
  calm := trivial

/-- Whatever has happened until the end of the first of two generations, `add(x, y)` can be found in the second. -/
example : ∃ t s'', evolve (exFindCfg.redrawn 44 t) exLibRun = (.ok (), s'') ∧
    (∃ e ∈ s''.log, e.Holds 2 ⟨Sample.cfg, exSought.flatten⟩) ∧ SameUntil 2 (evolve exFindCfg exLibRun).2.log s''.log := by
  refine C151_programs exPlain Sample.cfg_untyped rfl ?_ Sample.cfg_ercProper exFindCfg_sized exFindCfg_smooth ?_
    (os := [crossoverOp 1 2 1]) rfl (by norm_num) (by omega) (by omega) exSought_growable
    { ready := .inl rfl, given := by simp [exLibRun], fits := by simp [Cfg.Fits, exFindCfg, exLibCfg], executor := rfl }
    rfl rfl (by decide) (N := 2) (by decide) (by omega) (ran exFindRun_ends.1) ?_
  · simp [DistinctKeys, Sample.cfg, Sample.x, Sample.y, Data.pyEq, Data.num?]
  · intro sel h
    simp only [exFindSub, exLibSub, List.mem_singleton] at h
    exact ⟨_, _, _, h⟩
  · obtain ⟨e, he, h⟩ := List.any_eq_true.1 exFindRun_ends.2
    simp only [Bool.and_eq_true, beq_iff_eq] at h
    exact ⟨e, he, h.1, h.2⟩

end Verif.GP
