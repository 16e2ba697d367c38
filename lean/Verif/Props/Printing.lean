import Verif.Lemmas.Printing
import Verif.Props.Total

/-! # C81: printing trees; the end of a run -/

namespace Verif.GP
open PyM Verif.Evo

theorem joinKeys_ok {c : Cfg} (h : ∀ kv ∈ c.terminalSet, ∃ s, kv.1.data = .str s) :
    joinKeys (c.terminalSet.map (·.1)) = .ok c.variables := by
  unfold Cfg.variables
  generalize c.terminalSet = ts at h
  induction ts with
  | nil => rfl
  | cons kv ts ih =>
    obtain ⟨s, hs⟩ := h kv (by simp)
    simp [joinKeys, hs, ih fun x hx => h x (by simp [hx]), bind, Except.bind]

theorem joinKeys_error {vs : List Val} (h : ∃ v ∈ vs, ∀ s, v.data ≠ .str s) :
    joinKeys vs = .error .typeError := by
  induction vs with
  | nil => simp at h
  | cons v vs ih =>
    unfold joinKeys
    split
    · rename_i s hs
      have : ∃ w ∈ vs, ∀ s, w.data ≠ .str s := by
        obtain ⟨w, hw, h⟩ := h
        rcases List.mem_cons.1 hw with rfl | hw
        · exact absurd hs (h s)
        · exact ⟨w, hw, h⟩
      rw [ih this]; rfl
    · rfl

theorem treeStr_variables (N : Names) (id : Nat) {ind : Ind} {p : Prog} (h : Represents ind p)
    (hv : ind.cfg.Variables) :
    treeStr N id ind = .ok ("def func_" ++ toString id ++ "(" ++ ", ".intercalate ind.cfg.variables ++ ")" ++ "" ++
      ":\n  return " ++ renderRoot N p) := by
  obtain ⟨kv, l, hkv⟩ := List.exists_cons_of_ne_nil hv.1
  have hany : (ind.cfg.terminalSet.any fun kv => kv.2 == none) = true :=
    List.any_eq_true.2 ⟨kv, by rw [hkv]; simp, by
      have := (hv.2 kv (by rw [hkv]; simp)).1
      simp [this]⟩
  have hs : signature N ind.cfg ind.tree = .ok (", ".intercalate ind.cfg.variables, "") := by
    unfold signature
    rw [if_pos hany, joinKeys_ok fun kv hkv => (hv.2 kv hkv).2]
    rfl
  unfold treeStr
  rw [hs, h.1, strAt_root N h.2.1]
  rfl

/-- **C81, variables only (partial).** If all terminals of the untyped terminal set are variables, a legal tree
is printed as a function definition with these variables as parameters, whose body without blanks and line
breaks is the program in functional notation. -/
theorem C81_text_partial (N : Names) (id : Nat) {ind : Ind} {p : Prog} (h : Represents ind p)
    (hv : ind.cfg.Variables) : ∃ body,
    treeStr N id ind = .ok ("def func_" ++ toString id ++ "(" ++ ", ".intercalate ind.cfg.variables ++ ")" ++ "" ++
      ":\n  return " ++ body) ∧ (p.Clean N → strip body = p.notation' N) :=
  ⟨renderRoot N p, treeStr_variables N id h hv, strip_renderRoot N⟩

/-- **C81, typed trees (partial).** If all terminals have types and the root has one, a legal tree is printed as
a function definition with annotated parameters and the type of the root, whose body without blanks and line
breaks is the program in functional notation. -/
theorem C81_typed_partial (N : Names) (id : Nat) {ind : Ind} {p : Prog} (h : Represents ind p)
    (ht : ∀ kv ∈ ind.cfg.terminalSet, kv.2 ≠ none) {n : Node} (hn : ind.tree.head? = some n) {ρ : Ty}
    (hρ : n.type = some ρ) : ∃ body,
    treeStr N id ind = .ok ("def func_" ++ toString id ++ "(" ++ ", ".intercalate (ind.cfg.terminalSet.map fun kv =>
      N.val kv.1 ++ ": " ++ (kv.2.map N.ty).getD "") ++ ")" ++ (" -> " ++ N.ty ρ) ++ ":\n  return " ++ body) ∧
      (p.Clean N → strip body = p.notation' N) := by
  refine ⟨renderRoot N p, ?_, strip_renderRoot N⟩
  have hany : (ind.cfg.terminalSet.any fun kv => kv.2 == none) = false := by
    rw [List.any_eq_false]
    intro kv hkv
    simp [ht kv hkv]
  have hs : signature N ind.cfg ind.tree = .ok (", ".intercalate (ind.cfg.terminalSet.map fun kv =>
      N.val kv.1 ++ ": " ++ (kv.2.map N.ty).getD ""), " -> " ++ N.ty ρ) := by
    unfold signature
    rw [hany, if_neg (by simp), ← List.head?_eq_getElem?, hn]
    simp only [hρ]
  unfold treeStr
  rw [hs, h.1, strAt_root N h.2.1]
  rfl

/-- **C81, faithful.** Two programs over the same variables that are printed alike (under the same number) are
alike: same tree, same names. -/
theorem C81_faithful_partial (N : Names) (id : Nat) {i j : Ind} {p q : Prog} (hp : Represents i p)
    (hq : Represents j q) (hcfg : i.cfg = j.cfg) (hv : i.cfg.Variables) (hpc : p.Clean N) (hqc : q.Clean N)
    (h : treeStr N id i = treeStr N id j) : p.skel N = q.skel N := by
  obtain ⟨b1, h1, e1⟩ := C81_text_partial N id hp hv
  obtain ⟨b2, h2, e2⟩ := C81_text_partial N id hq (hcfg ▸ hv)
  rw [h1, h2, hcfg] at h
  have hb : b1 = b2 := by
    have := congrArg String.toList (Except.ok.inj h)
    simp only [String.toList_append] at this
    exact String.toList_inj.1 (List.append_cancel_left this)
  subst hb
  have := notation_inj N p hpc q [] [] hqc (by simp [EndsProg]) (by simp [EndsProg]) (by
    rw [List.append_nil, List.append_nil, ← e1 hpc, ← e2 hqc])
  exact this.1

/-- A tree with a non-string constant in its untyped terminal set cannot be printed, whatever the tree is. -/
theorem C81_constant_raises (N : Names) (id : Nat) (ind : Ind)
    (hu : ∀ kv ∈ ind.cfg.terminalSet, kv.2 = none)
    (h : ∃ kv ∈ ind.cfg.terminalSet, ∀ s, kv.1.data ≠ .str s) :
    treeStr N id ind = .error .typeError := by
  obtain ⟨kv, hkv, hs⟩ := h
  have hany : (ind.cfg.terminalSet.any fun kv => kv.2 == none) = true :=
    List.any_eq_true.2 ⟨kv, hkv, by simp [hu kv hkv]⟩
  unfold treeStr signature
  rw [if_pos hany, joinKeys_error ⟨kv.1, List.mem_map_of_mem hkv, hs⟩]
  rfl

/-- A tree with an empty terminal set (constants only) and untyped functions cannot be printed either. -/
theorem C81_empty_raises (N : Names) (id : Nat) {ind : Ind} (he : ind.cfg.terminalSet = []) {n : Node}
    (hn : ind.tree.head? = some n) (hty : n.type = none) : treeStr N id ind = .error .attributeError := by
  unfold treeStr signature
  rw [he]
  simp only [List.any_nil, Bool.false_eq_true, if_false]
  rw [← List.head?_eq_getElem?, hn]
  simp only [hty]
  rfl

/-- C81 as stated: every legal tree over sets the constructor accepts can be printed. -/
def C81_statement : Prop :=
  ∀ (N : Names) (id : Nat) (fs : List Fn) (input : TermInput) (root : Option Ty) (erc : Option Erc) (c : Cfg)
    (ind : Ind) (p : Prog), handleInputTypes (some fs) (some input) root erc = .ok c → ind.cfg = c →
    Represents ind p → p.BuiltFrom c → ∃ s, treeStr N id ind = .ok s

namespace Sample
/-- `terminal_set=['x', 2]` -/
def cfgConst : Cfg := ⟨[add, mul, neg], [(x, none), (two, none)], none, none⟩

def names : Names := ⟨fun f => if f.id = 0 then "add" else if f.id = 1 then "mul" else "neg",
  fun v => match v.data with
    | .str s => s
    | .int z => toString z
    | _ => "?",
  fun _ => "t"⟩

theorem prog_built : prog.BuiltFrom cfgConst := by
  refine ⟨?_, ?_⟩
  · intro f hf
    simp only [prog, Prog.fns, Prog.fnsAll, List.mem_cons, List.append_nil, List.mem_append,
      List.not_mem_nil, or_false] at hf
    rcases hf with rfl | rfl | rfl <;> simp [cfgConst, Fn.Legal, add, mul, neg]
  · intro v hv
    simp only [prog, Prog.terms, Prog.termsAll, List.mem_cons, List.append_nil, List.mem_append,
      List.not_mem_nil, or_false] at hv
    left
    rcases hv with (rfl | rfl) | rfl <;> simp [cfgConst]

theorem prog_represents : Represents ⟨cfgConst, prog.flatten⟩ prog := by
  refine ⟨rfl, ?_, fun f hf => (prog_built.1 f hf).1⟩
  simp [prog, Prog.Ok, Prog.OkAll, add, mul, neg]
end Sample

theorem C81_refuted : ¬ C81_statement := by
  intro h
  obtain ⟨s, hs⟩ := h Sample.names 0 [Sample.add, Sample.mul, Sample.neg] (.list [Sample.x, Sample.two]) none none
    Sample.cfgConst ⟨Sample.cfgConst, Sample.prog.flatten⟩ Sample.prog rfl rfl
    Sample.prog_represents Sample.prog_built
  rw [C81_constant_raises Sample.names 0 _ (by simp [Sample.cfgConst])
    ⟨(Sample.two, none), by simp [Sample.cfgConst], by simp [Sample.two]⟩] at hs
  cases hs

/-- The hypotheses of `C81_text_partial` are met by a tree over `x` and `y`, with a constant as a leaf. -/
example : ∃ body, treeStr Sample.names 7 ⟨Sample.cfg, Sample.prog.flatten⟩ =
      .ok ("def func_" ++ toString 7 ++ "(" ++ ", ".intercalate ["x", "y"] ++ ")" ++ "" ++ ":\n  return " ++ body) ∧
    strip body = "add(mul(x,2),neg(x))".toList := by
  have h : Represents ⟨Sample.cfg, Sample.prog.flatten⟩ Sample.prog := by
    refine ⟨rfl, by simp [Sample.prog, Prog.Ok, Prog.OkAll, Sample.add, Sample.mul, Sample.neg], fun f hf => ?_⟩
    exact (Sample.prog_built.1 f hf).1
  have hv : Sample.cfg.Variables := by
    refine ⟨by simp [Sample.cfg], ?_⟩
    intro kv hkv
    simp only [Sample.cfg, List.mem_cons, List.not_mem_nil, or_false] at hkv
    rcases hkv with rfl | rfl <;> simp [Sample.x, Sample.y]
  have hc : Sample.prog.Clean Sample.names := by
    refine ⟨?_, ?_⟩
    · intro f hf
      simp only [Sample.prog, Prog.fns, Prog.fnsAll, List.mem_cons, List.append_nil, List.mem_append,
        List.not_mem_nil, or_false] at hf
      rcases hf with rfl | rfl | rfl <;> (unfold Prog.Word; decide +kernel)
    · intro v hv
      simp only [Sample.prog, Prog.terms, Prog.termsAll, List.mem_cons, List.append_nil, List.mem_append,
        List.not_mem_nil, or_false] at hv
      rcases hv with (rfl | rfl) | rfl <;> (unfold Prog.Word; decide +kernel)
  obtain ⟨body, h1, h2⟩ := C81_text_partial Sample.names 7 h hv
  exact ⟨body, h1, (h2 hc).trans (by decide +kernel)⟩

end Verif.GP

/-! ## The end of a run -/

namespace Verif.Evo
open PyM
variable {G κ : Type} {P : G → Prop}

theorem evolveAndShow_of {c : Cfg G κ} {shown : Nat → G → Except Err String} {s s' : Run G κ} {b : Nat} {i : Ind G}
    (h : evolve c s = (.ok (), s')) (hb : s'.bestOfRun = some b) (hi : s'.w.heap[b]? = some i) :
    evolveAndShow c shown s = (match shown i.id i.genome with
      | .ok _ => (.ok (), s')
      | .error e => (.error e, s')) := by
  unfold evolveAndShow
  rw [bind_run, h]
  dsimp only
  rw [bind_run]
  simp only [PyM.get, hb, hi]
  cases shown i.id i.genome <;> rfl

end Verif.Evo

namespace Verif.GP
open PyM Verif.Evo
variable {κ : Type} {cfg : GP.Cfg} {m : Mode}

theorem best_legal {c : Evo.Cfg GP.Ind κ} {sub : SubCfg GP.Ind}
    (h : c.BuiltWith sub m (SizedCreator cfg m sub.popSize) LibOp) {s s' : Run GP.Ind κ} (hr : s.Ready m)
    (hst : s.Starts (Legal cfg)) (hrun : evolve c s = (.ok (), s')) {b : Nat} (hb : s'.bestOfRun = some b) :
    ∃ i, s'.w.heap[b]? = some i ∧ Legal cfg i.genome :=
  (evolve_lawful (h.ordinary (fun _ h => h.lib.good) fun _ h => h.good)
    (fun x hx n hib s => ((h.creators x hx).lib.makes n hib s).mono fun _ _ h => h.2)
    (fun o ho => (h.ops o ho).preserves) hr hst _ s' hrun).bestOfRun b hb b (by simp)

/-- **C81, runs (partial).** A run as in C80 whose terminals are all variables ends without an exception also
when the best individual is shown. -/
theorem C81_run_partial (N : Names) (hp : cfg.Plain) {c : Evo.Cfg GP.Ind κ} {sub : SubCfg GP.Ind}
    (h : c.BuiltWith sub m (SizedCreator cfg m sub.popSize) LibOp)
    (hs : c.Smooth (Legal cfg) sub) {s : Run GP.Ind κ} (ho : s.Open (PlainLegal cfg) c sub m)
    (hst : s.Starts (Legal cfg)) (hv : cfg.Variables) :
    ∃ s', evolveAndShow c (treeStr N) s = (.ok (), s') ∧ Completed (Legal cfg) c sub m s' := by
  obtain ⟨s', hrun, hc⟩ := C80_programs hp h hs ho
  obtain ⟨b, x, is, hb, -⟩ := id hc
  obtain ⟨i, hi, hcfg, p, hrep⟩ := best_legal h ho.ready hst hrun hb
  refine ⟨s', ?_, hc⟩
  rw [evolveAndShow_of hrun hb hi, treeStr_variables N i.id hrep (hcfg ▸ hv)]

/-- **C81, runs with constants.** A run as in C80 with a constant among its terminals — as in the documented
`terminal_set=['x', 'y', 'z', 0, 1, -1]` — goes through all its generations and then raises `TypeError`, whatever
is drawn. -/
theorem C81_run_refuted (N : Names) (hp : cfg.Plain) {c : Evo.Cfg GP.Ind κ} {sub : SubCfg GP.Ind}
    (h : c.BuiltWith sub m (SizedCreator cfg m sub.popSize) LibOp)
    (hs : c.Smooth (Legal cfg) sub) {s : Run GP.Ind κ} (ho : s.Open (PlainLegal cfg) c sub m)
    (hst : s.Starts (Legal cfg)) (hu : ∀ kv ∈ cfg.terminalSet, kv.2 = none)
    (hv : ∃ kv ∈ cfg.terminalSet, ∀ t, kv.1.data ≠ .str t) :
    ∃ s', evolveAndShow c (treeStr N) s = (.error .typeError, s') ∧ Completed (Legal cfg) c sub m s' := by
  obtain ⟨s', hrun, hc⟩ := C80_programs hp h hs ho
  obtain ⟨b, x, is, hb, -⟩ := id hc
  obtain ⟨i, hi, hcfg, -⟩ := best_legal h ho.ready hst hrun hb
  refine ⟨s', ?_, hc⟩
  rw [evolveAndShow_of hrun hb hi, C81_constant_raises N i.id i.genome (hcfg ▸ hu) (hcfg ▸ hv)]

/-- The sample run ends well: its terminals are variables. -/
example : ∃ s', evolveAndShow exLibCfg (treeStr Sample.names) exLibRun = (.ok (), s') ∧
    Completed (Legal Sample.cfg) exLibCfg exLibSub ⟨true, none⟩ s' := by
  refine C81_run_partial Sample.names exPlain exLibCfg_sized exLibCfg_smooth exLibRun_open ?_ ?_
  · exact ⟨by simp [exLibRun], rfl, rfl, rfl⟩
  · refine ⟨by simp [Sample.cfg], ?_⟩
    intro kv hkv
    simp only [Sample.cfg, List.mem_cons, List.not_mem_nil, or_false] at hkv
    rcases hkv with rfl | rfl <;> simp [Sample.x, Sample.y]

/-- The sample run with the terminals `['x', 2]`. -/
def exConstSub : SubCfg GP.Ind :=
  { exLibSub with creators := [halfCreator Sample.cfgConst (1 / 2) 1 2 (fun h => ⟨.none, false, h, false, true, none⟩) true] }

def exConstCfg : Evo.Cfg GP.Ind Unit := { exLibCfg with subs := [exConstSub] }

theorem exConst_untyped : Sample.cfgConst.Untyped := by
  simp [Cfg.Untyped, Sample.cfgConst, Sample.add, Sample.mul, Sample.neg]

theorem exConst_plain : Sample.cfgConst.Plain :=
  exConst_untyped.plain rfl (by simp [Cfg.HasTerminal, Sample.cfgConst]) (by simp [Sample.cfgConst])
    (by simp [Sample.cfgConst, Sample.x, Sample.two, Data.isNumber, Data.type, Ty.isNumber, Data.num?])

theorem exConst_sized : exConstCfg.BuiltWith exConstSub ⟨true, none⟩
    (SizedCreator Sample.cfgConst ⟨true, none⟩ exConstSub.popSize) LibOp where
  subs := rfl
  dir := rfl
  creators := by
    intro create h
    simp only [exConstSub, List.mem_singleton] at h
    subst h
    exact .half _ _ _ _ _ ⟨rfl, rfl⟩ (by omega) (by decide)
  sels := exLibCfg_built.sels
  ops := exLibCfg_built.ops
  sched := exLibCfg_built.sched
  map := rfl

theorem exConst_smooth : exConstCfg.Smooth (Legal Sample.cfgConst) exConstSub where
  popSize := by decide
  arities := by
    intro a ha
    simp [exConstSub, exLibSub, crossoverOp, mutationOp, ercOp, Op.inPlace, tournament] at ha
    rcases ha with rfl | rfl | rfl | rfl <;> decide
  pick := fun t => ⟨0, t, rfl, by decide⟩
  select := by
    intro sel rest h
    simp only [exConstSub, exLibSub, List.cons.injEq] at h
    obtain ⟨rfl, -⟩ := h
    exact tournament_worksOn (by omega) (by simp [exConstSub, exLibSub])
  evaluate := fun _ _ => Total.pure
  calm := trivial

theorem exConst_open : exLibRun.Open (PlainLegal Sample.cfgConst) exConstCfg exConstSub ⟨true, none⟩ where
  ready := .inl rfl
  given := by simp [exLibRun]
  fits := by simp [Cfg.Fits, exConstCfg, exLibCfg]
  executor := rfl

example : ∃ s', evolveAndShow exConstCfg (treeStr Sample.names) exLibRun = (.error .typeError, s') ∧
    Completed (Legal Sample.cfgConst) exConstCfg exConstSub ⟨true, none⟩ s' :=
  C81_run_refuted Sample.names exConst_plain exConst_sized exConst_smooth exConst_open
    ⟨by simp [exLibRun], rfl, rfl, rfl⟩ exConst_untyped.2 ⟨(Sample.two, none), by simp [Sample.cfgConst], by simp [Sample.two]⟩

end Verif.GP

namespace Verif.GA
open PyM Verif.Evo
variable {κ : Type} {kind : Kind} {bounds : Bounds} {length : Nat} {m : Mode}

/-- **C81, vectors.** Showing the best vector does not raise (`Vector.show` only logs it), so vector runs as in
C80 end without an exception. -/
theorem C81_run_vectors (hb : bounds.Proper kind length) {c : Evo.Cfg Vec κ} {sub : SubCfg Vec}
    (h : c.BuiltWith sub m (LibCreator kind bounds length m) (PairedOp kind length))
    (hs : c.Smooth (Legal kind bounds length) sub) {s : Run Vec κ}
    (ho : s.Open (Legal kind bounds length) c sub m) (text : Nat → Vec → String) :
    ∃ s', evolveAndShow c (fun i v => .ok (text i v)) s = (.ok (), s') ∧
      Completed (Legal kind bounds length) c sub m s' := by
  obtain ⟨s', hrun, hc⟩ := C80_vectors hb h hs ho
  obtain ⟨b, x, is, hb, hsc, -⟩ := id hc
  obtain ⟨i, -, -, hi, -⟩ := hsc
  exact ⟨s', evolveAndShow_of hrun hb hi, hc⟩

end Verif.GA
