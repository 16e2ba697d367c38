import Verif.Lemmas.Renaming
import Verif.Model.Termination
import Verif.Props.Legal

/-! # C131: names do not matter

Variables and functions of tree programs can be renamed: creators and operators look at types, arities and positions, and at
names only to tell variables and functions apart.  A run over the renamed sets, with an evaluator that gives the renamed programs
the same scores, does the same. -/

namespace Verif.Evo
open PyM
variable {G H κ : Type} {f : G → H} {P : G → Prop}

/-- Two sub-populations that differ in the representation of genomes: creators correspond through `CR`, operators through `OP`,
selections are tournaments and elitism with the same arguments, a genome in the other representation has the same score, and the
rest is the same. -/
structure SubCfg.Alike (f : G → H) (P : G → Prop)
    (CR : (Nat → Bool → WM H (List Nat)) → (Nat → Bool → WM G (List Nat)) → Prop) (OP : Op H → Op G → Prop)
    (size' : H → Nat) (size : G → Nat) (c' : SubCfg H) (c : SubCfg G) : Prop where
  creators : List.Forall₂ CR c'.creators c.creators
  ops : List.Forall₂ OP c'.ops c.ops
  sels : List.Forall₂ (fun sel' sel => (∃ z replace, sel' = tournament size' z replace ∧ sel = tournament size z replace) ∨
    ∃ n hib, sel' = elitism size' n hib ∧ sel = elitism size n hib) c'.sels c.sels
  pick : c'.pick = c.pick
  popSize : c'.popSize = c.popSize
  nElite : c'.nElite = c.nElite
  hib : c'.hib = c.hib
  evaluate : ∀ g, P g → c'.evaluate (f g) = c.evaluate g

/-- Two configurations that differ in the representation of genomes. -/
structure Cfg.Alike (f : G → H) (P : G → Prop)
    (CR : (Nat → Bool → WM H (List Nat)) → (Nat → Bool → WM G (List Nat)) → Prop) (OP : Op H → Op G → Prop)
    (c' : Cfg H κ) (c : Cfg G κ) : Prop where
  size : ∀ g, P g → c'.size (f g) = c.size g
  subs : List.Forall₂ (SubCfg.Alike f P CR OP c'.size c.size) c'.subs c.subs
  stream : c'.stream = c.stream
  maxGen : c'.maxGen = c.maxGen
  checkers : CheckersMap f P c'.checker c.checker
  sched : c'.sched = c.sched
  submit : c'.submit = c.submit

theorem Cfg.Alike.maps {CR : (Nat → Bool → WM H (List Nat)) → (Nat → Bool → WM G (List Nat)) → Prop} {OP : Op H → Op G → Prop}
    {c' : Cfg H κ} {c : Cfg G κ} (h : Cfg.Alike f P CR OP c' c) (hcr : ∀ x' x, CR x' x → CreatorMaps f P x' x)
    (hop : ∀ o' o, OP o' o → Op.Maps f P o' o) : Cfg.Maps f P c' c where
  size := h.size
  subs := h.subs.imp fun sub' sub hs =>
    { creators := hs.creators.imp hcr
      ops := hs.ops.imp hop
      sels := hs.sels.imp fun sel' sel hsel => by
        rcases hsel with ⟨z, replace, rfl, rfl⟩ | ⟨n, hib, rfl, rfl⟩
        · exact tournament_maps h.size z replace
        · exact elitism_maps h.size n hib
      pick := hs.pick
      popSize := hs.popSize
      nElite := hs.nElite
      hib := hs.hib
      evaluate := hs.evaluate }
  stream := h.stream
  maxGen := h.maxGen
  checkers := h.checkers
  sched := h.sched
  submit := h.submit

/-- **C131** for any change of representation that every part of the configuration commutes with: the two runs raise the same or
return, and do the same in every respect, except that every genome is the image of the other. -/
theorem C131_represent {c' : Cfg H κ} {c : Cfg G κ} (hc : Cfg.Maps f P c' c) {s : Run G κ} (hs : s.w.Fine P) :
    evolve c' (s.mapped f) = ((evolve c s).1, (evolve c s).2.mapped f) := by
  have := (evolve_maps hc s hs).1
  rwa [except_map_id] at this

/-- The target checker does not look at genomes. -/
theorem threshold_maps (optimal thr : ℚ) : CheckerMaps f P (threshold optimal thr) (threshold optimal thr) := by
  intro k heap inds best gen _
  unfold threshold
  cases best with
  | none => rfl
  | some r =>
    have : pureOf (heap.map (Ind.mapped f)) r = pureOf heap r := by
      unfold pureOf
      rw [mapped_get]
      cases heap[r]? <;> rfl
    dsimp only
    rw [this]

end Verif.Evo

namespace Verif.GP
open PyM Verif.Evo
variable {κ : Type} {R : Renaming}

/-- The operator is one of the library's tree operators, and the same in both runs. -/
inductive OpKept : Evo.Op GP.Ind → Evo.Op GP.Ind → Prop
  | mk {o : Evo.Op GP.Ind} (h : LibOp o) : OpKept o o

/-- **C131**: let two runs differ in the names of variables and in the functions (of the same signatures): in the sets the creators are
given, and in the evaluator, which gives renamed programs the scores of the original ones.  Then they raise the same or return,
and every individual ever made, in what is left and in what every event showed, differs from the one of the other run only in the
names: same positions, same constants, same fitness, same ids. -/
theorem C131_programs {c' c : Evo.Cfg GP.Ind κ} (hc : Evo.Cfg.Alike (Ind.renamed R) (fun _ => True) (CreatorRenamed R) OpKept c' c)
    (s : Run GP.Ind κ) : evolve c' (s.mapped (Ind.renamed R)) = ((evolve c s).1, (evolve c s).2.mapped (Ind.renamed R)) :=
  C131_represent (hc.maps (fun _ _ h => h.maps) fun _ _ h => by cases h with | mk h => exact h.maps) fun _ _ => trivial

/-- **C131** for execution: a renamed program, given the same values for the renamed variables and functions that do the same, returns
or raises the same. -/
theorem C131_execute {V : Type} {sem' sem : Fn → List V → Except Err V} {lit' lit : Val → V} (hs : ∀ f, sem' (R.fn f) = sem f)
    (hl : ∀ v, lit' (v.renamed R) = lit v) (i : Ind) (kwargs : List (String × V)) :
    execute sem' lit' (i.renamed R).cfg (i.renamed R).tree (kwargs.map (Prod.map R.var id)) = execute sem lit i.cfg i.tree kwargs := by
  have hkeys : (kwargs.map (Prod.map R.var id)).map (·.1) = (kwargs.map (·.1)).map R.var := by simp
  have hexec : executeKw sem' lit' (kwFun (kwargs.map (Prod.map R.var id))) (i.tree.map (Node.renamed R)) =
      executeKw sem lit (kwFun kwargs) i.tree := by
    unfold executeKw
    simp only [List.map_eq_nil_iff, List.length_map]
    rw [executeAt_renamed hs hl (kwFun_renamed kwargs)]
  unfold execute
  show (if i.tree.map (Node.renamed R) = [] then _ else _) = _
  simp only [List.map_eq_nil_iff]
  split
  · rfl
  · rw [hkeys]
    show (checkKwargs (i.cfg.terminalSet.map fun kv => (kv.1.renamed R, kv.2)) _).bind _ = _
    rw [checkKwargs_renamed]
    show (checkKwargs _ _).bind (fun _ => executeKw sem' lit' _ (i.tree.map (Node.renamed R))) = _
    rw [hexec]
    rfl

/-- The evaluator `fun ind => score (fun **kwargs => ind.execute(**kwargs))`. -/
def scoreBy {V : Type} (sem : Fn → List V → Except Err V) (lit : Val → V) (score : (List (String × V) → Except Err V) → Rand ℚ)
    (i : Ind) : Rand ℚ := score fun kwargs => execute sem lit i.cfg i.tree kwargs

/-- **C131** for evaluators that only execute the program: the evaluator of the renamed run calls the program with the renamed
variables, and gives the same scores. -/
theorem C131_scores {V : Type} {sem' sem : Fn → List V → Except Err V} {lit' lit : Val → V} (hs : ∀ f, sem' (R.fn f) = sem f)
    (hl : ∀ v, lit' (v.renamed R) = lit v) (score : (List (String × V) → Except Err V) → Rand ℚ) (i : Ind) :
    scoreBy sem' lit' (fun run => score fun kwargs => run (kwargs.map (Prod.map R.var id))) (i.renamed R) = scoreBy sem lit score i := by
  unfold scoreBy
  exact congrArg score (funext fun kwargs => C131_execute hs hl i kwargs)

/-! ## Non-vacuity -/

/-- Variables get a prefix, functions other identities. -/
def Sample.prefixed : Renaming where
  var := fun s => "v_" ++ s
  fn := fun f => { f with id := f.id + 100 }
  var_inj := fun a b h => by
    have := congrArg String.toList h
    simp only [String.toList_append] at this
    exact String.toList_inj.1 (List.append_cancel_left this)
  fn_inj := fun f g h => by
    obtain ⟨a, b, c⟩ := f
    obtain ⟨d, e, k⟩ := g
    simp_all
  params := fun _ => rfl
  ret := fun _ => rfl

/-- The meaning of the renamed functions. -/
def Sample.semPrefixed (f : Fn) : List ℤ → Except Err ℤ := Sample.sem { f with id := f.id - 100 }

/-- The value of the program at `x = 3`, `y = 4`, or 0 if it raises. -/
def Sample.score (run : List (String × ℤ) → Except Err ℤ) : Rand ℚ :=
  match run [("x", 3), ("y", 4)] with
  | .ok z => pure z
  | .error _ => pure 0

/-- The sample run with programs over the given sets, scored by the given evaluator. -/
def exRenSub (c : Cfg) (evaluate : Ind → Rand ℚ) : SubCfg GP.Ind :=
  ⟨[halfCreator c (1 / 2) 1 2 (fun h => ⟨.none, false, h, false, true, none⟩) true], exLibSub.pick, exLibSub.ops, exLibSub.sels,
    4, 1, true, evaluate⟩

def exRenCfg (c : Cfg) (evaluate : Ind → Rand ℚ) : Evo.Cfg GP.Ind Unit :=
  ⟨exLibCfg.size, [exRenSub c evaluate], exLibCfg.stream, 2, .one (threshold 1000 0), exLibCfg.sched, false⟩

/-- The original run and the one over `v_x`, `v_y` with the other functions. -/
def exOriginal : Evo.Cfg GP.Ind Unit := exRenCfg Sample.cfg (scoreBy Sample.sem Sample.lit Sample.score)

def exPrefixed : Evo.Cfg GP.Ind Unit := exRenCfg (Sample.cfg.renamed Sample.prefixed)
  (scoreBy Sample.semPrefixed Sample.lit fun run => Sample.score fun kwargs => run (kwargs.map (Prod.map Sample.prefixed.var id)))

def exRenRun : Run GP.Ind Unit := { exLibRun with checkers := [()] }

theorem exRen_alike : Evo.Cfg.Alike (Ind.renamed Sample.prefixed) (fun _ => True) (CreatorRenamed Sample.prefixed) OpKept
    exPrefixed exOriginal where
  size := fun g _ => by show (g.tree.map _).length = g.tree.length; simp
  subs := by
    refine List.Forall₂.cons ⟨.cons (.half _ _ _ _ _ _) .nil, ?_, .cons (.inl ⟨2, false, rfl, rfl⟩) .nil, rfl, rfl, rfl, rfl, ?_⟩ .nil
    · exact .cons (.mk (.crossover _ _ _)) (.cons (.mk (.mutation _ _ _ _)) (.cons (.mk (.erc _ _ _ _)) .nil))
    · intro g _
      refine C131_scores (fun f => rfl) (fun v => ?_) Sample.score g
      obtain ⟨r, d⟩ := v
      cases d <;> rfl
  stream := rfl
  maxGen := rfl
  checkers := .one (threshold_maps _ _)
  sched := rfl
  submit := rfl

/-- Both runs return after two generations. -/
theorem exOriginal_ends : (evolve exOriginal exRenRun).1 = .ok () ∧ (evolve exOriginal exRenRun).2.genNum = 2 ∧
    (evolve exOriginal exRenRun).2.log.length = 14 := by decide +kernel

example : ∃ s' : Run GP.Ind Unit, evolve exPrefixed exRenRun = (.ok (), s'.mapped (Ind.renamed Sample.prefixed)) ∧ s'.genNum = 2 := by
  refine ⟨(evolve exOriginal exRenRun).2, ?_, exOriginal_ends.2.1⟩
  have := C131_programs exRen_alike exRenRun
  rw [exOriginal_ends.1] at this
  exact this

/-- A renamed program with the renamed variables. -/
example : execute Sample.semPrefixed Sample.lit (Ind.renamed Sample.prefixed ⟨Sample.cfg, Sample.prog.flatten⟩).cfg
    (Ind.renamed Sample.prefixed ⟨Sample.cfg, Sample.prog.flatten⟩).tree [("v_x", 3), ("v_y", 4)] = .ok 3 := by
  have := C131_execute (R := Sample.prefixed) (sem' := Sample.semPrefixed) (sem := Sample.sem) (lit' := Sample.lit) (lit := Sample.lit)
    (fun f => rfl) (fun v => by obtain ⟨r, d⟩ := v; cases d <;> rfl) ⟨Sample.cfg, Sample.prog.flatten⟩ [("x", 3), ("y", 4)]
  refine this.trans ?_
  decide +kernel

end Verif.GP
