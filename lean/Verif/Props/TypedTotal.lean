import Verif.Props.Total
import Verif.Props.TypedRun

/-! # C80 for typed configurations: what the setup checks and what it does not -/

namespace Verif.GP
open PyM Verif.Evo
variable {κ : Type} {m : Mode} {K : κ → Prop}

/-- **C80, typed programs.** A run put together from the library's tree creators and tree operators over a typed
configuration the setup accepts completes, if every type a function takes is returned by a function, every type a
function returns has a terminal (or is the type of the constants), and evaluator and checkers do not raise. -/
theorem C80_typed {fs kvs ρ erc cfg} (hacc : AcceptedTyped fs kvs ρ erc cfg) (hl : ∀ f ∈ fs, f.Legal)
    (hf : ∀ f ∈ fs, ∀ t ∈ f.params, ∃ g ∈ fs, g.ret = t)
    (hret : ∀ f ∈ fs, (∃ kv ∈ kvs, kv.2 = f.ret) ∨ (erc ≠ none ∧ f.ret = cfg.ercType))
    (hu : ∀ e, erc = some e → e.Usable)
    (hn : ∀ kv ∈ kvs, kv.1.data.isNumber = true → kv.1.data.num? ≠ none)
    {c : Evo.Cfg GP.Ind κ} {sub : SubCfg GP.Ind}
    (h : c.BuiltWith sub m (SizedCreator cfg m sub.popSize) LibOp)
    (hs : c.Smooth (Legal cfg) sub K) {s : Run GP.Ind κ} (ho : s.Open (PlainLegal cfg) c sub m K) :
    ∃ s', evolve c s = (.ok (), s') ∧ Completed (Legal cfg) c sub m s' :=
  C80_programs (Cfg.plain_of_setup hacc.2 hl hf hret hu hn) h hs ho

namespace Typed

theorem plain2 : cfg2.Plain := by
  refine Cfg.plain_of_setup accepted2.2 legal2 ?_ ?_ (by simp) ?_
  · simp [f, g, h]
  · simp [f, g, h, kvs]
  · simp [kvs, i, x, Data.isNumber, Data.type, Ty.isNumber]

theorem run2Cfg_sized : run2Cfg.BuiltWith sub2 ⟨true, none⟩ (SizedCreator cfg2 ⟨true, none⟩ sub2.popSize) LibOp :=
  { run2Cfg_built with
    creators := by
      intro create h
      simp only [sub2, List.mem_singleton] at h
      subst h
      exact .half _ _ _ _ _ ⟨rfl, rfl⟩ (by omega) (by decide) }

theorem run2Cfg_smooth : run2Cfg.Smooth (Legal cfg2) sub2 where
  popSize := by decide
  arities := by
    intro a ha
    simp [sub2, crossoverOp, mutationOp, Op.inPlace, tournament] at ha
    rcases ha with rfl | rfl | rfl <;> decide
  pick := fun t => ⟨0, t, rfl, by decide⟩
  select := by
    intro sel rest h
    simp only [sub2, List.cons.injEq] at h
    obtain ⟨rfl, -⟩ := h
    exact tournament_worksOn (by omega) (by simp [sub2])
  evaluate := fun _ _ => Total.pure
  calm := trivial

theorem run2_open : exLibRun.Open (PlainLegal cfg2) run2Cfg sub2 ⟨true, none⟩ where
  ready := .inl rfl
  given := by simp [exLibRun]
  fits := by simp [Cfg.Fits, run2Cfg]
  executor := rfl

end Typed

example := C80_typed Typed.accepted2 Typed.legal2 (by simp [Typed.f, Typed.g, Typed.h])
  (by simp [Typed.f, Typed.g, Typed.h, Typed.kvs]) (by simp)
  (by simp [Typed.kvs, Typed.i, Typed.x, Data.isNumber, Data.type, Ty.isNumber]) Typed.run2Cfg_sized Typed.run2Cfg_smooth
  Typed.run2_open

/-! ## C144: what the setup accepts can be created -/

/-- The creator returns a tree, whatever is drawn. -/
def Creates (create : Rand (List Node)) : Prop := ∀ tape, ∃ tree tape', create tape = (.ok tree, tape')

/-- **C144.** Sets of functions and terminals that the setup accepts, with at least one function, are sufficient to
create the initial trees, whatever the depths. -/
def C144_statement : Prop :=
  ∀ (fs : List Fn) (ts : TermInput) (root : Option Ty) (cfg : GP.Cfg), fs ≠ [] →
    handleInputTypes (some fs) (some ts) root none = .ok cfg → (∀ f ∈ fs, f.Legal) →
    ∀ q lo hi, lo ≤ hi → Creates (growCreate cfg q lo hi cfg.rootType) ∧ Creates (fullCreate cfg hi cfg.rootType)

/-- **C144 (partial).** Typed or not: if every type in use is the return type of a function and the type of a
terminal, trees of all depths are created, whatever is drawn.  Missing: the setup does not check this, see
`C144_refuted`. -/
theorem C144_partial {cfg : GP.Cfg} (hp : cfg.Plain) (q : ℚ) (lo hi : Nat) :
    Creates (growCreate cfg q lo hi cfg.rootType) ∧ Creates (fullCreate cfg hi cfg.rootType) :=
  ⟨growTree_works hp q _ lo hi _ hp.root, fullTree_works hp hi _ hp.root⟩

theorem createArgs_never {create : Option Ty → Rand (List Node)} {ts : List (Option Ty)} {σ : Option Ty} (hσ : σ ∈ ts)
    (h : Post (create σ) fun _ => False) : Post (createArgs create ts) fun _ => False := by
  induction ts with
  | nil => simp at hσ
  | cons t ts ih =>
    unfold createArgs
    rcases List.mem_cons.1 hσ with rfl | hσ
    · exact Post.bind h fun _ h => h.elim
    · exact Post.bind Post.trivial fun _ _ => Post.bind (ih hσ) fun _ h => h.elim

/-- **C144, sets that cannot grow.** If each function of the root type takes an argument of a type that no function
returns, no tree of depth two or more can be created: the full method with `max_depth >= 2` and the grow method with
`min_depth >= 2` never return. -/
theorem C144_never {cfg : GP.Cfg}
    (h : ∀ f ∈ cfg.functionSet, f.ret = cfg.rootType → ∃ σ ∈ f.params, ∀ g ∈ cfg.functionSet, g.ret ≠ σ)
    (q : ℚ) {lo hi : Nat} (tape : Tape) :
    (2 ≤ hi → ∀ tree tape', fullCreate cfg hi cfg.rootType tape ≠ (.ok tree, tape')) ∧
    (2 ≤ lo → ∀ tree tape', growCreate cfg q lo hi cfg.rootType tape ≠ (.ok tree, tape')) := by
  constructor
  · intro hd
    obtain ⟨k, rfl⟩ := Nat.exists_eq_add_of_le' hd
    have hin : ∀ σ, (∀ g ∈ cfg.functionSet, g.ret ≠ σ) → Post (fullTree cfg (k + 1) σ) fun _ => False := by
      intro σ hσ
      unfold fullTree
      refine Post.bind (randomFunction_post cfg σ) fun r hr => ?_
      refine Post.bind assertNode_post fun n hn => ?_
      obtain ⟨f, hf, -, e, -⟩ := hr n hn
      exact absurd e (hσ f hf)
    have hout : Post (fullTree cfg (k + 2) cfg.rootType) fun _ => False := by
      rw [fullTree]
      refine Post.bind (randomFunction_post cfg _) fun r hr => ?_
      refine Post.bind assertNode_post fun n hn => ?_
      obtain ⟨f, hf, rfl, e, hl⟩ := hr n hn
      obtain ⟨σ, hσ, hno⟩ := h f hf e
      refine Post.bind (createArgs_never (σ := σ) ?_ (hin σ hno)) fun _ h => h.elim
      rwa [getFuncTypes_legal hl, List.dropLast_concat]
    exact fun tree tape' hrun => hout tape tree tape' hrun
  · intro hd
    obtain ⟨k, rfl⟩ := Nat.exists_eq_add_of_le' hd
    obtain ⟨fuel, hfuel⟩ : ∃ fuel, max (k + 2) hi = fuel + 2 := ⟨max (k + 2) hi - 2, by omega⟩
    have hin : ∀ rem σ, (∀ g ∈ cfg.functionSet, g.ret ≠ σ) →
        Post (growTree cfg q (fuel + 1) (k + 2 - 1) rem σ) fun _ => False := by
      intro rem σ hσ
      unfold growTree
      rw [if_pos (by omega)]
      refine Post.bind (Post.pure (Q := fun b => b = true) rfl) fun b hb => ?_
      rw [if_pos hb]
      refine Post.bind (randomFunction_post cfg σ) fun r hr => ?_
      refine Post.bind assertNode_post fun n hn => ?_
      obtain ⟨f, hf, -, e, -⟩ := hr n hn
      exact absurd e (hσ f hf)
    have hout : Post (growTree cfg q (fuel + 2) (k + 2) hi cfg.rootType) fun _ => False := by
      rw [growTree, if_pos (by omega)]
      refine Post.bind (Post.pure (Q := fun b => b = true) rfl) fun b hb => ?_
      rw [if_pos hb]
      refine Post.bind (randomFunction_post cfg _) fun r hr => ?_
      refine Post.bind assertNode_post fun n hn => ?_
      obtain ⟨f, hf, rfl, e, hl⟩ := hr n hn
      obtain ⟨σ, hσ, hno⟩ := h f hf e
      refine Post.bind (createArgs_never (σ := σ) ?_ (hin _ σ hno)) fun _ h => h.elim
      rwa [childTypes_legal hl]
    exact fun tree tape' hrun => hout tape tree tape' (by
      unfold growCreate at hrun
      rwa [hfuel] at hrun)

namespace Typed

/-- `positive(x: float) -> bool` -/
def positive : Fn := ⟨7, [some .float], some .bool⟩

/-- Whether a float is positive: `function_set=[positive]`, `terminal_set={'x': float}`, `root_type=bool`. -/
def cfgPositive : GP.Cfg := ⟨[positive], [(x, some .float)], none, some .bool⟩

theorem positive_accepted :
    handleInputTypes (some [positive]) (some (.dict [(x, some .float)])) (some .bool) none = .ok cfgPositive := by
  simp [handleInputTypes, positive, getReturnType, Cfg.ercType, getFuncTypes, Fn.hints, cfgPositive]

theorem positive_stuck : ∀ f ∈ cfgPositive.functionSet, f.ret = cfgPositive.rootType →
    ∃ σ ∈ f.params, ∀ g ∈ cfgPositive.functionSet, g.ret ≠ σ := by
  simp [cfgPositive, positive]

end Typed

/-- **C144, refuted.** The setup accepts `positive(x: float) -> bool` with one variable of type float and root type
bool, but with the default depths no tree can be created: the creators raise for every seed. -/
theorem C144_refuted : ∃ (fs : List Fn) (ts : TermInput) (root : Option Ty) (cfg : GP.Cfg), fs ≠ [] ∧
    handleInputTypes (some fs) (some ts) root none = .ok cfg ∧ (∀ f ∈ fs, f.Legal) ∧
    ∀ q tape tree tape', fullCreate cfg 4 cfg.rootType tape ≠ (.ok tree, tape') ∧
      growCreate cfg q 2 4 cfg.rootType tape ≠ (.ok tree, tape') :=
  ⟨_, _, _, Typed.cfgPositive, by simp, Typed.positive_accepted, by simp [Typed.positive, Fn.Legal],
    fun q tape tree tape' => ⟨(C144_never Typed.positive_stuck q (lo := 2) (hi := 4) tape).1 (by omega) tree tape',
      (C144_never Typed.positive_stuck q (lo := 2) (hi := 4) tape).2 (by omega) tree tape'⟩⟩

theorem C144_statement_refuted : ¬ C144_statement := by
  intro h
  obtain ⟨fs, ts, root, cfg, h1, h2, h3, h4⟩ := C144_refuted
  obtain ⟨tree, tape', hrun⟩ := (h fs ts root cfg h1 h2 h3 0 2 4 (by omega)).2 fun _ => 0
  exact (h4 0 _ tree tape').1 hrun

example := C144_partial Typed.plain2 (1 / 2) 2 4

/-- A tree of the sample configuration. -/
example : (fullCreate Typed.cfg2 1 (some .float) fun _ => 0).1.toOption = some [.func Typed.f, .term Typed.i (some .int), .term Typed.x (some .float)] := by
  decide +kernel

end Verif.GP
