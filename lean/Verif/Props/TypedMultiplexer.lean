import Verif.Model.TypedMultiplexer
import Verif.Props.Multiplexer
import Verif.Props.TypedTotal

/-! # C171: the typed multiplexer example -/

namespace Verif.TypedMux
open PyM Evo Verif.Examples

/-- What the tree returns for the truth values `b`. -/
def onBits (i : GP.Ind) (b : Nat → Bool) : Except Err Bool := GP.execute scalar scalarLit i.cfg i.tree (bits b)

/-- The output of a multiplexer: the input the three select lines point to. -/
def muxOut (b : Nat → Bool) : Bool := b (3 + (4 * (b 0).toNat + 2 * (b 1).toNat + (b 2).toNat))

/-- The tree is a multiplexer: for all inputs it returns the right one. -/
def Multiplexes (i : GP.Ind) : Prop := ∀ b, onBits i b = .ok (muxOut b)

/-- The tree returns the right input for the inputs of row `r`. -/
def RightOn (i : GP.Ind) (r : Row) : Prop := onBits i (fun k => column k r) = .ok (muxOut fun k => column k r)

open Classical in
/-- The number of combinations of inputs for which the tree does not return the right one. -/
noncomputable def errors (i : GP.Ind) : Nat := (Finset.univ.filter fun r => ¬ RightOn i r).card

theorem muxOut_column (r : Row) : muxOut (fun k => column k r) = output r := by
  have := C141_target (column 0 r) (column 1 r) (column 2 r) (fun k => column (3 + k.val) r)
  unfold output muxOut
  refine Eq.trans ?_ this.symm
  dsimp only
  cases column 0 r <;> cases column 1 r <;> cases column 2 r <;> rfl

mutual
theorem denote_rows {leaf : GP.Val → Row → Bool} {leafAt : Row → GP.Val → Bool} (hl : ∀ v r, leaf v r = leafAt r v) :
    ∀ p : GP.Prog, p.Ok → (∀ f ∈ p.fns, f ∈ gp.functionSet) →
    ∃ c, p.denote sem leaf = .ok c ∧ ∀ r, p.denote scalar (leafAt r) = .ok (c r)
  | .term v ty, _, _ => ⟨leaf v, rfl, fun r => by rw [GP.Prog.denote, hl]⟩
  | .app f args, hok, hf => by
    obtain ⟨cs, h1, h2, h3⟩ := denoteAll_rows hl args hok.2 fun g hg => hf g (by simp [GP.Prog.fns, hg])
    have hlen : cs.length = f.params.length := h2.trans hok.1
    have hmem := hf f (by simp [GP.Prog.fns])
    simp only [gp, List.mem_cons, List.not_mem_nil, or_false] at hmem
    simp only [GP.Prog.denote, h1, h3, bind, Except.bind]
    rcases hmem with rfl | rfl | rfl | rfl
    · match cs, hlen with
      | [x, y], _ => exact ⟨_, rfl, fun r => rfl⟩
    · match cs, hlen with
      | [x, y], _ => exact ⟨_, rfl, fun r => rfl⟩
    · match cs, hlen with
      | [x], _ => exact ⟨_, rfl, fun r => rfl⟩
    · match cs, hlen with
      | [x, y, z], _ => exact ⟨_, rfl, fun r => rfl⟩
theorem denoteAll_rows {leaf : GP.Val → Row → Bool} {leafAt : Row → GP.Val → Bool} (hl : ∀ v r, leaf v r = leafAt r v) :
    ∀ ps : List GP.Prog, GP.Prog.OkAll ps → (∀ f ∈ GP.Prog.fnsAll ps, f ∈ gp.functionSet) →
    ∃ cs, GP.Prog.denoteAll sem leaf ps = .ok cs ∧ cs.length = ps.length ∧
      ∀ r, GP.Prog.denoteAll scalar (leafAt r) ps = .ok (cs.map (· r))
  | [], _, _ => ⟨[], rfl, rfl, fun _ => rfl⟩
  | p :: ps, hok, hf => by
    obtain ⟨c, h1, h2⟩ := denote_rows hl p hok.1 fun g hg => hf g (by simp [GP.Prog.fnsAll, hg])
    obtain ⟨cs, h3, h4, h5⟩ := denoteAll_rows hl ps hok.2 fun g hg => hf g (by simp [GP.Prog.fnsAll, hg])
    exact ⟨c :: cs, by simp [GP.Prog.denoteAll, h1, h3, bind, Except.bind], by simp [h4],
      fun r => by simp [GP.Prog.denoteAll, h2, h5, bind, Except.bind]⟩
end

theorem kwFun_rows (names : List (String × Nat)) (s : String) (r : Row) :
    (GP.kwFun (names.map fun p => (p.1, column p.2)) s).map (fun c => c r) =
      GP.kwFun (names.map fun p => (p.1, column p.2 r)) s := by
  induction names with
  | nil => rfl
  | cons p names ih =>
    simp only [GP.kwFun, List.map_cons, List.find?_cons] at ih ⊢
    by_cases h : p.1 = s
    · simp [h]
    · simpa [h] using ih

theorem leaf_rows (v : GP.Val) (r : Row) : GP.leafVal (fun v _ => scalarLit v) (GP.kwFun kwargs) v r =
    GP.leafVal scalarLit (GP.kwFun (bits fun k => column k r)) v := by
  unfold GP.leafVal
  cases hd : v.data with
  | str s =>
    have := kwFun_rows muxNames.zipIdx s r
    dsimp only
    unfold kwargs bits
    rw [← this]
    cases GP.kwFun _ s <;> rfl
  | _ => rfl

theorem kwargs_fit {V : Type} (g : Nat → V) :
    (∀ kx ∈ muxNames.zipIdx.map (fun p => (p.1, g p.2)), ∃ kv ∈ gp.terminalSet, kv.1.data = .str kx.1) ∧
      ∀ kv ∈ gp.terminalSet, ∃ kx ∈ muxNames.zipIdx.map (fun p => (p.1, g p.2)), kv.1.data = .str kx.1 := by
  constructor
  · intro kx hkx
    obtain ⟨p, hp, rfl⟩ := List.mem_map.1 hkx
    exact ⟨_, List.mem_map_of_mem hp, rfl⟩
  · intro kv hkv
    obtain ⟨p, hp, rfl⟩ := List.mem_map.1 hkv
    exact ⟨_, List.mem_map_of_mem hp, rfl⟩

/-- Only the eleven named inputs matter. -/
theorem onBits_congr {i : GP.Ind} {b b' : Nat → Bool} (h : ∀ k < 11, b k = b' k) : onBits i b = onBits i b' := by
  have e : bits b = bits b' := by
    simp only [bits, muxNames, List.zipIdx_cons, List.zipIdx_nil, List.map_cons, List.map_nil]
    simp [h 0, h 1, h 2, h 3, h 4, h 5, h 6, h 7, h 8, h 9, h 10]
  unfold onBits
  rw [e]

theorem muxOut_congr {b b' : Nat → Bool} (h : ∀ k < 11, b k = b' k) : muxOut b = muxOut b' := by
  unfold muxOut
  rw [h 0 (by omega), h 1 (by omega), h 2 (by omega)]
  apply h
  have := Bool.toNat_le (b' 0)
  have := Bool.toNat_le (b' 1)
  have := Bool.toNat_le (b' 2)
  omega

/-- Every combination of inputs is a row of the table. -/
theorem exists_row (b : Nat → Bool) : ∃ r : Row, ∀ k < 11, b k = column k r := by
  obtain ⟨r, h, -⟩ := C141_table fun k => b k
  exact ⟨r, fun k hk => (h ⟨k, hk⟩).symm⟩

/-- What a legal tree is, column by column and row by row. -/
theorem columns {i : GP.Ind} (h : GP.Legal gp i) : ∃ c : Row → Bool,
    GP.execute sem (fun v _ => scalarLit v) i.cfg i.tree kwargs = .ok c ∧
      ∀ r, onBits i (fun k => column k r) = .ok (c r) := by
  obtain ⟨hcfg, p, htree, hok, hfns⟩ := h
  rw [hcfg] at hfns
  obtain ⟨c, h1, h2⟩ := denote_rows leaf_rows p hok hfns
  refine ⟨c, ?_, fun r => ?_⟩
  · rw [hcfg, htree, (GP.C14_execute_kwargs_partial sem (fun v _ => scalarLit v) gp p hok kwargs).1
      (kwargs_fit fun k (r : Row) => column k r), h1]
  · unfold onBits
    rw [hcfg, htree, (GP.C14_execute_kwargs_partial scalar scalarLit gp p hok (bits fun k => column k r)).1
      (kwargs_fit fun k => column k r), h2]

/-- **C171.** The trees of the example can be executed with all truth values, and return a truth value. -/
theorem C171_executes {i : GP.Ind} (h : GP.Legal gp i) (b : Nat → Bool) : ∃ v, onBits i b = .ok v := by
  obtain ⟨c, -, h2⟩ := columns h
  obtain ⟨r, hr⟩ := exists_row b
  exact ⟨c r, by rw [onBits_congr hr, h2]⟩

/-- **C171.** The fitness of a tree over the functions of the example is never undefined, and it is the proportion of the
combinations of inputs for which the tree returns the right one. -/
theorem C171_fitness {i : GP.Ind} (h : GP.Legal gp i) : fitness i = .ok (1 - errors i / 2048) := by
  obtain ⟨c, hcol, hrow⟩ := columns h
  have hright : ∀ r, RightOn i r ↔ c r = output r := by
    intro r
    unfold RightOn
    rw [hrow, muxOut_column, Except.ok.injEq]
  have hcount : (right c).length + errors i = 2048 := filter_finRange hright
  unfold fitness
  rw [hcol]
  simp only [bind, Except.bind, Except.ok.injEq]
  have : ((right c).length : ℚ) + errors i = 2048 := by exact_mod_cast hcount
  rw [eq_sub_iff_add_eq, ← add_div, this]
  norm_num

theorem errors_zero (i : GP.Ind) : errors i = 0 ↔ Multiplexes i := by
  classical
  unfold errors Multiplexes
  rw [Finset.card_eq_zero, Finset.filter_eq_empty_iff]
  constructor
  · intro h b
    obtain ⟨r, hr⟩ := exists_row b
    have := h (Finset.mem_univ r)
    rw [not_not] at this
    unfold RightOn at this
    rw [onBits_congr hr, this, muxOut_congr hr]
  · intro h r _
    simp [RightOn, h]

theorem errors_le (i : GP.Ind) : 0 ≤ (errors i : ℚ) ∧ (errors i : ℚ) ≤ 2048 := by
  have : errors i ≤ 2048 := by
    classical
    unfold errors
    refine (Finset.card_le_univ _).trans ?_
    simp
  generalize errors i = k at this
  exact ⟨by positivity, by exact_mod_cast this⟩

attribute [irreducible] errors

/-- **C171.** The fitness lies between 0 and 1, and is 1 exactly for multiplexers. -/
theorem C171_perfect {i : GP.Ind} (h : GP.Legal gp i) {q : ℚ} (hq : fitness i = .ok q) :
    0 ≤ q ∧ q ≤ 1 ∧ (q = 1 ↔ Multiplexes i) := by
  rw [C171_fitness h, Except.ok.injEq] at hq
  subst hq
  obtain ⟨h1, h2⟩ := errors_le i
  refine ⟨by linarith, by linarith, ?_⟩
  rw [← errors_zero]
  generalize errors i = k
  rw [sub_eq_self, div_eq_zero_iff]
  simp

/-! ## The run -/

variable {depth pop tour maxGen : Nat} {elite : Int} {pCross pMut bloat thr : ℚ} {stream : Nat → Tape} {sched : Nat → Nat → List Nat}

/-- **C171.** The setup accepts the function set, the dictionary of terminals and the root type. -/
theorem C171_setup : GP.handleInputTypes (some [andB, orB, notB, iteB]) (some (.dict terminals)) (some .bool) none = .ok gp := by
  rfl

theorem gp_plain : gp.Plain := by
  refine GP.Cfg.plain_of_setup C171_setup ?_ ?_ ?_ (by simp) ?_
  · intro f hf
    simp only [List.mem_cons, List.not_mem_nil, or_false] at hf
    rcases hf with rfl | rfl | rfl | rfl <;> simp [andB, orB, notB, iteB, GP.Fn.Legal]
  · simp [andB, orB, notB, iteB]
  · intro f hf
    refine .inl ⟨_, List.mem_map_of_mem (show ("s0", 0) ∈ muxNames.zipIdx by simp [muxNames]), ?_⟩
    simp only [List.mem_cons, List.not_mem_nil, or_false] at hf
    rcases hf with rfl | rfl | rfl | rfl <;> rfl
  · intro kv hkv hn
    obtain ⟨p, -, rfl⟩ := List.mem_map.1 hkv
    cases hn

theorem built (hs : ∀ gen k, (sched gen k).Perm (List.range k)) :
    (cfg depth pop tour elite pCross pMut bloat thr maxGen stream sched).BuiltWith
      (sub depth pop tour elite pCross pMut bloat) ⟨true, some bloat⟩ (GP.SizedCreator gp ⟨true, some bloat⟩ pop) GP.LibOp where
  subs := rfl
  dir := rfl
  creators := by
    intro create h
    simp only [sub, List.mem_singleton] at h
    subst h
    exact .full _ _ _ ⟨rfl, rfl⟩
  sels := ⟨_, _, rfl, tournament_good _ _, tournament_fills _ _⟩
  ops := by
    intro o ho
    simp only [sub, List.mem_cons, List.not_mem_nil, or_false] at ho
    rcases ho with rfl | rfl
    · exact .crossover _ _ _
    · exact .mutation _ _ _ _
  sched := hs
  map := rfl

theorem legal_built (hs : ∀ gen k, (sched gen k).Perm (List.range k)) :
    (cfg depth pop tour elite pCross pMut bloat thr maxGen stream sched).BuiltWith
      (sub depth pop tour elite pCross pMut bloat) ⟨true, some bloat⟩ (GP.LibCreator gp ⟨true, some bloat⟩) GP.LibOp :=
  have h := built (depth := depth) (pop := pop) (tour := tour) (elite := elite) (pCross := pCross) (pMut := pMut)
    (bloat := bloat) (thr := thr) (maxGen := maxGen) (stream := stream) hs
  { h with creators := fun create hc => (h.creators create hc).lib }

/-- **C171.** The run returns, if the population size is even and positive and the tournaments are not larger than the
population. -/
theorem C171_returns (hpop : 0 < pop) (heven : 2 ∣ pop) (htour : 0 < tour) (hle : tour ≤ pop)
    (hs : ∀ gen k, (sched gen k).Perm (List.range k)) {s : Run GP.Ind Unit} (hf : Fresh s) :
    ∃ s', evolve (cfg depth pop tour elite pCross pMut bloat thr maxGen stream sched) s = (.ok (), s') := by
  obtain ⟨s', h, -⟩ := GP.C80_programs gp_plain (built hs) (K := fun _ => True)
    { popSize := hpop
      arities := by
        intro a ha
        simp [sub, GP.crossoverOp, GP.mutationOp, Op.inPlace, tournament] at ha
        rcases ha with rfl | rfl | rfl
        · simp
        · exact ⟨by simp, heven⟩
        · simp
      pick := fun t => ⟨0, t, rfl, Nat.one_pos⟩
      select := by
        intro sel rest h
        simp only [sub, List.cons.injEq] at h
        obtain ⟨rfl, -⟩ := h
        exact tournament_worksOn htour hle
      evaluate := by
        intro i hi t
        exact ⟨_, t, congrArg (fun r => (r, t)) (C171_fitness hi)⟩
      calm := threshold_calm _ _ }
    (s := s)
    { ready := .inl hf.inds
      given := by simp [hf.inds]
      fits := by simp [Cfg.Fits, cfg, hf.checkers]
      executor := hf.shutdown }
  exact ⟨s', h⟩

/-- A state from which the example can be run: a new algorithm object, either without individuals or with given ones, which
are trees over the functions of the example and have new fitness objects. -/
structure Begins (bloat : ℚ) (s : Run GP.Ind Unit) : Prop where
  ready : s.Ready ⟨true, some bloat⟩
  starts : s.Starts (GP.Legal gp)
  genNum : s.genNum = 0
  checkers : s.checkers = [()]

/-- C171: a run that ends before its last generation ends with a multiplexer. -/
def C171_statement : Prop :=
  ∀ (depth pop tour maxGen : Nat) (elite : Int) (pCross pMut bloat : ℚ) (stream : Nat → Tape) (sched : Nat → Nat → List Nat)
    (s s' : Run GP.Ind Unit), (∀ gen k, (sched gen k).Perm (List.range k)) → Begins bloat s →
    evolve (cfg depth pop tour elite pCross pMut bloat (1 / 100) maxGen stream sched) s = (.ok (), s') → s'.genNum < maxGen →
    ∃ b i, s'.bestOfRun = some b ∧ s'.w.heap[b]? = some i ∧ Multiplexes i.genome

/-- The best individual is a tree of the example; if the run with the threshold `thr` ended early, it is wrong for at most
`2048 * thr` inputs. -/
theorem early (hs : ∀ gen k, (sched gen k).Perm (List.range k)) {s s' : Run GP.Ind Unit} (hb : Begins bloat s)
    (h : evolve (cfg depth pop tour elite pCross pMut bloat thr maxGen stream sched) s = (.ok (), s')) :
    ∃ b i, s'.bestOfRun = some b ∧ s'.w.heap[b]? = some i ∧ GP.Legal gp i.genome ∧
      (s'.genNum < maxGen → (errors i.genome : ℚ) ≤ thr * 2048) := by
  have hbuilt := legal_built (depth := depth) (pop := pop) (tour := tour) (elite := elite) (pCross := pCross) (pMut := pMut)
    (bloat := bloat) (thr := thr) (maxGen := maxGen) (stream := stream) hs
  have hord := hbuilt.ordinary (fun _ h => h.good) (fun _ h => h.good)
  have hcomp : (sub depth pop tour elite pCross pMut bloat).Computes fitness := by
    intro v t
    simp [sub, PyM.ofExcept]
  have hall := GP.C75_programs_legal hbuilt hb.ready hb.starts _ _ h
  obtain ⟨b, i, q, h1, h2, h3, h4, -⟩ := best_objective hord hcomp hb.ready hb.starts.log h
  obtain ⟨e, he, h10, h11⟩ := evolve_last h
  obtain ⟨j, h5, h6⟩ := (hall e he).2.1 b (h11.trans h1) b (by simp)
  rw [h10, h2, Option.some.injEq] at h5
  subst h5
  refine ⟨b, i, h1, h2, h6, fun hearly => ?_⟩
  obtain ⟨b', x, h7, ⟨i', h8, h9, -⟩, h12⟩ := C109_early rfl hb.starts.log hb.genNum hb.checkers h hearly
  rw [h1, Option.some.injEq] at h7
  subst h7
  rw [h2, Option.some.injEq] at h8
  subst h8
  rw [h4, FVal.num.injEq] at h9
  subst h9
  rw [C171_fitness h6, Except.ok.injEq] at h3
  subst h3
  generalize errors i.genome = k at h12 ⊢
  rw [sub_sub_cancel_left, abs_neg, abs_of_nonneg (by positivity)] at h12
  linarith

/-- **C171 (partial).** After the run the best tree can be executed with all truth values; if the run ended before its last
generation, the tree is wrong for at most 20 of the 2048 combinations.  What is missing: that it is right for all of
them. -/
theorem C171_partial (hs : ∀ gen k, (sched gen k).Perm (List.range k)) {s s' : Run GP.Ind Unit} (hb : Begins bloat s)
    (h : evolve (cfg depth pop tour elite pCross pMut bloat (1 / 100) maxGen stream sched) s = (.ok (), s')) :
    ∃ b i, s'.bestOfRun = some b ∧ s'.w.heap[b]? = some i ∧ (∀ v, ∃ x, onBits i.genome v = .ok x) ∧
      (s'.genNum < maxGen → errors i.genome ≤ 20) := by
  obtain ⟨b, i, h1, h2, h3, h4⟩ := early hs hb h
  refine ⟨b, i, h1, h2, C171_executes h3, fun hearly => ?_⟩
  have h4 := h4 hearly
  generalize errors i.genome = k at h4 ⊢
  by_contra hk
  have : (21 : ℚ) ≤ k := by exact_mod_cast Nat.lt_of_not_le hk
  linarith

/-- C171 with a threshold below 1/2048: the run ends early only with a multiplexer. -/
theorem C171_sharp_partial (hthr : thr * 2048 < 1) (hs : ∀ gen k, (sched gen k).Perm (List.range k)) {s s' : Run GP.Ind Unit}
    (hb : Begins bloat s)
    (h : evolve (cfg depth pop tour elite pCross pMut bloat thr maxGen stream sched) s = (.ok (), s')) (hearly : s'.genNum < maxGen) :
    ∃ b i, s'.bestOfRun = some b ∧ s'.w.heap[b]? = some i ∧ Multiplexes i.genome := by
  obtain ⟨b, i, h1, h2, -, h3⟩ := early hs hb h
  refine ⟨b, i, h1, h2, (errors_zero _).1 ?_⟩
  have h3 := h3 hearly
  generalize errors i.genome = k at h3 ⊢
  have : (k : ℚ) < 1 := by linarith
  exact Nat.lt_one_iff.1 (by exact_mod_cast this)

/-! ## A tree that is wrong for eight combinations, and the run that ends with it -/

/-- The terminal with the given position. -/
def var (k : Nat) : GP.Prog := .term ⟨k, .str (muxNames.getD k "")⟩ (some .bool)

/-- A multiplexer of the inputs `d0`, …, `d6` and `last`, by `if_then_else3bools`. -/
def muxOf (last : GP.Prog) : GP.Prog :=
  .app iteB [var 0,
    .app iteB [var 1, .app iteB [var 2, last, var 9], .app iteB [var 2, var 8, var 7]],
    .app iteB [var 1, .app iteB [var 2, var 6, var 5], .app iteB [var 2, var 4, var 3]]]

/-- It has `d7 and (d0 or (d1 or (d2 or d3)))` in the place of `d7`. -/
def near : GP.Ind := ⟨gp, (muxOf (.app andB [var 10, .app orB [var 3, .app orB [var 4, .app orB [var 5, var 6]]]])).flatten⟩

theorem near_legal : GP.Legal gp near := by
  refine ⟨rfl, _, rfl, ?_, ?_⟩
  · simp [muxOf, var, GP.Prog.Ok, GP.Prog.OkAll, iteB, andB, orB]
  · simp [muxOf, var, GP.Prog.fns, GP.Prog.fnsAll, near, gp]

/-- The inputs of row 1793. -/
def badBits (k : Nat) : Bool := Nat.testBit 1793 (10 - k)

/-- The multiplexer. -/
def full : GP.Ind := ⟨gp, (muxOf (var 10)).flatten⟩

/-- The fitness of the multiplexer and of the wrong tree. -/
theorem fitness_examples : fitness full = .ok 1 ∧ fitness near = .ok (2040 / 2048) := by decide +kernel

def exInd (id : Nat) : Ind GP.Ind :=
  { id := id, gen := 0, genome := near, fit := { simpleFit true with bloat := some (1 / 100000) }, clonedFrom := 0,
    selectedBy := [], appliedOps := [], updateParents := false, parents := [] }

/-- A new algorithm object with two given trees. -/
def exRun : Run GP.Ind Unit :=
  ⟨⟨[exInd 0, exInd 1], 2, fun k => k⟩, [some [0, 1]], none, none, none, 0, 0, 0, none, [()], false, []⟩

def exCfg : Cfg GP.Ind Unit :=
  cfg 4 2 2 0 (4 / 5) (1 / 10) (1 / 100000) (1 / 100) 40 (fun seed k => seed + k) fun _ k => List.range k

theorem exRun_begins : Begins (1 / 100000) exRun where
  ready := .inr ⟨[0, 1], rfl, by decide, by decide +kernel⟩
  starts := by
    refine ⟨?_, rfl, rfl, rfl⟩
    intro is his
    simp only [exRun, List.mem_singleton, Option.some.injEq] at his
    subst his
    intro r hr
    simp only [List.mem_cons, List.not_mem_nil, or_false] at hr
    rcases hr with rfl | rfl
    · exact ⟨_, rfl, near_legal⟩
    · exact ⟨_, rfl, near_legal⟩
  genNum := rfl
  checkers := rfl

/-- The run ends with generation 0. -/
theorem exCfg_ends : (evolve exCfg exRun).1 = .ok () ∧ (evolve exCfg exRun).2.genNum = 0 ∧
    (evolve exCfg exRun).2.bestOfRun = some 0 ∧
    ((evolve exCfg exRun).2.w.heap[0]?).map (fun i => onBits i.genome badBits) = some (.ok false) := by decide +kernel

/-- **C171 is false**: a run ends early with a tree that is wrong for some inputs. -/
theorem C171_refuted : ¬ C171_statement := by
  intro h
  obtain ⟨h1, h2, h3, h4⟩ := exCfg_ends
  obtain ⟨b, i, h5, h6, h7⟩ := h 4 2 2 40 0 (4 / 5) (1 / 10) (1 / 100000) _ _ exRun _ (fun _ k => .refl (List.range k)) exRun_begins
    (ran (m := evolve exCfg) h1) (by rw [h2]; omega)
  rw [h3, Option.some.injEq] at h5
  subst h5
  rw [h6, Option.map_some, Option.some.injEq] at h4
  have h8 := h7 badBits
  have h9 : muxOut badBits = true := by decide +kernel
  rw [h4, h9] at h8
  cases h8

example := C171_partial (fun _ k => .refl (List.range k)) exRun_begins (ran (m := evolve exCfg) exCfg_ends.1)

example := C171_perfect near_legal fitness_examples.2

/-- The run of the script itself. -/
example (stream : Nat → Tape) (s : Run GP.Ind Unit) (hf : Fresh s) :
    ∃ s', evolve (cfg 4 40 7 0 (4 / 5) (1 / 10) (1 / 100000) (1 / 100) 40 stream fun _ k => List.range k) s = (.ok (), s') ∧
      ∃ b i, s'.bestOfRun = some b ∧ s'.w.heap[b]? = some i ∧ (∀ v, ∃ x, onBits i.genome v = .ok x) ∧
        (s'.genNum < 40 → errors i.genome ≤ 20) := by
  obtain ⟨s', h⟩ := C171_returns (depth := 4) (pop := 40) (tour := 7) (elite := 0) (pCross := 4 / 5) (pMut := 1 / 10)
    (bloat := 1 / 100000) (thr := 1 / 100) (maxGen := 40) (stream := stream) (by omega) ⟨20, rfl⟩ (by omega) (by omega)
    (fun _ k => .refl (List.range k)) hf
  exact ⟨s', h, C171_partial (fun _ k => .refl (List.range k))
    ⟨.inl hf.inds, ⟨by simp [hf.inds], hf.bestOfRun, hf.bestOfGen, hf.log⟩, hf.genNum, hf.checkers⟩ h⟩

end Verif.TypedMux
