import Verif.Model.Examples
import Verif.Props.OneMax
import Verif.Props.GPExec
import Mathlib.Data.Fintype.Pi

/-! # C141: the multiplexer example -/

namespace Verif.Examples
open PyM Evo

/-! ## The truth table -/

/-- **C141.** The target function returns the input the select lines point to. -/
theorem C141_target (s0 s1 s2 : Bool) (d : Fin 8 → Bool) :
    target s0 s1 s2 (d 0) (d 1) (d 2) (d 3) (d 4) (d 5) (d 6) (d 7) =
      d (Fin.ofNat 8 (4 * s0.toNat + 2 * s1.toNat + s2.toNat)) := by
  cases s0 <;> cases s1 <;> cases s2 <;> simp [target] <;> rfl

/-- **C141.** The table has exactly one row for every combination of inputs. -/
theorem C141_table (b : Fin 11 → Bool) : ∃! r : Row, ∀ k : Fin 11, column k r = b k := by
  have hinj : Function.Injective fun (r : Row) (k : Fin 11) => column k r := by
    intro r r' h
    apply Fin.ext
    apply Nat.eq_of_testBit_eq
    intro i
    rcases Nat.lt_or_ge i 11 with hi | hi
    · have := congrFun h ⟨10 - i, by omega⟩
      simp only [column] at this
      rwa [show 10 - (10 - i) = i by omega] at this
    · have hp : 2 ^ 11 ≤ 2 ^ i := Nat.pow_le_pow_right (by omega) hi
      rw [Nat.testBit_lt_two_pow (by have := r.isLt; omega), Nat.testBit_lt_two_pow (by have := r'.isLt; omega)]
  have hbij := (Fintype.bijective_iff_injective_and_card _).2 ⟨hinj, by simp⟩
  obtain ⟨r, hr⟩ := hbij.2 b
  exact ⟨r, fun k => congrFun hr k, fun r' hr' => hinj (by rw [hr]; exact funext hr')⟩

/-! ## The fitness -/

/-- What the tree returns for the inputs of row `r`. -/
def onRow (i : GP.Ind) (r : Row) : Except Err ℤ := GP.execute muxScalar muxScalarLit i.cfg i.tree (rowKwargs r)

/-- The tree returns the right bit for the inputs of row `r`. -/
def RightOn (i : GP.Ind) (r : Row) : Prop := onRow i r = .ok (bif output r then 1 else 0)

/-- The tree is a multiplexer: for all inputs it returns the right bit. -/
def IsMux (i : GP.Ind) : Prop := ∀ r, RightOn i r

open Classical in
/-- The number of combinations of inputs for which the tree does not return the right bit. -/
noncomputable def wrong (i : GP.Ind) : Nat := (Finset.univ.filter fun r => ¬ RightOn i r).card

mutual
theorem denote_rows {leaf : GP.Val → Row → ℤ} {leafAt : Row → GP.Val → ℤ} (hl : ∀ v r, leaf v r = leafAt r v) :
    ∀ p : GP.Prog, p.Ok → (∀ f ∈ p.fns, f ∈ muxGP.functionSet) →
    ∃ c, p.denote muxSem leaf = .ok c ∧ ∀ r, p.denote muxScalar (leafAt r) = .ok (c r)
  | .term v ty, _, _ => ⟨leaf v, rfl, fun r => by rw [GP.Prog.denote, hl]⟩
  | .app f args, hok, hf => by
    obtain ⟨cs, h1, h2, h3⟩ := denoteAll_rows hl args hok.2 fun g hg => hf g (by simp [GP.Prog.fns, hg])
    have hlen : cs.length = f.params.length := h2.trans hok.1
    have hmem := hf f (by simp [GP.Prog.fns])
    simp only [muxGP, List.mem_cons, List.not_mem_nil, or_false] at hmem
    simp only [GP.Prog.denote, h1, h3, bind, Except.bind]
    rcases hmem with rfl | rfl | rfl | rfl
    · match cs, hlen with
      | [x, y], _ => exact ⟨_, rfl, fun r => rfl⟩
    · match cs, hlen with
      | [x, y], _ => exact ⟨_, rfl, fun r => rfl⟩
    · match cs, hlen with
      | [x], _ => exact ⟨_, rfl, fun r => rfl⟩
    · match cs, hlen with
      | [x, y, z], _ => exact ⟨_, rfl, fun r => rfl⟩
theorem denoteAll_rows {leaf : GP.Val → Row → ℤ} {leafAt : Row → GP.Val → ℤ} (hl : ∀ v r, leaf v r = leafAt r v) :
    ∀ ps : List GP.Prog, GP.Prog.OkAll ps → (∀ f ∈ GP.Prog.fnsAll ps, f ∈ muxGP.functionSet) →
    ∃ cs, GP.Prog.denoteAll muxSem leaf ps = .ok cs ∧ cs.length = ps.length ∧
      ∀ r, GP.Prog.denoteAll muxScalar (leafAt r) ps = .ok (cs.map (· r))
  | [], _, _ => ⟨[], rfl, rfl, fun _ => rfl⟩
  | p :: ps, hok, hf => by
    obtain ⟨c, h1, h2⟩ := denote_rows hl p hok.1 fun g hg => hf g (by simp [GP.Prog.fnsAll, hg])
    obtain ⟨cs, h3, h4, h5⟩ := denoteAll_rows hl ps hok.2 fun g hg => hf g (by simp [GP.Prog.fnsAll, hg])
    exact ⟨c :: cs, by simp [GP.Prog.denoteAll, h1, h3, bind, Except.bind], by simp [h4],
      fun r => by simp [GP.Prog.denoteAll, h2, h5, bind, Except.bind]⟩
end

theorem kwFun_rows (names : List (String × Nat)) (s : String) (r : Row) :
    (GP.kwFun (names.map fun p => (p.1, fun r : Row => (bif column p.2 r then 1 else 0 : ℤ))) s).map (fun c => c r) =
      GP.kwFun (names.map fun p => (p.1, (bif column p.2 r then 1 else 0 : ℤ))) s := by
  induction names with
  | nil => rfl
  | cons p names ih =>
    simp only [GP.kwFun, List.map_cons, List.find?_cons] at ih ⊢
    by_cases h : p.1 = s
    · simp [h]
    · simpa [h] using ih

theorem leaf_rows (v : GP.Val) (r : Row) :
    GP.leafVal muxLit (GP.kwFun muxKwargs) v r = GP.leafVal muxScalarLit (GP.kwFun (rowKwargs r)) v := by
  unfold GP.leafVal
  have hlit : muxLit v r = muxScalarLit v := by
    unfold muxLit muxScalarLit
    cases v.data <;> rfl
  cases hd : v.data with
  | str s =>
    have := kwFun_rows muxNames.zipIdx s r
    dsimp only
    unfold muxKwargs rowKwargs
    rw [← this]
    cases GP.kwFun _ s <;> simp [hlit]
  | _ => exact hlit

theorem kwargs_fit {V : Type} (g : Nat → V) :
    (∀ kx ∈ muxNames.zipIdx.map (fun p => (p.1, g p.2)), ∃ kv ∈ muxGP.terminalSet, kv.1.data = .str kx.1) ∧
      ∀ kv ∈ muxGP.terminalSet, ∃ kx ∈ muxNames.zipIdx.map (fun p => (p.1, g p.2)), kv.1.data = .str kx.1 := by
  constructor
  · intro kx hkx
    obtain ⟨p, hp, rfl⟩ := List.mem_map.1 hkx
    exact ⟨_, List.mem_map_of_mem hp, rfl⟩
  · intro kv hkv
    obtain ⟨p, hp, rfl⟩ := List.mem_map.1 hkv
    exact ⟨_, List.mem_map_of_mem hp, rfl⟩

open Classical in
theorem filter_finRange {n : Nat} {P Q : Fin n → Prop} [DecidablePred P] (h : ∀ r, Q r ↔ P r) :
    ((List.finRange n).filter fun r => decide (P r)).length + (Finset.univ.filter fun r => ¬ Q r).card = n := by
  have e : ((List.finRange n).filter fun r => decide (P r)).length = (Finset.univ.filter Q).card := by
    rw [Finset.card_def, Finset.filter_val]
    show _ = Multiset.card (Multiset.filter _ (List.finRange n : Multiset (Fin n)))
    rw [Multiset.filter_coe, Multiset.coe_card]
    congr 1
    apply List.filter_congr
    intro r _
    simp [h]
  rw [e, Finset.card_filter_add_card_filter_not]
  simp

/-- **C141.** The fitness of a tree over the functions and terminals of the example is never undefined, and it is the
proportion of the combinations of inputs for which the tree returns the right bit. -/
theorem C141_fitness {i : GP.Ind} (h : GP.Legal muxGP i) : muxFitness i = .ok (1 - wrong i / 2048) := by
  obtain ⟨hcfg, p, htree, hok, hfns⟩ := h
  rw [hcfg] at hfns
  obtain ⟨c, h1, h2⟩ := denote_rows leaf_rows p hok hfns
  have hcol : GP.execute muxSem muxLit i.cfg i.tree muxKwargs = .ok c := by
    rw [hcfg, htree, (GP.C14_execute_kwargs_partial muxSem muxLit muxGP p hok muxKwargs).1
      (kwargs_fit fun k (r : Row) => (bif column k r then 1 else 0 : ℤ)), h1]
  have hrow : ∀ r, onRow i r = .ok (c r) := by
    intro r
    unfold onRow
    rw [hcfg, htree, (GP.C14_execute_kwargs_partial muxScalar muxScalarLit muxGP p hok (rowKwargs r)).1
      (kwargs_fit fun k => (bif column k r then 1 else 0 : ℤ)), h2]
  have hright : ∀ r, RightOn i r ↔ c r = bif output r then 1 else 0 := by
    intro r
    unfold RightOn
    rw [hrow, Except.ok.injEq]
  have hcount : (rightRows c).length + wrong i = 2048 := filter_finRange hright
  unfold muxFitness
  rw [hcol]
  simp only [bind, Except.bind, Except.ok.injEq]
  have : ((rightRows c).length : ℚ) + wrong i = 2048 := by exact_mod_cast hcount
  rw [eq_sub_iff_add_eq, ← add_div, this]
  norm_num

theorem wrong_zero (i : GP.Ind) : wrong i = 0 ↔ IsMux i := by
  classical
  unfold wrong IsMux
  rw [Finset.card_eq_zero, Finset.filter_eq_empty_iff]
  simp

theorem wrong_le (i : GP.Ind) : wrong i ≤ 2048 := by
  classical
  unfold wrong
  refine (Finset.card_le_univ _).trans ?_
  simp

theorem wrong_le_rat (i : GP.Ind) : 0 ≤ (wrong i : ℚ) ∧ (wrong i : ℚ) ≤ 2048 := by
  have := wrong_le i
  generalize wrong i = k at this
  exact ⟨by positivity, by exact_mod_cast this⟩

attribute [irreducible] wrong

/-- **C141.** The fitness lies between 0 and 1, and is 1 exactly for multiplexers. -/
theorem C141_perfect {i : GP.Ind} (h : GP.Legal muxGP i) {q : ℚ} (hq : muxFitness i = .ok q) :
    0 ≤ q ∧ q ≤ 1 ∧ (q = 1 ↔ IsMux i) := by
  rw [C141_fitness h, Except.ok.injEq] at hq
  subst hq
  obtain ⟨h1, h2⟩ := wrong_le_rat i
  refine ⟨by linarith, by linarith, ?_⟩
  rw [← wrong_zero]
  generalize wrong i = k
  rw [sub_eq_self, div_eq_zero_iff]
  simp

/-! ## The run -/

variable {depth pop tour maxGen : Nat} {elite : Int} {pCross pMut bloat thr : ℚ} {stream : Nat → Tape} {sched : Nat → Nat → List Nat}

theorem muxGP_plain : muxGP.Plain := by
  refine GP.Cfg.Untyped.plain ?_ rfl ?_ ?_ ?_
  · refine ⟨?_, ?_⟩
    · intro f hf
      simp only [muxGP, List.mem_cons, List.not_mem_nil, or_false] at hf
      rcases hf with rfl | rfl | rfl | rfl <;> simp [andFn, orFn, notFn, iteFn]
    · intro kv hkv
      obtain ⟨p, -, rfl⟩ := List.mem_map.1 hkv
      rfl
  · refine ⟨.inr (by simp [muxGP]), ?_⟩
    intro e he
    simp only [muxGP, Option.some.injEq] at he
    subst he
    exact .inr ⟨rfl, rfl, by norm_num⟩
  · simp [muxGP]
  · intro kv hkv hn
    obtain ⟨p, -, rfl⟩ := List.mem_map.1 hkv
    cases hn

theorem mux_built (hs : ∀ gen k, (sched gen k).Perm (List.range k)) :
    (muxCfg depth pop tour elite pCross pMut bloat thr maxGen stream sched).BuiltWith
      (muxSub depth pop tour elite pCross pMut bloat) ⟨true, some bloat⟩ (GP.SizedCreator muxGP ⟨true, some bloat⟩ pop) GP.LibOp where
  subs := rfl
  dir := rfl
  creators := by
    intro create h
    simp only [muxSub, List.mem_singleton] at h
    subst h
    exact .full _ _ _ ⟨rfl, rfl⟩
  sels := ⟨_, _, rfl, tournament_good _ _, tournament_fills _ _⟩
  ops := by
    intro o ho
    simp only [muxSub, List.mem_cons, List.not_mem_nil, or_false] at ho
    rcases ho with rfl | rfl
    · exact .crossover _ _ _
    · exact .mutation _ _ _ _
  sched := hs
  map := rfl

theorem mux_legal_built (hs : ∀ gen k, (sched gen k).Perm (List.range k)) :
    (muxCfg depth pop tour elite pCross pMut bloat thr maxGen stream sched).BuiltWith
      (muxSub depth pop tour elite pCross pMut bloat) ⟨true, some bloat⟩ (GP.LibCreator muxGP ⟨true, some bloat⟩) GP.LibOp :=
  have h := mux_built (depth := depth) (pop := pop) (tour := tour) (elite := elite) (pCross := pCross) (pMut := pMut)
    (bloat := bloat) (thr := thr) (maxGen := maxGen) (stream := stream) hs
  { h with creators := fun create hc => (h.creators create hc).lib }

/-- **C141.** The run returns, if the population size is even and positive and the tournaments are not larger than the
population. -/
theorem C141_returns (hpop : 0 < pop) (heven : 2 ∣ pop) (htour : 0 < tour) (hle : tour ≤ pop)
    (hs : ∀ gen k, (sched gen k).Perm (List.range k)) {s : Run GP.Ind Unit} (hf : Fresh s) :
    ∃ s', evolve (muxCfg depth pop tour elite pCross pMut bloat thr maxGen stream sched) s = (.ok (), s') := by
  obtain ⟨s', h, -⟩ := GP.C80_programs muxGP_plain (mux_built hs) (K := fun _ => True)
    { popSize := hpop
      arities := by
        intro a ha
        simp [muxSub, GP.crossoverOp, GP.mutationOp, Op.inPlace, tournament] at ha
        rcases ha with rfl | rfl | rfl
        · simp
        · exact ⟨by simp, heven⟩
        · simp
      pick := fun t => ⟨0, t, rfl, Nat.one_pos⟩
      select := by
        intro sel rest h
        simp only [muxSub, List.cons.injEq] at h
        obtain ⟨rfl, -⟩ := h
        exact tournament_worksOn htour hle
      evaluate := by
        intro i hi t
        exact ⟨_, t, congrArg (fun r => (r, t)) (C141_fitness hi)⟩
      calm := threshold_calm _ _ }
    (s := s)
    { ready := .inl hf.inds
      given := by simp [hf.inds]
      fits := by simp [Cfg.Fits, muxCfg, hf.checkers]
      executor := hf.shutdown }
  exact ⟨s', h⟩

/-- A state from which the example can be run: a new algorithm object, either without individuals or with given ones, which
are trees over the functions of the example and have new fitness objects. -/
structure Begins (bloat : ℚ) (s : Run GP.Ind Unit) : Prop where
  ready : s.Ready ⟨true, some bloat⟩
  starts : s.Starts (GP.Legal muxGP)
  genNum : s.genNum = 0
  checkers : s.checkers = [()]

/-- C141: a run that ends before its last generation ends with a multiplexer. -/
def C141_statement : Prop :=
  ∀ (depth pop tour maxGen : Nat) (elite : Int) (pCross pMut bloat : ℚ) (stream : Nat → Tape) (sched : Nat → Nat → List Nat)
    (s s' : Run GP.Ind Unit), (∀ gen k, (sched gen k).Perm (List.range k)) → Begins bloat s →
    evolve (muxCfg depth pop tour elite pCross pMut bloat (1 / 100) maxGen stream sched) s = (.ok (), s') → s'.genNum < maxGen →
    ∃ b i, s'.bestOfRun = some b ∧ s'.w.heap[b]? = some i ∧ IsMux i.genome

/-- The best individual of a run with the threshold `thr` that ended early is wrong for at most `2048 * thr` inputs. -/
theorem mux_early (hs : ∀ gen k, (sched gen k).Perm (List.range k)) {s s' : Run GP.Ind Unit} (hb : Begins bloat s)
    (h : evolve (muxCfg depth pop tour elite pCross pMut bloat thr maxGen stream sched) s = (.ok (), s')) (hearly : s'.genNum < maxGen) :
    ∃ b i, s'.bestOfRun = some b ∧ s'.w.heap[b]? = some i ∧ (wrong i.genome : ℚ) ≤ thr * 2048 := by
  have hbuilt := mux_legal_built (depth := depth) (pop := pop) (tour := tour) (elite := elite) (pCross := pCross) (pMut := pMut)
    (bloat := bloat) (thr := thr) (maxGen := maxGen) (stream := stream) hs
  have hord := hbuilt.ordinary (fun _ h => h.good) (fun _ h => h.good)
  have hcomp : (muxSub depth pop tour elite pCross pMut bloat).Computes muxFitness := by
    intro v t
    simp [muxSub, PyM.ofExcept]
  have hall := GP.C75_programs_legal hbuilt hb.ready hb.starts _ _ h
  obtain ⟨b, i, q, h1, h2, h3, h4, -⟩ := best_objective hord hcomp hb.ready hb.starts.log h
  obtain ⟨e, he, h10, h11⟩ := evolve_last h
  obtain ⟨j, h5, h6⟩ := (hall e he).2.1 b (h11.trans h1) b (by simp)
  rw [h10, h2, Option.some.injEq] at h5
  subst h5
  refine ⟨b, i, h1, h2, ?_⟩
  obtain ⟨b', x, h7, ⟨i', h8, h9, -⟩, h12⟩ := C109_early rfl hb.starts.log hb.genNum hb.checkers h hearly
  rw [h1, Option.some.injEq] at h7
  subst h7
  rw [h2, Option.some.injEq] at h8
  subst h8
  rw [h4, FVal.num.injEq] at h9
  subst h9
  rw [C141_fitness h6, Except.ok.injEq] at h3
  subst h3
  generalize wrong i.genome = k at h12 ⊢
  rw [sub_sub_cancel_left, abs_neg, abs_of_nonneg (by positivity)] at h12
  linarith

/-- **C141 (partial).** A run that ends before its last generation ends with a tree that is wrong for at most 20 of the 2048
combinations of inputs.  What is missing: that it is right for all of them. -/
theorem C141_partial (hs : ∀ gen k, (sched gen k).Perm (List.range k)) {s s' : Run GP.Ind Unit} (hb : Begins bloat s)
    (h : evolve (muxCfg depth pop tour elite pCross pMut bloat (1 / 100) maxGen stream sched) s = (.ok (), s')) (hearly : s'.genNum < maxGen) :
    ∃ b i, s'.bestOfRun = some b ∧ s'.w.heap[b]? = some i ∧ wrong i.genome ≤ 20 := by
  obtain ⟨b, i, h1, h2, h3⟩ := mux_early hs hb h hearly
  refine ⟨b, i, h1, h2, ?_⟩
  generalize wrong i.genome = k at h3 ⊢
  by_contra hk
  have : (21 : ℚ) ≤ k := by exact_mod_cast Nat.lt_of_not_le hk
  linarith

/-- C141 with a threshold below 1/2048: the run ends early only with a multiplexer. -/
theorem C141_sharp_partial (hthr : thr * 2048 < 1) (hs : ∀ gen k, (sched gen k).Perm (List.range k)) {s s' : Run GP.Ind Unit}
    (hb : Begins bloat s)
    (h : evolve (muxCfg depth pop tour elite pCross pMut bloat thr maxGen stream sched) s = (.ok (), s')) (hearly : s'.genNum < maxGen) :
    ∃ b i, s'.bestOfRun = some b ∧ s'.w.heap[b]? = some i ∧ IsMux i.genome := by
  obtain ⟨b, i, h1, h2, h3⟩ := mux_early hs hb h hearly
  refine ⟨b, i, h1, h2, (wrong_zero _).1 ?_⟩
  generalize wrong i.genome = k at h3 ⊢
  have : (k : ℚ) < 1 := by linarith
  exact Nat.lt_one_iff.1 (by exact_mod_cast this)

/-! ## A tree that is wrong for eight combinations, and the run that ends with it -/

/-- The terminal with the given position. -/
def muxVar (k : Nat) : GP.Prog := .term ⟨k, .str (muxNames.getD k "")⟩ none

/-- A multiplexer of the inputs `d0`, …, `d6` and `last`, by `f_if_then_else`. -/
def muxOf (last : GP.Prog) : GP.Prog :=
  .app iteFn [muxVar 0,
    .app iteFn [muxVar 1, .app iteFn [muxVar 2, last, muxVar 9], .app iteFn [muxVar 2, muxVar 8, muxVar 7]],
    .app iteFn [muxVar 1, .app iteFn [muxVar 2, muxVar 6, muxVar 5], .app iteFn [muxVar 2, muxVar 4, muxVar 3]]]

/-- It has `d7 and (d0 or (d1 or (d2 or d3)))` in the place of `d7`. -/
def nearMux : GP.Ind :=
  ⟨muxGP, (muxOf (.app andFn [muxVar 10, .app orFn [muxVar 3, .app orFn [muxVar 4, .app orFn [muxVar 5, muxVar 6]]]])).flatten⟩

theorem nearMux_legal : GP.Legal muxGP nearMux := by
  refine ⟨rfl, _, rfl, ?_, ?_⟩
  · simp [muxOf, muxVar, GP.Prog.Ok, GP.Prog.OkAll, iteFn, andFn, orFn]
  · simp [muxOf, muxVar, GP.Prog.fns, GP.Prog.fnsAll, nearMux, muxGP]

theorem nearMux_not : ¬ IsMux nearMux := by
  intro h
  have h1 : onRow nearMux ⟨1793, by omega⟩ = .ok 0 := by decide +kernel
  have h2 : output ⟨1793, by omega⟩ = true := by decide +kernel
  have h3 := h ⟨1793, by omega⟩
  unfold RightOn at h3
  rw [h1, h2] at h3
  cases h3

/-- The multiplexer. -/
def fullMux : GP.Ind := ⟨muxGP, (muxOf (muxVar 10)).flatten⟩

/-- The fitness of the multiplexer and of the wrong tree. -/
theorem mux_fitness_examples : muxFitness fullMux = .ok 1 ∧ muxFitness nearMux = .ok (2040 / 2048) := by decide +kernel

def exMuxInd (id : Nat) : Ind GP.Ind :=
  { id := id, gen := 0, genome := nearMux, fit := { simpleFit true with bloat := some (1 / 100000) }, clonedFrom := 0,
    selectedBy := [], appliedOps := [], updateParents := false, parents := [] }

/-- A new algorithm object with two given trees. -/
def exMuxRun : Run GP.Ind Unit :=
  ⟨⟨[exMuxInd 0, exMuxInd 1], 2, fun k => k⟩, [some [0, 1]], none, none, none, 0, 0, 0, none, [()], false, []⟩

def exMux : Cfg GP.Ind Unit :=
  muxCfg 4 2 2 0 (4 / 5) (1 / 10) (1 / 100000) (1 / 100) 40 (fun seed k => seed + k) fun _ k => List.range k

theorem exMuxRun_begins : Begins (1 / 100000) exMuxRun where
  ready := .inr ⟨[0, 1], rfl, by decide, by decide +kernel⟩
  starts := by
    refine ⟨?_, rfl, rfl, rfl⟩
    intro is his
    simp only [exMuxRun, List.mem_singleton, Option.some.injEq] at his
    subst his
    intro r hr
    simp only [List.mem_cons, List.not_mem_nil, or_false] at hr
    rcases hr with rfl | rfl
    · exact ⟨_, rfl, nearMux_legal⟩
    · exact ⟨_, rfl, nearMux_legal⟩
  genNum := rfl
  checkers := rfl

/-- The run ends with generation 0. -/
theorem exMux_ends : (evolve exMux exMuxRun).1 = .ok () ∧ (evolve exMux exMuxRun).2.genNum = 0 ∧
    (evolve exMux exMuxRun).2.bestOfRun = some 0 ∧
    ((evolve exMux exMuxRun).2.w.heap[0]?).map (fun i => onRow i.genome ⟨1793, by omega⟩) = some (.ok 0) := by decide +kernel

/-- **C141 is false**: a run ends early with a tree that is wrong for some inputs. -/
theorem C141_refuted : ¬ C141_statement := by
  intro h
  obtain ⟨h1, h2, h3, h4⟩ := exMux_ends
  obtain ⟨b, i, h5, h6, h7⟩ := h 4 2 2 40 0 (4 / 5) (1 / 10) (1 / 100000) _ _ exMuxRun _ (fun _ k => .refl (List.range k)) exMuxRun_begins
    (ran (m := evolve exMux) h1) (by rw [h2]; omega)
  rw [h3, Option.some.injEq] at h5
  subst h5
  rw [h6, Option.map_some, Option.some.injEq] at h4
  have h8 := h7 ⟨1793, by omega⟩
  have h9 : output ⟨1793, by omega⟩ = true := by decide +kernel
  unfold RightOn at h8
  rw [h4, h9] at h8
  cases h8

example : ∃ b i, (evolve exMux exMuxRun).2.bestOfRun = some b ∧ (evolve exMux exMuxRun).2.w.heap[b]? = some i ∧ wrong i.genome ≤ 20 :=
  C141_partial (fun _ k => .refl (List.range k)) exMuxRun_begins (ran (m := evolve exMux) exMux_ends.1)
    (by rw [exMux_ends.2.1]; omega)

/-- The run of the script itself. -/
example (stream : Nat → Tape) (s : Run GP.Ind Unit) (hf : Fresh s) :
    ∃ s', evolve (muxCfg 4 40 7 0 (4 / 5) (1 / 10) (1 / 100000) (1 / 100) 40 stream fun _ k => List.range k) s = (.ok (), s') ∧
      (s'.genNum < 40 → ∃ b i, s'.bestOfRun = some b ∧ s'.w.heap[b]? = some i ∧ wrong i.genome ≤ 20) := by
  obtain ⟨s', h⟩ := C141_returns (depth := 4) (pop := 40) (tour := 7) (elite := 0) (pCross := 4 / 5) (pMut := 1 / 10)
    (bloat := 1 / 100000) (thr := 1 / 100) (maxGen := 40) (stream := stream) (by omega) ⟨20, rfl⟩ (by omega) (by omega)
    (fun _ k => .refl (List.range k)) hf
  exact ⟨s', h, fun he => C141_partial (fun _ k => .refl (List.range k))
    ⟨.inl hf.inds, ⟨by simp [hf.inds], hf.bestOfRun, hf.bestOfGen, hf.log⟩, hf.genNum, hf.checkers⟩ h he⟩

end Verif.Examples
