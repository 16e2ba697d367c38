import Verif.Lemmas.MooUnstuck
import Verif.Props.Unstuck
import Verif.Props.UnstuckGP

/-! # C174: an NSGA-II run never gets stuck -/

namespace Verif.Moo
open PyM
variable {G : Type} {P : G → Prop} {n m : Nat} {ds : List Bool} {c : MCfg G} {f : G → List ℚ}

/-- **C174.** Suppose an NSGA-II run whose operators draw freely completed and got to generation `N`, that its evaluator computes
`f`, and that its last operator can turn any individual there may be into one with the genome `g`.  Then, whatever had
happened until then, other random numbers for that one generation would have led to `g`: there is a stream, different only
for the seed of generation `N`, with which the run completes too, is the same until generation `N` and evaluates in it a
population with an individual that has the objectives of `g`. -/
theorem C174_any_generation (hc : c.Sound P n m ds) (hst : c.Steady f) (hfree : ∀ o ∈ c.sub.ops, ∀ refs, FreeM (o.apply refs))
    {os : List (MOp G)} {o : MOp G} (hops : c.sub.ops = os ++ [o]) (ha : o.arity = 1) {g : G} (hmake : o.CanMake P g) {N : Nat}
    {s s' : MRun G} (hf : s.Fresh m ds) (hp : AllHave P s.w) (hmax : c.maxGen < 2 ^ 32)
    (hseed : (s.genSeed + N) % 2 ^ 32 ≠ s.randomSeed) (hN : 1 ≤ N)
    (hrun : mevolve c s = (.ok (), s')) (hreach : N ≤ s'.genNum) :
    ∃ t s'', mevolve (c.redrawn ((s.genSeed + N) % 2 ^ 32) t) s = (.ok (), s'') ∧
      (∃ e ∈ s''.log, e.Holds N (f g)) ∧ MSameUntil N s'.log s''.log :=
  mevolve_makes hc hst hfree hops ha hmake hf hp hmax hseed hN hrun hreach

theorem mrand_run {α : Type} {x : Rand α} {w : MWorld G} {t' : Tape} {r : Except Err α} (h : x w.tape = (r, t')) :
    (mrand x : MM G α) w = (r, { w with tape := t' }) := by
  unfold mrand zoom
  rw [h]

/-- An operator that works on genomes in place can make whatever the function on genomes can make. -/
theorem onGenomes_canMake {p : ℚ} (hp : 0 ≤ p) (a : Nat) {h : List G → Rand (Option (List G))} {g : G}
    (hh : ∀ v, P v → ∃ t t', h [v] t = (.ok (some [g]), t')) : (MOp.onGenomes p a h).CanMake P g := by
  intro w r hP
  obtain ⟨t, t', ht⟩ := hh (w.genome r) hP
  obtain ⟨t₀, h0⟩ := Reach.random (u := 0) le_rfl (by norm_num) t
  let w₁ : MWorld G := { w with tape := t, fits := fun x => if x = r then (w.fits r).reset else w.fits x }
  let w₂ : MWorld G := { w₁ with tape := t', genome := fun x => if x = r then g else w.genome x }
  refine ⟨t₀, w₂, ?_, if_pos rfl⟩
  unfold applyOp
  refine (bind_of_ok (a := (0 : ℚ)) (s' := { w with tape := t }) (mrand_run (w := ({ w with tape := t₀ } : MWorld G)) h0)).trans ?_
  rw [if_pos (show (0 : ℚ) ≤ (MOp.onGenomes p a h).probability from hp)]
  refine (bind_of_ok (a := ()) (s' := w₁) (show forL resetFit [r] { w with tape := t } = (.ok (), w₁) from rfl)).trans ?_
  have happly : (MOp.onGenomes p a h).apply [r] w₁ = (.ok (some [r]), w₂) := by
    unfold MOp.onGenomes
    refine (bind_of_ok (m := PyM.get) (s := w₁) rfl).trans ?_
    refine (bind_of_ok (a := some [g]) (s' := { w₁ with tape := t' }) (mrand_run (w := w₁) ht)).trans ?_
    rfl
  exact (bind_of_ok happly).trans rfl

/-! ## Vectors -/

section vectors
open GA
variable {kind : Kind} {bounds : Bounds} {length : Nat}

theorem VecOp.free {o : MOp Vec} (h : VecOp kind length o) (refs : List Nat) : FreeM (o.apply refs) := by
  cases h with
  | crossover p a k _ _ => exact FreeM.onGenomes (fun gs => (kPointApply_free k gs).bind fun _ => Free.pure _) _ _ _
  | mutation c p a _ _ =>
    cases c with
    | floatUniformOne => exact FreeM.onGenomes (npApply_free (uniformNPoint_free 1)) _ _ _
    | floatUniformN n => exact FreeM.onGenomes (npApply_free (uniformNPoint_free n)) _ _ _
    | floatGaussOne mu sigma a => exact FreeM.onGenomes (npApply_free (gaussNPoint_free _ _ _ _ _)) _ _ _
    | floatGaussN n mu sigma a => exact FreeM.onGenomes (npApply_free (gaussNPoint_free _ _ _ _ _)) _ _ _
    | intOne q => exact FreeM.onGenomes (npApply_free (intOnePoint_free q)) _ _ _
    | intN n => exact FreeM.onGenomes (npApply_free (uniformNPoint_free n)) _ _ _
    | bitFlip => exact FreeM.onGenomes (npApply_free bitFlipOne_free) _ _ _
    | bitNFlip n q => exact FreeM.onGenomes (npApply_free (bitNFlip_free n q)) _ _ _

theorem VecOp.worksOn_whole (hb : bounds.Proper kind length) {o : MOp Vec} (h : VecOp kind length o) :
    o.WorksOn (WholeLegal kind bounds length) := by
  by_cases hf : kind = .float
  · subst hf
    rw [show WholeLegal .float bounds length = Legal .float bounds length from funext fun v => propext WholeLegal.iff_legal]
    exact h.worksOn hb
  · rw [show WholeLegal kind bounds length = _ from funext fun v => propext (WholeLegal.iff_cells hf)]
    cases h with
    | crossover p a k hk ha =>
      refine onGenomes_worksOn fun gs hl hgs => ?_
      match gs, hl, hgs with
      | [], hl, _ => simp at hl; omega
      | [_], hl, _ => simp at hl; omega
      | u :: v :: others, _, hgs =>
        obtain ⟨-, -, -, a4, -⟩ := (hgs u (by simp)).1
        obtain ⟨-, -, -, b4, -⟩ := (hgs v (by simp)).1
        have htot := (C16_genes_conserved k u v others (by unfold Vec.size; omega) (by unfold Vec.size; omega)).total
        exact Ensures.bind (Ensures.of htot (crossover_cells hk hgs)) fun out ho => Ensures.pure ⟨out, rfl, ho⟩
    | mutation c p a hc hn =>
      subst hc
      obtain ⟨h1, h2⟩ := c.op_whole p hf (hb.integral hf)
      refine onGenomes_worksOn fun gs _ hgs => ?_
      have he := c.op_keeps p fun v hv => (hgs v hv).1.suits hb rfl hn
      refine (Ensures.of he.total (he.post.and
        (npApply_cells h1 h2 gs fun v hv => ⟨(hgs v hv).1.1, (hgs v hv).1.2.1, (hgs v hv).2⟩))).mono ?_
      rintro _ ⟨⟨out, rfl, hk⟩, hw⟩
      exact ⟨out, rfl, fun v hv => ⟨Legal.of_keeps (fun v hv => (hgs v hv).1) hk v hv, (hw _ rfl v hv).2.2⟩⟩

theorem VecCreator.creates_whole (hb : bounds.Proper kind length) {create : MM Vec (List Nat)}
    (h : VecCreator kind bounds length n m ds create) :
    ∃ fit, FitForM m ds fit ∧ CreatesM (WholeLegal kind bounds length) fit n create := by
  cases h with
  | mk fit hf =>
    refine ⟨fit, hf, ?_⟩
    unfold vecCreator
    rw [hb.accepted, Bool.not_true, Bool.and_false, if_neg (by simp)]
    have he := createVector_ensures hb.legal hb.integral hb.pair
    refine createM_creates _ (Ensures.of he.total fun t v t' hr => ⟨he.post t v t' hr, fun hfl => ?_⟩) fit n
    exact createVector_cells (fun i => getRandomNumberInBounds_whole hfl i) t v t' hr

theorem vecMutation_canMake {mu : MutationClass} {p : ℚ} (hp : 0 ≤ p) (hb : bounds.Proper kind length) (hl : 0 < length)
    (hk : mu.kind = kind) (hc : mu.AllCells length)
    (hbits : kind = .bit → ∃ z : ℤ, bounds = .tup [(z : ℚ), (z : ℚ) + 1]) {w : Vec} (hw : Target kind bounds length w) :
    (vecMutation p 1 (mu.op p)).CanMake (WholeLegal kind bounds length) w := by
  obtain ⟨w1, w2, w3, w4⟩ := hw
  have hpts : ∀ n, mu.points = some n → n = length := by
    intro n hn
    cases mu <;> simp_all [MutationClass.AllCells, MutationClass.points]
  refine onGenomes_canMake hp 1 fun v hv => ?_
  obtain ⟨h1, h2, h3, h4, h5⟩ := hv.1
  have hwl : w.vector.length = v.vector.length := by rw [← w4.1, w3, h4]
  obtain ⟨s1, -, -⟩ := hv.1.suits hb hk fun n hn => (hpts n hn).le
  have hR : Reach (npApply (mu.op p) [v]) (some [w]) := by
    refine mu.op_reach p ?_ v w s1 ⟨w1.trans h1.symm, w2.trans h2.symm, w3.trans h3.symm, hwl⟩ ?_ ?_ ?_ w4 ?_ ?_ ?_
    · cases mu <;> simp_all [MutationClass.AllCells, MutationClass.Searches]
    · rw [h2, h3]; exact hb.legal
    · rw [h2]; exact hb.notTwo
    · intro hbit
      rw [h1] at hbit
      subst hbit
      exact hv.point
    · intro hbit
      obtain ⟨z, hz⟩ := hbits (h1 ▸ hbit)
      exact ⟨z, h2.trans hz⟩
    · intro n hn
      rw [hpts n hn, ← h4]
      exact diffs_length_le hwl
    · rintro rfl
      exact hc.elim
  obtain ⟨t, ht⟩ := hR fun _ => 0
  exact ⟨t, _, ht⟩

/-- **C174, vectors.** An NSGA-II run of the vector creators, crossover and mutations of the library with tournament selection,
whose last operator is a mutation that can change all cells: in whichever generation, after whatever has happened, every
point of the search space can still be found. -/
theorem C174_vectors (hb : bounds.Proper kind length) (hl : 0 < length)
    (hbits : kind = .bit → ∃ z : ℤ, bounds = .tup [(z : ℚ), (z : ℚ) + 1]) {c : MCfg Vec}
    (h : c.Assembled (WholeLegal kind bounds length) (VecCreator kind bounds length n m ds) (VecOp kind length) n m ds)
    {f : Vec → List ℚ} (hv : c.sub.Computes f) {os : List (MOp Vec)} {mu : MutationClass} {p : ℚ}
    (hops : c.sub.ops = os ++ [vecMutation p 1 (mu.op p)]) (hmu : mu.AllCells length) (hk : mu.kind = kind) (hp : 0 ≤ p) {w : Vec}
    (hw : Target kind bounds length w) {N : Nat} {s s' : MRun Vec} (hf : s.Fresh m ds)
    (hs : AllHave (WholeLegal kind bounds length) s.w) (hmax : c.maxGen < 2 ^ 32)
    (hseed : (s.genSeed + N) % 2 ^ 32 ≠ s.randomSeed) (hN : 1 ≤ N)
    (hrun : mevolve c s = (.ok (), s')) (hreach : N ≤ s'.genNum) :
    ∃ t s'', mevolve (c.redrawn ((s.genSeed + N) % 2 ^ 32) t) s = (.ok (), s'') ∧
      (∃ e ∈ s''.log, e.Holds N (f w)) ∧ MSameUntil N s'.log s''.log := by
  obtain ⟨a, k, rep, hsel, -⟩ := h.sels
  refine C174_any_generation
    (h.sound (fun _ h => h.creates_whole hb) (fun _ h => h.good) (fun _ h _ => h.worksOn_whole hb))
    ⟨fun o ho => ?_, fun x hx => ?_, hv⟩ (fun o ho => (h.ops o ho).free) hops rfl
    (vecMutation_canMake hp hb hl hk hmu hbits hw) hf hs hmax hseed hN hrun hreach
  · cases h.ops o ho <;> exact onGenomes_local _ _ _
  · rw [hsel, List.mem_singleton] at hx
    rw [hx]
    exact MSel.tournament_local a k rep

/-- The sample run with a mutation that draws all three cells anew. -/
def exVectorAll : MCfg Vec :=
  { exVector with sub := { exVector.sub with ops := [vecCrossover 1 2 2, vecMutation 1 1 ((MutationClass.floatUniformN 3).op 1)] } }

theorem exVectorAll_assembled : exVectorAll.Assembled (WholeLegal .float (.tup [0, 1]) 3)
    (VecCreator .float (.tup [0, 1]) 3 4 2 [false, true]) (VecOp .float 3) 4 2 [false, true] where
  breeder := rfl
  size := by decide
  directions := rfl
  creator := exVector_assembled.creator
  ops := by
    intro o ho
    simp only [exVectorAll, List.mem_cons, List.not_mem_nil, or_false] at ho
    rcases ho with rfl | rfl
    · exact .crossover _ _ _ (by decide) (by decide)
    · exact .mutation _ _ _ rfl (by rintro n ⟨⟩; decide)
  arities := by
    intro o ho
    simp only [exVectorAll, List.mem_cons, List.not_mem_nil, or_false] at ho
    rcases ho with rfl | rfl
    · exact ⟨show (2 : Nat) ≠ 0 by decide, show 2 ∣ 4 by decide⟩
    · exact ⟨show (1 : Nat) ≠ 0 by decide, show 1 ∣ 4 by decide⟩
  sels := ⟨1, 2, true, rfl, .inl rfl⟩
  evaluates := exVector_assembled.evaluates
  evaluate := fun _ _ => Total.pure
  order := fun _ _ l => List.reverse_perm l
  sched := fun _ _ => List.Perm.refl _
  calm := fun _ _ _ _ _ => ⟨false, rfl⟩

theorem exVectorAll_computes : exVectorAll.sub.Computes fun v => [v.vector.headD 0, v.vector.tail.headD 0] :=
  fun _ _ => wlp_pure.2 rfl

/-- In the second and last generation the vector `[1/4, 1/2, 3/4]` could still have been found. -/
example : ∃ s' t s'', mevolve exVectorAll exVectorRun = (.ok (), s') ∧ mevolve (exVectorAll.redrawn 9 t) exVectorRun = (.ok (), s'') ∧
    (∃ e ∈ s''.log, e.Holds 2 [1 / 4, 1 / 2]) ∧ MSameUntil 2 s'.log s''.log := by
  have hw : Target .float (.tup [0, 1]) 3 ⟨.float, .tup [0, 1], 3, [1 / 4, 1 / 2, 3 / 4]⟩ := by
    refine ⟨rfl, rfl, rfl, rfl, fun i x hx => ⟨0, 1, rfl, ?_⟩⟩
    have : x = 1 / 4 ∨ x = 1 / 2 ∨ x = 3 / 4 := by simpa using List.mem_of_getElem? hx
    rcases this with rfl | rfl | rfl <;> exact .inl ⟨by norm_num, by norm_num⟩
  have hf : exVectorRun.Fresh 2 [false, true] := ⟨rfl, fun r hr => absurd hr (Nat.not_lt_zero r), rfl, rfl⟩
  have hs : AllHave (WholeLegal .float (.tup [0, 1]) 3) exVectorRun.w := fun r hr => absurd hr (Nat.not_lt_zero r)
  obtain ⟨s', hrun, -⟩ := C82_completes (exVectorAll_assembled.sound (fun _ h => h.creates_whole exLib_proper) (fun _ h => h.good)
    (fun _ h _ => h.worksOn_whole exLib_proper)) hf hs
  have hg : s'.genNum = 2 := ((C126_generations rfl rfl hrun).2.2 fun e => by show Except.ok false ≠ _; simp).1
  obtain ⟨t, s'', h⟩ := C174_vectors (os := [vecCrossover 1 2 2]) (mu := .floatUniformN 3) exLib_proper (by decide) (by simp)
    exVectorAll_assembled exVectorAll_computes rfl rfl rfl (by norm_num) hw (N := 2) hf hs (by decide) (by decide) (by decide) hrun hg.ge
  exact ⟨s', t, s'', hrun, h⟩

end vectors

/-! ## Programs -/

section programs
open GP
variable {cfg : GP.Cfg}

theorem TreeOp.free {o : MOp GP.Ind} (h : TreeOp o) (refs : List Nat) : FreeM (o.apply refs) := by
  cases h with
  | crossover p a n => exact FreeM.onGenomes (fun gs => (subtreeCrossover_free a n gs).bind fun _ => Free.pure _) _ _ _
  | mutation p lo hi n => exact FreeM.onGenomes (fun gs => (subtreeMutation_free lo hi n gs).bind fun _ => Free.pure _) _ _ _
  | erc p a mu sigma => exact FreeM.onGenomes (fun gs => (ercMutation_free mu sigma gs).bind fun _ => Free.pure _) _ _ _

theorem treeMutation_canMake {p : ℚ} (hp : 0 ≤ p) (hu : cfg.Untyped) (hr : cfg.rootType = none) (hd : DistinctKeys cfg.terminalSet)
    (herc : cfg.ErcProper) {lo hi attempts : Nat} (hle : lo ≤ hi) (hpos : 0 < attempts) {q : Prog}
    (hq : q.Growable cfg none lo hi) : (treeMutation p lo hi attempts).CanMake (PlainLegal cfg) ⟨cfg, q.flatten⟩ := by
  refine onGenomes_canMake hp 1 fun i hi' => ?_
  obtain ⟨⟨hcfg, p', htree, hok, hfns⟩, hplain⟩ := hi'
  obtain ⟨icfg, itree⟩ := i
  cases hcfg
  simp only at htree hfns hplain
  subst htree
  have hty : p'.HasType none := hasType_none hok (fun f hf => hu.1 f (hfns f hf)) fun v t h =>
    hu.uses hr (hplain _ h).1
  obtain ⟨t, t', ht⟩ := C87_mutation_anywhere_partial icfg hd herc hu p' hty
    (fun f hf => ⟨hfns f hf, .inr (hu.1 f (hfns f hf))⟩) lo hi hle attempts hpos q hq
  exact ⟨t, t', (bind_of_ok ht).trans rfl⟩

/-- **C174, programs.** An NSGA-II run of tree creators and the tree operators of the library over untyped functions and
terminals with tournament selection, whose last operator is the subtree mutation: in whichever generation, after whatever has
happened, every program that can be grown within the depths of the mutation can still be found. -/
theorem C174_programs (hpl : cfg.Plain) (hu : cfg.Untyped) (hroot : cfg.rootType = none) (hd : DistinctKeys cfg.terminalSet)
    (herc : cfg.ErcProper) {c : MCfg GP.Ind} (h : c.Assembled (PlainLegal cfg) (TreeCreator cfg n m ds) TreeOp n m ds)
    {f : GP.Ind → List ℚ} (hv : c.sub.Computes f) {os : List (MOp GP.Ind)} {p : ℚ} {lo hi attempts : Nat}
    (hops : c.sub.ops = os ++ [treeMutation p lo hi attempts]) (hp : 0 ≤ p) (hle : lo ≤ hi)
    (hpos : 0 < attempts) {q : Prog} (hq : q.Growable cfg none lo hi) {N : Nat} {s s' : MRun GP.Ind} (hf : s.Fresh m ds)
    (hs : AllHave (PlainLegal cfg) s.w) (hmax : c.maxGen < 2 ^ 32)
    (hseed : (s.genSeed + N) % 2 ^ 32 ≠ s.randomSeed) (hN : 1 ≤ N)
    (hrun : mevolve c s = (.ok (), s')) (hreach : N ≤ s'.genNum) :
    ∃ t s'', mevolve (c.redrawn ((s.genSeed + N) % 2 ^ 32) t) s = (.ok (), s'') ∧
      (∃ e ∈ s''.log, e.Holds N (f ⟨cfg, q.flatten⟩)) ∧ MSameUntil N s'.log s''.log := by
  obtain ⟨a, k, rep, hsel, -⟩ := h.sels
  refine C174_any_generation
    (h.sound (fun _ h => h.creates hpl) (fun _ h => h.good) (fun _ h ha => h.worksOn hpl ha))
    ⟨fun o ho => ?_, fun x hx => ?_, hv⟩ (fun o ho => (h.ops o ho).free) hops rfl
    (treeMutation_canMake hp hu hroot hd herc hle hpos hq) hf hs hmax hseed hN hrun hreach
  · cases h.ops o ho <;> exact onGenomes_local _ _ _
  · rw [hsel, List.mem_singleton] at hx
    rw [hx]
    exact MSel.tournament_local a k rep

/-- Four programs made by the full creator; crossover, then mutation. -/
def exProgFind : MCfg GP.Ind :=
  { exProg with sub := { exProg.sub with
      create := fullM Sample.cfg 1 (.new none (.same false) false false) 4
      ops := [treeCrossover 1 2 1, treeMutation 1 0 2 1] } }

theorem exProgFind_assembled : exProgFind.Assembled (PlainLegal Sample.cfg) (TreeCreator Sample.cfg 4 2 [false, false]) TreeOp
    4 2 [false, false] where
  breeder := rfl
  size := by decide
  directions := rfl
  creator := .full 1 _ ⟨rfl, rfl⟩
  ops := by
    intro o ho
    simp only [exProgFind, List.mem_cons, List.not_mem_nil, or_false] at ho
    rcases ho with rfl | rfl
    · exact .crossover _ _ _
    · exact .mutation _ _ _ _
  arities := by
    intro o ho
    simp only [exProgFind, List.mem_cons, List.not_mem_nil, or_false] at ho
    rcases ho with rfl | rfl
    · exact ⟨show (2 : Nat) ≠ 0 by decide, show 2 ∣ 4 by decide⟩
    · exact ⟨show (1 : Nat) ≠ 0 by decide, show 1 ∣ 4 by decide⟩
  sels := exProg_assembled.sels
  evaluates := exProg_assembled.evaluates
  evaluate := exProg_assembled.evaluate
  order := exProg_assembled.order
  sched := exProg_assembled.sched
  calm := fun _ _ _ _ _ => ⟨false, rfl⟩

/-- In the second generation the program `add(x, y)`, with its three nodes, could still have been found. -/
example : ∃ s' t s'', mevolve exProgFind exProgRun = (.ok (), s') ∧ mevolve (exProgFind.redrawn 9 t) exProgRun = (.ok (), s'') ∧
    (∃ e ∈ s''.log, e.Holds 2 [3, -3]) ∧ MSameUntil 2 s'.log s''.log := by
  have hf : exProgRun.Fresh 2 [false, false] := ⟨rfl, fun r hr => absurd hr (Nat.not_lt_zero r), rfl, rfl⟩
  have hs : AllHave (PlainLegal Sample.cfg) exProgRun.w := fun r hr => absurd hr (Nat.not_lt_zero r)
  obtain ⟨s', hrun, -⟩ := C82_programs exPlain exProgFind_assembled hf hs
  have hg : s'.genNum = 2 := ((C126_generations rfl rfl hrun).2.2 fun e => by show Except.ok false ≠ _; simp).1
  obtain ⟨t, s'', h⟩ := C174_programs (os := [treeCrossover 1 2 1]) exPlain Sample.cfg_untyped rfl
    (by simp [DistinctKeys, Sample.cfg, Sample.x, Sample.y, Data.pyEq, Data.num?]) Sample.cfg_ercProper exProgFind_assembled
    (f := fun i => [(i.tree.length : ℚ), - i.tree.length]) (fun _ _ => wlp_pure.2 rfl) rfl (by norm_num) (by decide) (by decide)
    exSought_growable (N := 2) hf hs (by decide) (by decide) (by decide) hrun hg.ge
  exact ⟨s', t, s'', hrun, h.1, by simpa [exSought, Prog.flatten, Prog.flattenAll] using h.2.1, h.2.2⟩

end programs

end Verif.Moo
