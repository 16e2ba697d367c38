import Verif.Lemmas.Unstuck
import Verif.Props.WholeVec

/-! # C151: a run never gets stuck -/

namespace Verif.Evo
open PyM
variable {G κ : Type} {P : G → Prop} {K : κ → Prop} {c : Cfg G κ} {sub : SubCfg G} {m : Mode}

theorem rand_run {α : Type} {f : Rand α} {w : World G} {t' : Tape} {r : Except Err α} (h : f w.tape = (r, t')) :
    (rand f : WM G α) w = (r, { w with tape := t' }) := by
  unfold rand zoom
  rw [h]

/-- An operator that works on genomes in place can make whatever the function on genomes can make. -/
theorem Op.inPlace_canMake (name : String) {p : ℚ} (hp : 0 ≤ p) (a : Nat) {f : List G → Rand (Option (List G))} {g : G}
    (hf : ∀ v, P v → ∃ t t', f [v] t = (.ok (some [g]), t')) : (Op.inPlace name p a f).CanMake P g := by
  intro w r i hi hP
  obtain ⟨t, t', ht⟩ := hf i.genome hP
  obtain ⟨t₀, h0⟩ := Reach.random (u := 0) le_rfl (by norm_num) t
  let j : Ind G := { i with fit := i.fit.setNotEvaluated }
  let w₁ : World G := { w with tape := t, heap := w.heap.modify r fun i => { i with fit := i.fit.setNotEvaluated } }
  have hlt : r < w.heap.length := (List.getElem?_eq_some_iff.1 hi).1
  have hj : w₁.heap[r]? = some j := by simp [w₁, hi, j]
  let w₂ : World G := { w₁ with tape := t', heap := w₁.heap.modify r fun i => { i with genome := g } }
  have hk : w₂.heap[r]? = some { j with genome := g } := by
    show (w₁.heap.modify r _)[r]? = _
    rw [List.getElem?_modify, hj]; simp
  have hder : ∀ (w : World G) {i : Ind G}, w.heap[r]? = some i → deref r w = (.ok i, w) := by
    intro w i h
    unfold deref
    show (match w.heap[r]? with | some i => pure i | none => raise .attributeError : WM G (Ind G)) w = _
    rw [h]; rfl
  have happly : (Op.inPlace name p a f).apply [r] w₁ = (.ok (some [r]), w₂) := by
    show ((do
      let gs ← genomes [r]
      match ← rand (f gs) with
      | none => pure none
      | some gs' => do
        putGenomes [r] gs'
        pure (some [r])) : WM G (Option (List Nat))) w₁ = _
    have hg : genomes [r] w₁ = (.ok [j.genome], w₁) := by
      unfold genomes
      show ((do
        let x ← (do let i ← deref r; pure i.genome : WM G G)
        let xs ← (pure [] : WM G (List G))
        pure (x :: xs)) : WM G (List G)) w₁ = _
      refine (bind_of_ok (a := j.genome) (s' := w₁) ?_).trans rfl
      exact (bind_of_ok (hder w₁ hj)).trans rfl
    refine (bind_of_ok hg).trans ?_
    refine (bind_of_ok (a := some [g]) (s' := { w₁ with tape := t' }) (rand_run (w := w₁) ht)).trans ?_
    rfl
  refine ⟨t₀, { w₂ with heap := w₂.heap.modify r (record name [j.id]) }, ?_, ?_⟩
  · unfold applyOperator
    refine (bind_of_ok (a := (0 : ℚ)) (s' := { w with tape := t }) (rand_run (w := ({ w with tape := t₀ } : World G)) h0)).trans ?_
    rw [if_pos (show (0 : ℚ) ≤ (Op.inPlace name p a f).probability from hp)]
    refine (bind_of_ok (a := ()) (s' := w₁) (show forL setNotEvaluated [r] { w with tape := t } = (.ok (), w₁) from rfl)).trans ?_
    refine (bind_of_ok happly).trans ?_
    have hid : (mapL (fun r => do let i ← deref r; pure i.id) [r] : WM G (List Nat)) w₂ = (.ok [j.id], w₂) := by
      show ((do
        let x ← (do let i ← deref r; pure i.id : WM G Nat)
        let xs ← (pure [] : WM G (List Nat))
        pure (x :: xs)) : WM G (List Nat)) w₂ = _
      refine (bind_of_ok (a := j.id) (s' := w₂) ?_).trans rfl
      exact (bind_of_ok (hder w₂ hk)).trans rfl
    exact (bind_of_ok hid).trans rfl
  · unfold genomeAt
    show ((w₂.heap.modify r (record name [j.id]))[r]?).map _ = _
    rw [List.getElem?_modify, hk]
    simp [record]

/-- An operator with a fallback can make whatever its own attempts can make. -/
theorem Op.withFallback_canMake (name : String) {p : ℚ} (hp : 0 ≤ p) (a : Nat) {f : List G → Rand (Bool × List G)} {inner : Op G}
    {g : G} (hf : ∀ v, P v → ∃ t t', f [v] t = (.ok (true, [g]), t')) : (Op.withFallback name p a f inner).CanMake P g := by
  intro w r i hi hP
  obtain ⟨t, t', ht⟩ := hf i.genome hP
  obtain ⟨t₀, h0⟩ := Reach.random (u := 0) le_rfl (by norm_num) t
  let j : Ind G := { i with fit := i.fit.setNotEvaluated }
  let w₁ : World G := { w with tape := t, heap := w.heap.modify r fun i => { i with fit := i.fit.setNotEvaluated } }
  have hlt : r < w.heap.length := (List.getElem?_eq_some_iff.1 hi).1
  have hj : w₁.heap[r]? = some j := by simp [w₁, hi, j]
  let w₂ : World G := { w₁ with tape := t', heap := w₁.heap.modify r fun i => { i with genome := g } }
  have hk : w₂.heap[r]? = some { j with genome := g } := by
    show (w₁.heap.modify r _)[r]? = _
    rw [List.getElem?_modify, hj]; simp
  have hder : ∀ (w : World G) {i : Ind G}, w.heap[r]? = some i → deref r w = (.ok i, w) := by
    intro w i h
    unfold deref
    show (match w.heap[r]? with | some i => pure i | none => raise .attributeError : WM G (Ind G)) w = _
    rw [h]; rfl
  have happly : (Op.withFallback name p a f inner).apply [r] w₁ = (.ok (some [r]), w₂) := by
    show ((do
      let gs ← genomes [r]
      let (succeeded, gs') ← rand (f gs)
      putGenomes [r] gs'
      if succeeded then pure (some [r])
      else do
        let l ← applyOperator inner [r]
        pure (some l)) : WM G (Option (List Nat))) w₁ = _
    have hg : genomes [r] w₁ = (.ok [j.genome], w₁) := by
      unfold genomes
      show ((do
        let x ← (do let i ← deref r; pure i.genome : WM G G)
        let xs ← (pure [] : WM G (List G))
        pure (x :: xs)) : WM G (List G)) w₁ = _
      refine (bind_of_ok (a := j.genome) (s' := w₁) ?_).trans rfl
      exact (bind_of_ok (hder w₁ hj)).trans rfl
    refine (bind_of_ok hg).trans ?_
    refine (bind_of_ok (a := (true, [g])) (s' := { w₁ with tape := t' }) (rand_run (w := w₁) ht)).trans ?_
    rfl
  refine ⟨t₀, { w₂ with heap := w₂.heap.modify r (record name [j.id]) }, ?_, ?_⟩
  · unfold applyOperator
    refine (bind_of_ok (a := (0 : ℚ)) (s' := { w with tape := t }) (rand_run (w := ({ w with tape := t₀ } : World G)) h0)).trans ?_
    rw [if_pos (show (0 : ℚ) ≤ (Op.withFallback name p a f inner).probability from hp)]
    refine (bind_of_ok (a := ()) (s' := w₁) (show forL setNotEvaluated [r] { w with tape := t } = (.ok (), w₁) from rfl)).trans ?_
    refine (bind_of_ok happly).trans ?_
    have hid : (mapL (fun r => do let i ← deref r; pure i.id) [r] : WM G (List Nat)) w₂ = (.ok [j.id], w₂) := by
      show ((do
        let x ← (do let i ← deref r; pure i.id : WM G Nat)
        let xs ← (pure [] : WM G (List Nat))
        pure (x :: xs)) : WM G (List Nat)) w₂ = _
      refine (bind_of_ok (a := j.id) (s' := w₂) ?_).trans rfl
      exact (bind_of_ok (hder w₂ hk)).trans rfl
    exact (bind_of_ok hid).trans rfl
  · unfold genomeAt
    show ((w₂.heap.modify r (record name [j.id]))[r]?).map _ = _
    rw [List.getElem?_modify, hk]
    simp [record]

/-- **C151.** Suppose a run whose components draw freely completed and got to generation `N`, and that its last operator can
turn any individual there may be into one with the genome `g`.  Then, whatever had happened until then, other random numbers
for that one generation would have put `g` into the population: there is a stream, different only for the seed of
generation `N`, with which the run completes too, is the same until generation `N` and has `g` in the population that is
evaluated in it. -/
theorem C151_any_generation (hc : c.Sound P sub m K) (hfree : sub.Free) {os : List (Op G)} {o : Op G}
    (hops : sub.ops = os ++ [o]) (ha : o.arity = 1) {g : G} (hmake : o.CanMake P g) {N : Nat} {s s' : Run G κ}
    (ho : s.Open P c sub m K) (hlog : s.log = []) (hg : s.genNum = 0) (hmax : c.maxGen < 2 ^ 32)
    (hseed : (s.genSeed + N) % 2 ^ 32 ≠ s.randomSeed) (hN : 1 ≤ N) (hrun : evolve c s = (.ok (), s'))
    (hreach : ∃ e ∈ s'.log, e.IsEval ∧ e.snap.genNum = N) :
    ∃ t s'', evolve (c.redrawn ((s.genSeed + N) % 2 ^ 32) t) s = (.ok (), s'') ∧
      (∃ e ∈ s''.log, e.Holds N g) ∧ SameUntil N s'.log s''.log :=
  evolve_makes hc hfree hops ha hmake ho hlog hg hmax hseed hN hrun hreach

/-- **C151, best of run.** If moreover the evaluator computes `f`, nothing is lost again: the best individual at the end of
that other run is not worse than `g`. -/
theorem C151_best (hc : c.Sound P sub m K) (hfree : sub.Free) {os : List (Op G)} {o : Op G}
    (hops : sub.ops = os ++ [o]) (ha : o.arity = 1) {g : G} (hmake : o.CanMake P g) {f : G → Except Err ℚ}
    (hd : sub.Computes f) {N : Nat} {s s' : Run G κ} (ho : s.Open P c sub m K) (hlog : s.log = []) (hg : s.genNum = 0)
    (hmax : c.maxGen < 2 ^ 32) (hseed : (s.genSeed + N) % 2 ^ 32 ≠ s.randomSeed) (hN : 1 ≤ N)
    (hrun : evolve c s = (.ok (), s')) (hreach : ∃ e ∈ s'.log, e.IsEval ∧ e.snap.genNum = N) :
    ∃ t s'', evolve (c.redrawn ((s.genSeed + N) % 2 ^ 32) t) s = (.ok (), s'') ∧ SameUntil N s'.log s''.log ∧
      ∃ b i q x, s''.bestOfRun = some b ∧ s''.w.heap[b]? = some i ∧ f i.genome = .ok q ∧ f g = .ok x ∧
        ¬ Preferred m.hib (score m.hib m.bloat x (c.size g)) (score m.hib m.bloat q (c.size i.genome)) := by
  obtain ⟨t, s'', h1, ⟨e, he, hev, -, r, j, hsh, hj, rfl⟩, h3⟩ :=
    evolve_makes hc hfree hops ha hmake ho hlog hg hmax hseed hN hrun hreach
  obtain ⟨b, i, q, g1, g2, g3, -, -, g4⟩ :=
    best_objective (hc.withStream _).toOrdinary hd ho.ready hlog h1
  obtain ⟨j', x, k1, k2, k3⟩ := g4 e he hev r hsh
  rw [hj] at k1
  cases k1
  exact ⟨t, s'', h1, h3, b, i, q, x, g1, g2, g3, k2, k3⟩

end Verif.Evo

/-! ## Vectors -/

namespace Verif.GA
open PyM Verif.Evo
variable {κ : Type} {K : κ → Prop} {kind : Kind} {bounds : Bounds} {length : Nat} {m : Mode}

/-- The mutations that can change all cells at once. -/
def MutationClass.AllCells (length : Nat) : MutationClass → Prop
  | .floatUniformN n | .intN n => n = length
  | .intOne q => 0 ≤ q
  | .bitNFlip n q => n = length ∧ 0 ≤ q ∧ q < 1
  | .floatGaussN n _ sigma a => n = length ∧ sigma ≠ 0 ∧ 0 < a
  | _ => False

/-- A point of the search space of the class, bounds and length. -/
def Target (kind : Kind) (bounds : Bounds) (length : Nat) (w : Vec) : Prop :=
  w.kind = kind ∧ w.bounds = bounds ∧ w.length = length ∧ w.Point

theorem diffs_length_le {xs ys : List ℚ} (h : ys.length = xs.length) : (diffs xs ys).length ≤ xs.length := by
  unfold diffs
  refine (List.length_filter_le _ _).trans ?_
  rw [List.length_range]; omega

theorem WholeLegal.point {v : Vec} (h : WholeLegal .bit bounds length v) : v.Point := by
  obtain ⟨⟨h1, h2, h3, h4, h5⟩, h6⟩ := h
  refine ⟨h3.trans h4.symm, fun i x hx => ?_⟩
  obtain ⟨lo, hi, hat, hlo, hhi⟩ := h5 i x hx
  refine ⟨lo, hi, hat, ?_⟩
  rw [h1]
  exact ⟨h6 (by simp) x (List.mem_of_getElem? hx), hlo, hhi⟩

theorem MutationClass.canMake {c : MutationClass} {p : ℚ} (hp : 0 ≤ p) (hb : bounds.Proper kind length) (hl : 0 < length)
    (hk : c.kind = kind) (hc : c.AllCells length)
    (hbits : kind = .bit → ∃ z : ℤ, bounds = .tup [(z : ℚ), (z : ℚ) + 1]) {w : Vec} (hw : Target kind bounds length w) :
    (c.asOp p 1).CanMake (WholeLegal kind bounds length) w := by
  obtain ⟨w1, w2, w3, w4⟩ := hw
  have hpts : ∀ n, c.points = some n → n = length := by
    intro n hn
    cases c <;> simp_all [MutationClass.AllCells, MutationClass.points]
  have key : ∀ v, WholeLegal kind bounds length v → ∃ t t', npApply (c.op p) [v] t = (.ok (some [w]), t') := by
    intro v hv
    have hv' := hv.1
    obtain ⟨h1, h2, h3, h4, h5⟩ := hv'
    have hwl : w.vector.length = v.vector.length := by rw [← w4.1, w3, h4]
    obtain ⟨s1, -, -⟩ := hv.1.suits hb hk fun n hn => (hpts n hn).le
    have hR : Reach (npApply (c.op p) [v]) (some [w]) := by
      refine c.op_reach p ?_ v w s1 ⟨w1.trans h1.symm, w2.trans h2.symm, w3.trans h3.symm, hwl⟩ ?_ ?_ ?_ w4 ?_ ?_ ?_
      · cases c <;> simp_all [MutationClass.AllCells, MutationClass.Searches]
      · rw [h2, h3]; exact hb.legal
      · rw [h2]; exact hb.notTwo
      · intro hbit
        rw [h1] at hbit
        subst hbit
        exact hv.point
      · intro hbit
        obtain ⟨z, hz⟩ := hbits (h1 ▸ hbit)
        exact ⟨z, h2.trans hz⟩
      · intro n hn
        rw [hpts n hn, ← h4]
        exact diffs_length_le hwl
      · rintro rfl
        exact hc.elim
    obtain ⟨t, ht⟩ := hR fun _ => 0
    exact ⟨t, _, ht⟩
  cases c with
  | floatUniformN n => exact Op.inPlace_canMake _ hp _ key
  | intOne q => exact Op.inPlace_canMake _ hp _ key
  | intN n => exact Op.inPlace_canMake _ hp _ key
  | bitNFlip n q => exact Op.inPlace_canMake _ hp _ key
  | floatGaussN n mu sigma a =>
    refine Op.withFallback_canMake _ hp _ fun v hv => ?_
    obtain ⟨h1, h2, h3, h4, h5⟩ := hv.1
    have hwl : w.vector.length = v.vector.length := by rw [← w4.1, w3, h4]
    obtain ⟨rfl, hsig, ha⟩ := hc
    obtain ⟨t, ht⟩ := gauss_try_reach (n := n) (p := p) (mu := mu) (h1.trans hk.symm)
      ⟨w1.trans h1.symm, w2.trans h2.symm, w3.trans h3.symm, hwl⟩ hsig ha (by rw [h2, h3]; exact hb.legal)
      (by rw [h2]; exact hb.notTwo) w4 (by rw [← h4]; exact diffs_length_le hwl) (by rw [h4]) fun _ => 0
    exact ⟨t, _, ht⟩
  | _ => exact hc.elim

theorem PairedOp.worksOn_whole (hb : bounds.Proper kind length) {o : Op Vec} (h : PairedOp kind length o) :
    o.WorksOn (WholeLegal kind bounds length) := by
  intro refs s hc hl
  refine h.worksOn hb refs s (fun r hr => ?_) hl
  obtain ⟨i, h1, h2⟩ := hc r hr
  exact ⟨i, h1, h2.1⟩

theorem LibCreator.works_whole (hb : bounds.Proper kind length) {create : Nat → Bool → WM Vec (List Nat)}
    (h : LibCreator kind bounds length m create) (n : Nat) (hib : Bool) :
    CreatorWorks (WholeLegal kind bounds length) n hib create := fun s =>
  ((h.works hb n hib s).and (h.makes_whole hb n hib s)).mono fun _ _ h => ⟨h.1.1, h.2.2⟩

theorem whole_sound (hb : bounds.Proper kind length) {c : Evo.Cfg Vec κ} {sub : SubCfg Vec}
    (h : c.BuiltWith sub m (LibCreator kind bounds length m) (PairedOp kind length))
    (hs : c.Smooth (WholeLegal kind bounds length) sub K) : c.Sound (WholeLegal kind bounds length) sub m K :=
  h.sound hs (fun _ h => h.good hb) (fun _ h => h.works_whole hb _ _) (fun _ h => h.1.good)
    (fun _ h => h.1.preserves_whole hb) (fun _ h => h.worksOn_whole hb)

/-- **C151, vectors.** A run of the vector creators, crossover and mutations of the library with tournament selection, whose
last operator is a mutation that can change all cells: in whichever generation, after whatever has happened, every
point of the search space can still be found. -/
theorem C151_vectors (hb : bounds.Proper kind length) (hl : 0 < length)
    (hbits : kind = .bit → ∃ z : ℤ, bounds = .tup [(z : ℚ), (z : ℚ) + 1]) {c : Evo.Cfg Vec κ} {sub : SubCfg Vec}
    (h : c.BuiltWith sub m (LibCreator kind bounds length m) (PairedOp kind length))
    (hs : c.Smooth (WholeLegal kind bounds length) sub K)
    (hsel : ∀ sel ∈ sub.sels, ∃ size k replace, sel = tournament size k replace) {os : List (Op Vec)} {mu : MutationClass}
    {p : ℚ} (hops : sub.ops = os ++ [mu.asOp p 1]) (hmu : mu.AllCells length) (hk : mu.kind = kind) (hp : 0 ≤ p) {w : Vec}
    (hw : Target kind bounds length w) {N : Nat} {s s' : Run Vec κ} (ho : s.Open (WholeLegal kind bounds length) c sub m K)
    (hlog : s.log = []) (hg : s.genNum = 0) (hmax : c.maxGen < 2 ^ 32) (hseed : (s.genSeed + N) % 2 ^ 32 ≠ s.randomSeed)
    (hN : 1 ≤ N) (hrun : evolve c s = (.ok (), s')) (hreach : ∃ e ∈ s'.log, e.IsEval ∧ e.snap.genNum = N) :
    ∃ t s'', evolve (c.redrawn ((s.genSeed + N) % 2 ^ 32) t) s = (.ok (), s'') ∧
      (∃ e ∈ s''.log, e.Holds N w) ∧ SameUntil N s'.log s''.log := by
  refine evolve_makes (whole_sound hb h hs) ⟨fun sel hs source dest => ?_, fun o ho => (h.ops o ho).1.free⟩ hops ?_
    (MutationClass.canMake hp hb hl hk hmu hbits hw) ho hlog hg hmax hseed hN hrun hreach
  · obtain ⟨size, k, replace, rfl⟩ := hsel sel hs
    exact FreeW.tournamentSelect _ _ _ _ _
  · cases mu <;> first | rfl | exact hmu.elim

theorem exIntCfg_whole : exIntCfg.Sound (WholeLegal .int Sample.cells 3) exIntSub ⟨true, none⟩ := by
  refine whole_sound exInt_proper { exIntCfg_built with ops := ?_ } ⟨?_, ?_, ?_, ?_, ?_, ?_⟩
  · intro o ho
    refine ⟨exIntCfg_built.ops o ho, fun h => ?_⟩
    simp only [exIntSub, List.mem_cons, List.not_mem_nil, or_false] at ho
    rcases ho with rfl | rfl
    · exact le_refl 2
    · simp [MutationClass.asOp, mutationOp, Op.inPlace] at h
  · decide
  · intro a ha
    simp [exIntSub, crossoverOp, MutationClass.asOp, mutationOp, Op.inPlace, tournament] at ha
    rcases ha with rfl | rfl | rfl <;> decide
  · exact fun t => ⟨0, t, rfl, by decide⟩
  · intro sel rest h
    simp only [exIntSub, List.cons.injEq] at h
    obtain ⟨rfl, -⟩ := h
    exact tournament_worksOn (by omega) (by simp [exIntSub])
  · exact fun _ _ => Total.pure
  · trivial

theorem exIntSub_free : exIntSub.Free where
  sels := by
    intro sel hs source dest
    simp only [exIntSub, List.mem_singleton] at hs
    subst hs
    exact FreeW.tournamentSelect _ _ _ _ _
  ops := fun o ho => (exIntCfg_built.ops o ho).free

theorem exInt_reached : ∃ e ∈ (evolve exIntCfg exLibRun).2.log, e.IsEval ∧ e.snap.genNum = 2 := by
  have h : (evolve exIntCfg exLibRun).2.log.any (fun e =>
      (e.publisher == "population_evaluator" && e.name == "after_operator") && (e.snap.genNum == 2)) = true := by decide +kernel
  obtain ⟨e, he, h⟩ := List.any_eq_true.1 h
  simp only [Bool.and_eq_true, beq_iff_eq] at h
  exact ⟨e, he, h.1, h.2⟩

/-- A vector with the best first cell. -/
theorem exInt_target : Target .int Sample.cells 3 ⟨.int, Sample.cells, 3, [1, -5, 2]⟩ := by
  refine ⟨rfl, rfl, rfl, rfl, fun i x hx => ?_⟩
  match i, hx with
  | 0, hx => cases hx; exact ⟨0, 1, rfl, ⟨1, by norm_num⟩, by norm_num, by norm_num⟩
  | 1, hx => cases hx; exact ⟨-5, 5, rfl, ⟨-5, by norm_num⟩, by norm_num, by norm_num⟩
  | 2, hx => cases hx; exact ⟨2, 2, rfl, ⟨2, by norm_num⟩, by norm_num, by norm_num⟩
  | n + 3, hx => simp at hx

theorem exIntRun_open : exLibRun.Open (WholeLegal .int Sample.cells 3) exIntCfg exIntSub ⟨true, none⟩ :=
  ⟨.inl rfl, by simp [exLibRun], by simp [Cfg.Fits, exIntCfg, exLibRun], rfl, fun _ _ => trivial⟩

theorem exInt_canMake : ((MutationClass.intN 3).asOp 1 1).CanMake (WholeLegal .int Sample.cells 3)
    ⟨.int, Sample.cells, 3, [1, -5, 2]⟩ :=
  MutationClass.canMake (c := .intN 3) (by norm_num) exInt_proper (by omega) rfl rfl (by simp) exInt_target

/-- A Gaussian mutation, which can make every vector of the unit cube. -/
example : ((MutationClass.floatGaussN 3 0 2 5).asOp 1 1).CanMake (WholeLegal .float (.tup [0, 1]) 3)
    ⟨.float, .tup [0, 1], 3, [1 / 2, 1 / 3, 0]⟩ := by
  refine MutationClass.canMake (c := .floatGaussN 3 0 2 5) (by norm_num) exLib_proper (by omega) rfl ⟨rfl, by norm_num, by omega⟩
    (by simp) ⟨rfl, rfl, rfl, rfl, fun i x hx => ⟨0, 1, rfl, ?_⟩⟩
  match i, hx with
  | 0, hx => cases hx; exact .inl ⟨by norm_num, by norm_num⟩
  | 1, hx => cases hx; exact .inl ⟨by norm_num, by norm_num⟩
  | 2, hx => cases hx; exact .inl ⟨by norm_num, by norm_num⟩
  | n + 3, hx => simp at hx

/-- In the second of two generations that vector can be found, and the best of the run is then as good. -/
example := C151_any_generation exIntCfg_whole exIntSub_free (os := [crossoverOp 1 2 2]) rfl rfl exInt_canMake exIntRun_open rfl rfl
  (by decide) (N := 2) (by decide) (by omega) (ran exIntRun_ends.1) exInt_reached

example := C151_best exIntCfg_whole exIntSub_free (os := [crossoverOp 1 2 2]) rfl rfl exInt_canMake
  (f := fun v => .ok (v.vector.headD 0)) (fun _ _ => rfl) exIntRun_open rfl rfl (by decide) (N := 2) (by decide) (by omega)
  (ran exIntRun_ends.1) exInt_reached

example := C151_vectors exInt_proper (by omega) (by simp)
  { exIntCfg_built with ops := fun o ho => ⟨exIntCfg_built.ops o ho, fun h => by
      simp only [exIntSub, List.mem_cons, List.not_mem_nil, or_false] at ho
      rcases ho with rfl | rfl
      · exact le_refl 2
      · simp [MutationClass.asOp, mutationOp, Op.inPlace] at h⟩ }
  ⟨exIntCfg_whole.popSize, exIntCfg_whole.arities, exIntCfg_whole.pick, exIntCfg_whole.select, exIntCfg_whole.evaluate,
    exIntCfg_whole.calm⟩
  (by intro sel h; simp only [exIntSub, List.mem_singleton] at h; exact ⟨_, _, _, h⟩)
  (os := [crossoverOp 1 2 2]) (mu := .intN 3) (p := 1) rfl rfl rfl (by norm_num) exInt_target exIntRun_open rfl rfl
  (by decide) (N := 2) (by decide) (by omega) (ran exIntRun_ends.1) exInt_reached

end Verif.GA

namespace Verif.Examples
open PyM Evo
variable {n pop tour maxGen : Nat} {elite : Int} {pCross pMut pEach : ℚ} {stream : Nat → Tape} {sched : Nat → Nat → List Nat}

/-- **C151, OneMax.** In no generation of the OneMax example is it too late: with suitable random numbers for that
generation the vector of ones is in its population, and it is what the run returns (by C138 in that generation). -/
theorem C151_oneMax (hn : 2 ≤ n) (hpop : 0 < pop) (heven : 2 ∣ pop) (htour : 0 < tour) (hle : tour ≤ pop)
    (hs : ∀ gen k, (sched gen k).Perm (List.range k)) (hp : 0 ≤ pMut) (he0 : 0 ≤ pEach) (he1 : pEach < 1)
    (hmax : maxGen < 2 ^ 32) {s s' : Run GA.Vec Unit} (hf : Fresh s) {N : Nat} (hN : 1 ≤ N)
    (hseed : (s.genSeed + N) % 2 ^ 32 ≠ s.randomSeed)
    (hrun : evolve (oneMaxCfg n pop tour elite pCross pMut pEach maxGen stream sched) s = (.ok (), s'))
    (hreach : ∃ e ∈ s'.log, e.IsEval ∧ e.snap.genNum = N) :
    ∃ t s'', evolve (oneMaxCfg n pop tour elite pCross pMut pEach maxGen
        (fun x => if x = (s.genSeed + N) % 2 ^ 32 then t else stream x) sched) s = (.ok (), s'') ∧
      SameUntil N s'.log s''.log ∧ SomeoneAllOnes n s''.log ∧
      ∃ b i, s''.bestOfRun = some b ∧ s''.w.heap[b]? = some i ∧ AllOnes n i.genome := by
  have hb := zeroOne_proper n
  have hbuilt : ∀ stream, (oneMaxCfg n pop tour elite pCross pMut pEach maxGen stream sched).BuiltWith
      (oneMaxSub n pop tour elite pCross pMut pEach) _ _ _ := fun stream => oneMax_built hn hs
  have hw : GA.Target .bit (.tup [0, 1]) n ⟨.bit, .tup [0, 1], n, List.replicate n 1⟩ := by
    refine ⟨rfl, rfl, rfl, by simp, fun i x hx => ⟨0, 1, rfl, ?_⟩⟩
    obtain rfl := List.eq_of_mem_replicate (List.mem_of_getElem? hx)
    exact ⟨⟨1, by norm_num⟩, by norm_num, le_rfl⟩
  obtain ⟨t, s'', h1, ⟨e, he, hev, hgen, r, j, hsh, hj, hjg⟩, h3⟩ := GA.C151_vectors hb (by omega)
    (fun _ => ⟨0, by norm_num⟩) (hbuilt stream) (K := fun _ => True)
    { popSize := hpop
      arities := by
        intro a ha
        simp [oneMaxSub, GA.crossoverOp, GA.mutationOp, Op.inPlace, tournament] at ha
        rcases ha with rfl | rfl | rfl
        · simp
        · exact ⟨by simp, heven⟩
        · simp
      pick := fun t => ⟨0, t, rfl, Nat.one_pos⟩
      select := by
        intro sel rest h
        simp only [oneMaxSub, List.cons.injEq] at h
        obtain ⟨rfl, -⟩ := h
        exact tournament_worksOn htour hle
      evaluate := fun _ _ => Total.pure
      calm := threshold_calm _ _ }
    (by
      intro sel hsel
      simp only [oneMaxSub, List.mem_singleton] at hsel
      exact ⟨_, _, _, hsel⟩)
    (os := [GA.crossoverOp pCross 2 1]) (mu := .bitNFlip n pEach) (p := pMut) rfl ⟨rfl, he0, he1⟩ rfl hp hw
    { ready := .inl hf.inds
      given := by simp [hf.inds]
      fits := by simp [Cfg.Fits, oneMaxCfg, hf.checkers]
      executor := hf.shutdown }
    hf.log hf.genNum hmax hseed hN hrun hreach
  have hones : AllOnes n j.genome := by rw [hjg]; rfl
  refine ⟨t, s'', h1, h3, ⟨e, he, hev, r, j, hsh, hj, hones⟩, ?_⟩
  obtain ⟨⟨b, i, g1, g2, -, g3⟩, -, -⟩ := C138_one_max (stream := fun x => if x = (s.genSeed + N) % 2 ^ 32 then t else stream x) hn hs hf h1
  refine ⟨b, i, g1, g2, ?_⟩
  obtain ⟨j', k1, k2⟩ := g3 e he hev r hsh
  rw [hj, Option.some.injEq] at k1
  subst k1
  have hbuilt' := hbuilt fun x => if x = (s.genSeed + N) % 2 ^ 32 then t else stream x
  have hall := GA.C76_vectors_legal hb { hbuilt' with ops := fun o ho => (hbuilt'.ops o ho).1 } (.inl hf.inds)
    ⟨by simp [hf.inds], hf.bestOfRun, hf.bestOfGen, hf.log⟩ _ _ h1
  obtain ⟨e', he', h10, h11⟩ := evolve_last h1
  obtain ⟨i', h4, h5⟩ := (hall e' he').2.1 b (h11.trans g1) b (by simp)
  rw [h10, g2, Option.some.injEq] at h4
  subst h4
  obtain ⟨h6, h7⟩ := legal_oneMax h5
  refine h7.1 (le_antisymm h6 ?_)
  have : j.genome.vector.sum = n := by rw [hones]; simp
  unfold oneMax
  rw [← this]
  exact k2

/-- In generation 2 of the run of `exOneMax`, which took until generation 3 to find the vector of ones, it could have been
found. -/
example : ∃ t s'', evolve (oneMaxCfg 3 4 2 1 (1 / 2) 1 (1 / 2) 5
      (fun x => if x = 2 then t else fun k => (x + 7 * k * k + k / 2) % 11) fun _ k => List.range k) exOneMaxRun = (.ok (), s'') ∧
    SameUntil 2 (evolve exOneMax exOneMaxRun).2.log s''.log ∧ SomeoneAllOnes 3 s''.log ∧
    ∃ b i, s''.bestOfRun = some b ∧ s''.w.heap[b]? = some i ∧ AllOnes 3 i.genome :=
  C151_oneMax (by omega) (by omega) ⟨2, rfl⟩ (by omega) (by omega) (fun _ _ => .refl _) (by norm_num) (by norm_num) (by norm_num)
    (by norm_num) exOneMaxRun_fresh (N := 2) (by omega) (by decide) (ran exOneMax_ends.1) (by
      have h : (evolve exOneMax exOneMaxRun).2.log.any (fun e =>
          (e.publisher == "population_evaluator" && e.name == "after_operator") && (e.snap.genNum == 2)) = true := by
        decide +kernel
      obtain ⟨e, he, h⟩ := List.any_eq_true.1 h
      simp only [Bool.and_eq_true, beq_iff_eq] at h
      exact ⟨e, he, h.1, h.2⟩)

end Verif.Examples
