import Verif.Lemmas.Cells
import Verif.Props.OneMax

/-! # C153: the OneMax example with float vectors -/

namespace Verif.Examples
open PyM Evo
variable {n pop tour points maxGen : Nat} {elite : Int} {pCross pMut : ℚ} {stream : Nat → Tape} {sched : Nat → Nat → List Nat}

theorem unit_proper (n : Nat) : (GA.Bounds.tup [0, 1]).Proper .float n where
  legal := (zeroOne_proper n).legal
  integral := fun h => absurd rfl h
  pair := fun h => nomatch h
  notTwo := by simp [GA.Bounds.TwoPairs]

/-- The operators of the example. -/
def FloatOp (n : Nat) (o : Op GA.Vec) : Prop :=
  GA.PairedOp .float n o ∧ o.Preserves (GA.CellLegal (· < 1) .float (.tup [0, 1]) n)

theorem uniform_below (i : Int) (v : GA.Vec) (hk : v.kind = .float) (hb : v.bounds = .tup [0, 1]) :
    Post (v.getRandomNumberInBounds i) (· < 1) := by
  unfold GA.Vec.getRandomNumberInBounds
  rw [hk, hb]
  unfold Rand.uniform
  refine Post.bind Rand.random_post fun u hu => Post.pure ?_
  simpa using hu.2

theorem floatOneMax_built (hn : 2 ≤ n) (hpts : points ≤ n) (hs : ∀ gen k, (sched gen k).Perm (List.range k)) :
    (floatOneMaxCfg n pop tour points elite pCross pMut maxGen stream sched).BuiltWith
      (floatOneMaxSub n pop tour points elite pCross pMut) ⟨true, none⟩ (GA.LibCreator .float (.tup [0, 1]) n ⟨true, none⟩)
      (FloatOp n) where
  subs := rfl
  dir := rfl
  creators := by
    intro create h
    simp only [floatOneMaxSub, List.mem_singleton] at h
    subst h
    exact .mk _ _ ⟨rfl, rfl⟩
  sels := ⟨_, _, rfl, tournament_good _ _, tournament_fills _ _⟩
  ops := by
    intro o ho
    simp only [floatOneMaxSub, List.mem_cons, List.not_mem_nil, or_false] at ho
    have hp : ∀ k, (GA.MutationClass.floatUniformN points).points = some k → k ≤ n := by
      rintro k ⟨⟩
      exact hpts
    rcases ho with rfl | rfl
    · exact ⟨⟨.crossover _ _ _ (by omega), fun _ => le_refl _⟩, GA.crossoverOp_preserves_cells (by omega)⟩
    · refine ⟨⟨.mutation (.floatUniformN points) _ _ rfl hp, fun h => ?_⟩,
        GA.MutationClass.preserves_cells (c := .floatUniformN points) (unit_proper n) rfl hp ?_ rfl ⟨_, rfl⟩⟩
      · simp [GA.mutationOp, Op.inPlace] at h
      · exact fun v h1 h2 _ i => uniform_below i v h1 h2
  sched := hs
  map := rfl

/-- **C153**: the run returns, if the population size is even and positive and the tournaments are not larger than the
population. -/
theorem C153_returns (hn : 2 ≤ n) (hpts : points ≤ n) (hpop : 0 < pop) (heven : 2 ∣ pop) (htour : 0 < tour) (hle : tour ≤ pop)
    (hs : ∀ gen k, (sched gen k).Perm (List.range k)) {s : Run GA.Vec Unit} (hf : Fresh s) :
    ∃ s', evolve (floatOneMaxCfg n pop tour points elite pCross pMut maxGen stream sched) s = (.ok (), s') := by
  have hb := floatOneMax_built (n := n) (pop := pop) (tour := tour) (points := points) (elite := elite) (pCross := pCross)
    (pMut := pMut) (maxGen := maxGen) (stream := stream) hn hpts hs
  obtain ⟨s', h, -⟩ := GA.C80_vectors (unit_proper n) { hb with ops := fun o ho => (hb.ops o ho).1 } (K := fun _ => True)
    { popSize := hpop
      arities := by
        intro a ha
        simp [floatOneMaxSub, GA.crossoverOp, GA.mutationOp, Op.inPlace, tournament] at ha
        rcases ha with rfl | rfl | rfl
        · simp
        · exact ⟨by simp, heven⟩
        · simp
      pick := fun t => ⟨0, t, rfl, Nat.one_pos⟩
      select := by
        intro sel rest h
        simp only [floatOneMaxSub, List.cons.injEq] at h
        obtain ⟨rfl, -⟩ := h
        exact tournament_worksOn htour hle
      evaluate := fun _ _ => Total.pure
      calm := threshold_calm _ _ }
    (s := s)
    { ready := .inl hf.inds
      given := by simp [hf.inds]
      fits := by simp [Cfg.Fits, floatOneMaxCfg, hf.checkers]
      executor := hf.shutdown }
  exact ⟨s', h⟩

/-- The vector has `n` cells, and all of them are less than 1. -/
def BelowOnes (n : Nat) (v : GA.Vec) : Prop := v.vector.length = n ∧ ∀ x ∈ v.vector, x < 1

theorem BelowOnes.sum {v : GA.Vec} (hn : 0 < n) (h : BelowOnes n v) : v.vector.sum < n := by
  obtain ⟨rfl, h⟩ := h
  obtain ⟨h1, h2⟩ := sum_le_of_zeroOne fun x hx => (h x hx).le
  refine lt_of_le_of_ne h1 fun he => ?_
  obtain ⟨x, hx⟩ := List.exists_mem_of_length_pos hn
  exact absurd (h2 he x hx) (h x hx).ne

/-- The cells of every vector an observer can see are less than 1, however the run ends. -/
theorem C153_cells (hn : 2 ≤ n) (hpts : points ≤ n) (hs : ∀ gen k, (sched gen k).Perm (List.range k)) {s s' : Run GA.Vec Unit}
    (hf : Fresh s) {r : Except Err Unit}
    (h : evolve (floatOneMaxCfg n pop tour points elite pCross pMut maxGen stream sched) s = (r, s')) :
    ∀ e ∈ s'.log, e.AllHave (BelowOnes n) := by
  intro e he
  have hall := run_invariant (floatOneMax_built hn hpts hs) (fun _ h => h.good (unit_proper n))
    (fun _ h => h.makes_cells (Q := (· < 1)) (unit_proper n) fun i => uniform_below i _ rfl rfl) (fun _ h => h.1.1.good) (fun _ h => h.2) (.inl hf.inds)
    ⟨by simp [hf.inds], hf.bestOfRun, hf.bestOfGen, hf.log⟩ r s' h e he
  have key : ∀ v : GA.Vec, GA.CellLegal (· < 1) .float (.tup [0, 1]) n v → BelowOnes n v := fun v hv => ⟨hv.1.2.2.2.1, hv.2⟩
  obtain ⟨h1, h2, h3⟩ := hall
  refine ⟨fun is hi r hr => ?_, fun b hb r hr => ?_, fun b hb r hr => ?_⟩
  · obtain ⟨i, g1, g2⟩ := h1 is hi r hr
    exact ⟨i, g1, key _ g2⟩
  · obtain ⟨i, g1, g2⟩ := h2 b hb r hr
    exact ⟨i, g1, key _ g2⟩
  · obtain ⟨i, g1, g2⟩ := h3 b hb r hr
    exact ⟨i, g1, key _ g2⟩

/-- **C153, partial.** What a run of the float OneMax example does, whatever is drawn: it goes through all generations, and
its best individual has the greatest sum of all vectors seen, which is less than the target. -/
theorem C153_float_partial (hn : 2 ≤ n) (hpts : points ≤ n) (hs : ∀ gen k, (sched gen k).Perm (List.range k))
    {s s' : Run GA.Vec Unit} (hf : Fresh s)
    (h : evolve (floatOneMaxCfg n pop tour points elite pCross pMut maxGen stream sched) s = (.ok (), s')) :
    s'.genNum = maxGen ∧
    ∃ b i, s'.bestOfRun = some b ∧ s'.w.heap[b]? = some i ∧ i.fit.value = .num i.genome.vector.sum ∧ i.genome.vector.sum < n ∧
      ∀ e ∈ s'.log, e.IsEval → ∀ r, e.Shows r → ∃ j, e.snap.heap[r]? = some j ∧ j.genome.vector.sum ≤ i.genome.vector.sum := by
  have hord := (floatOneMax_built (n := n) (pop := pop) (tour := tour) (points := points) (elite := elite) (pCross := pCross)
    (pMut := pMut) (maxGen := maxGen) (stream := stream) hn hpts hs).ordinary (fun _ h => h.good (unit_proper n)) (fun _ h => h.1.1.good)
  have hcomp : (floatOneMaxSub n pop tour points elite pCross pMut).Computes fun v => .ok (oneMax v) := fun _ _ => rfl
  have hready : s.Ready ⟨true, none⟩ := .inl hf.inds
  obtain ⟨b, i, q, h1, h2, h3, h4, -, h5⟩ := best_objective hord hcomp hready hf.log h
  simp only [Except.ok.injEq] at h3
  subst h3
  have hlt : oneMax i.genome < n := by
    obtain ⟨e, he, h10, h11⟩ := evolve_last h
    obtain ⟨j, g1, g2⟩ := (C153_cells hn hpts hs hf h e he).2.1 b (h11.trans h1) b (by simp)
    rw [h10, h2, Option.some.injEq] at g1
    subst g1
    exact g2.sum (by omega)
  refine ⟨?_, b, i, h1, h2, h4, hlt, ?_⟩
  · have hle : s'.genNum ≤ maxGen := by
      obtain ⟨snaps, stop, hc⟩ := C36_course hf.log hf.genNum (by simp [Cfg.Fits, floatOneMaxCfg, hf.checkers]) h
      have h6 := hc.genNum
      have h7 : snaps.length ≤ maxGen + 1 := hc.le
      omega
    by_contra hne
    obtain ⟨b', x, h6, ⟨i', h7, h8, -⟩, h9⟩ := C109_early rfl hf.log hf.genNum hf.checkers h (show s'.genNum < maxGen by omega)
    rw [h1, Option.some.injEq] at h6
    subst h6
    rw [h2, Option.some.injEq] at h7
    subst h7
    rw [h4, FVal.num.injEq] at h8
    subst h8
    have := abs_nonpos_iff.1 h9
    linarith
  · intro e he hev r hsh
    obtain ⟨j, x, h6, h7, h8⟩ := h5 e he hev r hsh
    simp only [Except.ok.injEq] at h7
    subst h7
    refine ⟨j, h6, ?_⟩
    simpa [Preferred, score, oneMax] using h8

/-- **C153, refuted.** No run of the float OneMax example finds its target, the vector of ones, whatever the sizes, the
probabilities and the random numbers: `uniform(0, 1)` never draws a 1. -/
theorem C153_refuted (hn : 2 ≤ n) (hpts : points ≤ n) (hs : ∀ gen k, (sched gen k).Perm (List.range k)) {s : Run GA.Vec Unit}
    (hf : Fresh s) :
    ¬ ∃ s', evolve (floatOneMaxCfg n pop tour points elite pCross pMut maxGen stream sched) s = (.ok (), s') ∧
      ((s'.genNum < maxGen) ∨ ∃ b i, s'.bestOfRun = some b ∧ s'.w.heap[b]? = some i ∧ i.fit.value = .num n) := by
  rintro ⟨s', h, h'⟩
  obtain ⟨h1, b, i, h2, h3, h4, h5, -⟩ := C153_float_partial hn hpts hs hf h
  rcases h' with h' | ⟨b', i', g2, g3, g4⟩
  · omega
  · rw [h2, Option.some.injEq] at g2
    subst g2
    rw [h3, Option.some.injEq] at g3
    subst g3
    rw [h4, FVal.num.injEq] at g4
    exact absurd g4 h5.ne

/-! A run with vectors of three cells, for two generations. -/

def exFloatOneMax : Cfg GA.Vec Unit :=
  floatOneMaxCfg 3 4 2 2 1 (1 / 2) 1 2 (fun seed k => (seed + 7 * k * k + k / 2) % 11) fun _ k => List.range k

theorem exFloatOneMax_ends : (evolve exFloatOneMax exOneMaxRun).1 = .ok () ∧ (evolve exFloatOneMax exOneMaxRun).2.genNum = 2 := by
  decide +kernel

example := C153_float_partial (n := 3) (by omega) (by omega) (fun _ _ => .refl _) exOneMaxRun_fresh (ran exFloatOneMax_ends.1)

example : ∃ s', evolve exFloatOneMax exOneMaxRun = (.ok (), s') :=
  C153_returns (by omega) (by omega) (by omega) ⟨2, rfl⟩ (by omega) (by omega) (fun _ _ => .refl _) exOneMaxRun_fresh

/-- The run of the script itself: it always goes through its 500 generations. -/
example (stream : Nat → Tape) (s : Run GA.Vec Unit) (hf : Fresh s) :
    ∃ s', evolve (floatOneMaxCfg 100 300 3 50 1 (7 / 10) (3 / 10) 500 stream fun _ k => List.range k) s = (.ok (), s') ∧
      s'.genNum = 500 := by
  obtain ⟨s', h⟩ := C153_returns (n := 100) (pop := 300) (tour := 3) (points := 50) (elite := 1) (pCross := 7 / 10)
    (pMut := 3 / 10) (maxGen := 500) (stream := stream) (by omega) (by omega) (by omega) ⟨150, rfl⟩ (by omega) (by omega)
    (fun _ k => .refl (List.range k)) hf
  exact ⟨s', h, (C153_float_partial (by omega) (by omega) (fun _ _ => .refl _) hf h).1⟩

end Verif.Examples
