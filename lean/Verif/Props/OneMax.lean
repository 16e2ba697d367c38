import Verif.Model.Examples
import Verif.Props.Checkers
import Verif.Props.Target

/-! # C138: the OneMax example -/

namespace Verif.Examples
open PyM Evo
variable {n pop tour maxGen : Nat} {elite : Int} {pCross pMut pEach : ℚ} {stream : Nat → Tape} {sched : Nat → Nat → List Nat}

/-- A run that is about to start: nothing has been created, evaluated or recorded. -/
structure Fresh {G : Type} (s : Run G Unit) : Prop where
  inds : s.inds = [none]
  bestOfRun : s.bestOfRun = none
  bestOfGen : s.bestOfGen = none
  genNum : s.genNum = 0
  checkers : s.checkers = [()]
  shutdown : s.shutdown = false
  log : s.log = []

/-- The vector has `n` cells, all of them 1. -/
def AllOnes (n : Nat) (v : GA.Vec) : Prop := v.vector = List.replicate n 1

theorem zeroOne_proper (n : Nat) : (GA.Bounds.tup [0, 1]).Proper .bit n where
  legal := by
    refine ⟨by simp, fun i lo hi h => ?_⟩
    simp only [GA.Bounds.At, List.cons.injEq, and_true] at h
    obtain ⟨rfl, rfl⟩ := h
    norm_num
  integral := by
    intro _ i lo hi h
    simp only [GA.Bounds.At, List.cons.injEq, and_true] at h
    obtain ⟨rfl, rfl⟩ := h
    exact ⟨⟨0, by norm_num⟩, ⟨1, by norm_num⟩⟩
  pair := fun _ => ⟨0, 1, rfl⟩
  notTwo := by simp [GA.Bounds.TwoPairs]

theorem oneMax_built (hn : 2 ≤ n) (hs : ∀ gen k, (sched gen k).Perm (List.range k)) :
    (oneMaxCfg n pop tour elite pCross pMut pEach maxGen stream sched).BuiltWith
      (oneMaxSub n pop tour elite pCross pMut pEach) ⟨true, none⟩ (GA.LibCreator .bit (.tup [0, 1]) n ⟨true, none⟩)
      (GA.PairedOp .bit n) where
  subs := rfl
  dir := rfl
  creators := by
    intro create h
    simp only [oneMaxSub, List.mem_singleton] at h
    subst h
    exact .mk _ _ ⟨rfl, rfl⟩
  sels := ⟨_, _, rfl, tournament_good _ _, tournament_fills _ _⟩
  ops := by
    intro o ho
    simp only [oneMaxSub, List.mem_cons, List.not_mem_nil, or_false] at ho
    rcases ho with rfl | rfl
    · exact ⟨.crossover _ _ _ (by omega), fun _ => le_refl _⟩
    · refine ⟨.mutation (.bitNFlip n pEach) _ _ rfl (by simp [GA.MutationClass.points]), fun h => ?_⟩
      simp [GA.mutationOp, Op.inPlace] at h
  sched := hs
  map := rfl

theorem threshold_calm {G : Type} {size : G → Nat} {hib : Bool} {K : Unit → Prop} (optimal thr : ℚ) :
    Checker.Calm size hib K (threshold optimal thr) := by
  rintro k heap inds best gen ⟨hk, w, is, b, x, rfl, rfl, hne, hev, rfl, hx⟩
  obtain ⟨q, hq⟩ := hx.pure
  refine ⟨decide (|q - optimal| ≤ thr), k, ?_, hk⟩
  unfold Evo.threshold
  simp only [hq]

/-- **C138**: the run returns, if the population size is even and positive and the tournaments are not larger than the
population. -/
theorem C138_returns (hn : 2 ≤ n) (hpop : 0 < pop) (heven : 2 ∣ pop) (htour : 0 < tour) (hle : tour ≤ pop)
    (hs : ∀ gen k, (sched gen k).Perm (List.range k)) {s : Run GA.Vec Unit} (hf : Fresh s) :
    ∃ s', evolve (oneMaxCfg n pop tour elite pCross pMut pEach maxGen stream sched) s = (.ok (), s') := by
  obtain ⟨s', h, -⟩ := GA.C80_vectors (zeroOne_proper n) (oneMax_built hn hs) (K := fun _ => True)
    { popSize := hpop
      arities := by
        intro a ha
        simp [oneMaxSub, GA.crossoverOp, GA.mutationOp, Op.inPlace, tournament] at ha
        rcases ha with rfl | rfl | rfl
        · simp
        · exact ⟨by simp, heven⟩
        · simp
      pick := fun t => ⟨0, t, rfl, Nat.one_pos⟩
      select := by
        intro sel rest h
        simp only [oneMaxSub, List.cons.injEq] at h
        obtain ⟨rfl, -⟩ := h
        exact tournament_worksOn htour hle
      evaluate := fun _ _ => Total.pure
      calm := threshold_calm _ _ }
    (s := s)
    { ready := .inl hf.inds
      given := by simp [hf.inds]
      fits := by simp [Cfg.Fits, oneMaxCfg, hf.checkers]
      executor := hf.shutdown }
  exact ⟨s', h⟩

theorem sum_le_of_zeroOne {l : List ℚ} (h : ∀ x ∈ l, x ≤ 1) : l.sum ≤ l.length ∧ (l.sum = l.length → ∀ x ∈ l, x = 1) := by
  induction l with
  | nil => simp
  | cons y l ih =>
    obtain ⟨h1, h2⟩ := ih fun x hx => h x (by simp [hx])
    have hy := h y (by simp)
    rw [List.sum_cons, List.length_cons]
    push_cast
    refine ⟨by linarith, fun he x hx => ?_⟩
    have h3 : l.sum = l.length := by linarith
    rcases List.mem_cons.1 hx with rfl | hx
    · linarith
    · exact h2 h3 x hx

theorem legal_oneMax {v : GA.Vec} (h : GA.Legal .bit (.tup [0, 1]) n v) : oneMax v ≤ n ∧ (oneMax v = n ↔ AllOnes n v) := by
  obtain ⟨-, hb, -, hl, hin⟩ := h
  have hcell : ∀ x ∈ v.vector, x ≤ 1 := by
    intro x hx
    obtain ⟨i, hi⟩ := List.mem_iff_getElem?.1 hx
    obtain ⟨lo, hi, hat, -, hle⟩ := hin i x hi
    rw [hb] at hat
    simp only [GA.Bounds.At, List.cons.injEq, and_true] at hat
    obtain ⟨rfl, rfl⟩ := hat
    exact hle
  obtain ⟨h1, h2⟩ := sum_le_of_zeroOne hcell
  rw [hl] at h1 h2
  unfold oneMax AllOnes
  refine ⟨h1, fun h => ?_, fun h => ?_⟩
  · exact List.eq_replicate_iff.2 ⟨hl, h2 h⟩
  · rw [h]; simp

/-- A vector with nothing but ones was in the population at the end of one of these evaluations. -/
def SomeoneAllOnes (n : Nat) (past : List (Event GA.Vec)) : Prop :=
  ∃ e ∈ past, e.IsEval ∧ ∃ r i, e.Shows r ∧ e.snap.heap[r]? = some i ∧ AllOnes n i.genome

/-- What the example promises: a run that ends early has found the vector of ones, and a run that has found it ends. -/
structure Solves (n maxGen : Nat) (s' : Run GA.Vec Unit) : Prop where
  /-- there is a best individual, its fitness is the number of its ones, and no vector seen has more -/
  best : ∃ b i, s'.bestOfRun = some b ∧ s'.w.heap[b]? = some i ∧ i.fit.value = .num i.genome.vector.sum ∧
    ∀ e ∈ s'.log, e.IsEval → ∀ r, e.Shows r → ∃ j, e.snap.heap[r]? = some j ∧ j.genome.vector.sum ≤ i.genome.vector.sum
  /-- if it ended before the last generation, this individual is the vector of ones -/
  early : s'.genNum < maxGen → ∃ b i, s'.bestOfRun = some b ∧ s'.w.heap[b]? = some i ∧ AllOnes n i.genome
  /-- if somebody is the vector of ones by the end of a generation (or of the initialisation), it is the last one -/
  stops : ∀ past e future, s'.log = past ++ e :: future → e.isPoint = true → SomeoneAllOnes n past → s'.genNum = e.snap.genNum

theorem evolve_last {G κ : Type} {c : Cfg G κ} {s s' : Run G κ} (h : evolve c s = (.ok (), s')) :
    ∃ e ∈ s'.log, e.snap.heap = s'.w.heap ∧ e.snap.bestOfRun = s'.bestOfRun := by
  unfold evolve at h
  obtain ⟨_, s₁, h1, h⟩ := bind_ok.1 h
  obtain ⟨_, s₂, h2, h⟩ := bind_ok.1 h
  obtain ⟨_, s₃, h3, h⟩ := bind_ok.1 h
  simp only [publish, PyM.modify, Prod.mk.injEq] at h3 h
  obtain ⟨-, rfl⟩ := h3
  obtain ⟨-, rfl⟩ := h
  exact ⟨_, List.mem_append_right _ (List.mem_singleton.2 rfl), rfl, rfl⟩

/-- **C138.** Whatever the sizes, the probabilities and the random numbers: a run of the OneMax example that returns does
what the example promises. -/
theorem C138_one_max (hn : 2 ≤ n) (hs : ∀ gen k, (sched gen k).Perm (List.range k)) {s s' : Run GA.Vec Unit} (hf : Fresh s)
    (h : evolve (oneMaxCfg n pop tour elite pCross pMut pEach maxGen stream sched) s = (.ok (), s')) : Solves n maxGen s' := by
  have hb := zeroOne_proper n
  have hbuilt := oneMax_built (n := n) (pop := pop) (tour := tour) (elite := elite) (pCross := pCross) (pMut := pMut)
    (pEach := pEach) (maxGen := maxGen) (stream := stream) hn hs
  have hord := hbuilt.ordinary (fun _ h => h.good hb) (fun _ h => h.1.good)
  have hcomp : (oneMaxSub n pop tour elite pCross pMut pEach).Computes fun v => .ok (oneMax v) := fun _ _ => rfl
  have hready : s.Ready ⟨true, none⟩ := .inl hf.inds
  have hall := GA.C76_vectors_legal hb { hbuilt with ops := fun o ho => (hbuilt.ops o ho).1 } hready
    ⟨by simp [hf.inds], hf.bestOfRun, hf.bestOfGen, hf.log⟩ _ _ h
  have hbestLegal : ∀ e ∈ s'.log, ∀ b i, e.snap.bestOfRun = some b → e.snap.heap[b]? = some i →
      GA.Legal .bit (.tup [0, 1]) n i.genome := by
    intro e he b i h1 h2
    obtain ⟨j, h3, h4⟩ := (hall e he).2.1 b h1 b (by simp)
    rw [h2, Option.some.injEq] at h3
    exact h3 ▸ h4
  obtain ⟨b, i, q, h1, h2, h3, h4, -, h5⟩ := best_objective hord hcomp hready hf.log h
  simp only [Except.ok.injEq] at h3
  subst h3
  refine ⟨⟨b, i, h1, h2, h4, ?_⟩, fun hearly => ⟨b, i, h1, h2, ?_⟩, ?_⟩
  · intro e he hev r hsh
    obtain ⟨j, x, h6, h7, h8⟩ := h5 e he hev r hsh
    simp only [Except.ok.injEq] at h7
    subst h7
    refine ⟨j, h6, ?_⟩
    simpa [Preferred, score, oneMax] using h8
  · obtain ⟨b', x, h6, ⟨i', h7, h8, -⟩, h9⟩ := C109_early rfl hf.log hf.genNum hf.checkers h hearly
    rw [h1, Option.some.injEq] at h6
    subst h6
    rw [h2, Option.some.injEq] at h7
    subst h7
    rw [h4, FVal.num.injEq] at h8
    subst h8
    obtain ⟨e, he, h10, h11⟩ := evolve_last h
    refine ((legal_oneMax (hbestLegal e he b i (h11.trans h1) (by rw [h10]; exact h2))).2).1 ?_
    have := abs_nonpos_iff.1 h9
    linarith
  · rintro past e future hl hpt ⟨e', he', hev, r, j, hsh, hj, hones⟩
    have hstop := C109_legal_partial hord rfl hcomp (.inl rfl) (P := GA.Legal .bit (.tup [0, 1]) n)
      (by
        intro g x hP hx
        simp only [Except.ok.injEq] at hx
        subst hx
        simpa [Preferred] using (legal_oneMax hP).1)
      hready hf.log hf.genNum hf.checkers h hbestLegal
    refine hstop past e future hl hpt ⟨e', he', hev, r, oneMax j.genome, hsh, ?_, ?_⟩
    · have hval := evolve_evals hord (valued_prop hord hcomp) hready hf.log _ _ h
      obtain ⟨j', x, h6, h7, h8, h9, -⟩ := hval e' (by rw [hl]; simp [he']) hev r hsh
      simp only [Except.ok.injEq] at h7
      rw [hj, Option.some.injEq] at h6
      subst h6 h7
      exact ⟨j, hj, h8, h9⟩
    · have : oneMax j.genome = n := by
        unfold oneMax
        rw [hones]
        simp
      simp [Reached, this]

/-! A run with vectors of three cells. -/

def exOneMax : Cfg GA.Vec Unit :=
  oneMaxCfg 3 4 2 1 (1 / 2) 1 (1 / 2) 5 (fun seed k => (seed + 7 * k * k + k / 2) % 11) fun _ k => List.range k

def exOneMaxRun : Run GA.Vec Unit :=
  ⟨⟨[], 1, fun k => k⟩, [none], none, none, none, 0, 0, 0, none, [()], false, []⟩

theorem exOneMaxRun_fresh : Fresh exOneMaxRun := ⟨rfl, rfl, rfl, rfl, rfl, rfl, rfl⟩

/-- It ends in generation 3 of 5. -/
theorem exOneMax_ends : (evolve exOneMax exOneMaxRun).1 = .ok () ∧ (evolve exOneMax exOneMaxRun).2.genNum = 3 := by decide +kernel

example : Solves 3 5 (evolve exOneMax exOneMaxRun).2 :=
  C138_one_max (by omega) (fun _ _ => .refl _) exOneMaxRun_fresh (ran exOneMax_ends.1)

example : ∃ s', evolve exOneMax exOneMaxRun = (.ok (), s') :=
  C138_returns (by omega) (by omega) ⟨2, rfl⟩ (by omega) (by omega) (fun _ _ => .refl _) exOneMaxRun_fresh

/-- The run of the script itself: vectors of 100 cells, 300 of them, for at most 500 generations. -/
example (stream : Nat → Tape) (s : Run GA.Vec Unit) (hf : Fresh s) :
    ∃ s', evolve (oneMaxCfg 100 300 3 1 (1 / 2) (1 / 5) (1 / 20) 500 stream fun _ k => List.range k) s = (.ok (), s') ∧
      Solves 100 500 s' := by
  obtain ⟨s', h⟩ := C138_returns (n := 100) (pop := 300) (tour := 3) (elite := 1) (pCross := 1 / 2) (pMut := 1 / 5) (pEach := 1 / 20)
    (maxGen := 500) (stream := stream) (by omega) (by omega) ⟨150, rfl⟩ (by omega) (by omega) (fun _ k => .refl (List.range k)) hf
  exact ⟨s', h, C138_one_max (by omega) (fun _ _ => .refl _) hf h⟩

end Verif.Examples
