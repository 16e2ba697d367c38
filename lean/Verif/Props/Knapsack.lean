import Verif.Model.Examples
import Verif.Props.OneMax

/-! # C139, C140: the knapsack example -/

namespace Verif.Examples
open PyM Evo

/-! ## C139: the constructor -/

/-- What the message of the constructor asks for: tuples of a weight, an `int`, and a price, an `int` or a `float`. -/
def GoodItem (a : ItemArg) : Prop := ∃ w v, a = .tup [.int w, v] ∧ v ≠ .other

/-- C139: lists of such tuples are accepted and numbered, others are rejected with `ValueError`. -/
def C139_statement : Prop :=
  ∀ items : List ItemArg,
    ((∀ a ∈ items, GoodItem a) → knapsackList items = .ok (items.zipIdx.map fun p => (p.2, p.1))) ∧
    ((∃ a ∈ items, ¬ GoodItem a) → knapsackList items = .error .valueError)

theorem rejects_not_false (a : ItemArg) : rejects a ≠ .ok false := by
  unfold rejects
  cases a with
  | other => simp
  | tup fields =>
    cases fields with
    | nil => simp
    | cons w rest =>
      dsimp only
      split
      · simp
      · cases rest <;> simp

/-- C139: every list with an element is rejected. -/
theorem C139_rejects (a : ItemArg) (items : List ItemArg) : ∃ e, knapsackList (a :: items) = .error e := by
  unfold knapsackList checkItems
  have := rejects_not_false a
  cases h : rejects a with
  | error e => exact ⟨e, rfl⟩
  | ok b =>
    cases b with
    | true => exact ⟨.valueError, rfl⟩
    | false => exact absurd h this

/-- **C139 is false**: the list with the one item of weight 1 and price 2 is rejected. -/
theorem C139_refuted : ¬ C139_statement := by
  intro h
  have h1 := (h [.tup [.int 1, .int 2]]).1 (by
    intro a ha
    rw [List.mem_singleton] at ha
    exact ⟨1, .int 2, ha, by simp⟩)
  obtain ⟨e, he⟩ := C139_rejects (.tup [.int 1, .int 2]) []
  rw [he] at h1
  cases h1

/-- **C139 (partial)**: a list with a tuple of two or more elements at its head, or with something that is not a tuple, is
rejected with `ValueError`, and the empty list is accepted.  What is missing: that lists of good items are accepted. -/
theorem C139_partial : knapsackList [] = .ok [] ∧
    (∀ w v rest items, knapsackList (.tup (w :: v :: rest) :: items) = .error .valueError) ∧
    ∀ items, knapsackList (.other :: items) = .error .valueError := by
  refine ⟨rfl, fun w v rest items => ?_, fun _ => rfl⟩
  have : rejects (.tup (w :: v :: rest)) = .ok true := by
    unfold rejects
    dsimp only
    split <;> rfl
  unfold knapsackList checkItems
  rw [this]
  rfl

/-! ## C140: the evaluator -/

/-- The sum of the numbers given to the items in the bag: those with a cell that is not zero. -/
def total (f : ℚ × ℚ → ℚ) (items : List (ℚ × ℚ)) (cells : List ℚ) : ℚ :=
  ((items.zip cells).filter fun p => decide (p.2 ≠ 0)).map (fun p => f p.1) |>.sum

theorem bag_eq (items : List (ℚ × ℚ)) (k : Nat) (cells : List ℚ) (h : k + cells.length ≤ items.length) :
    bag items ((cells.zipIdx k).map fun p => (p.2, p.1)) =
      .ok (total Prod.fst (items.drop k) cells, total Prod.snd (items.drop k) cells) := by
  induction cells generalizing k with
  | nil => simp [bag, total]
  | cons x cells ih =>
    simp only [List.length_cons] at h
    rw [List.zipIdx_cons, List.map_cons]
    unfold bag
    rw [ih (k + 1) (by omega)]
    have hk : k < items.length := by omega
    have hd : items.drop k = items[k] :: items.drop (k + 1) := List.drop_eq_getElem_cons hk
    by_cases hx : x = 0
    · simp only [hx, hd, total, List.zip_cons_cons, List.filter_cons]
      simp [bind, Except.bind]
    · simp only [hd, total, List.zip_cons_cons, List.filter_cons]
      simp [bind, Except.bind, hx, List.getElem?_eq_getElem hk, add_comm]

/-- **C140.** With an item for every cell, the fitness is `-inf` exactly if the bag is too heavy, and the value of the bag
otherwise. -/
theorem C140_fitness {items : List (ℚ × ℚ)} {maxWeight : ℚ} {v : GA.Vec} (h : v.vector.length ≤ items.length) :
    knapsack items maxWeight v =
      .ok (if total Prod.fst items v.vector > maxWeight then none else some (total Prod.snd items v.vector)) := by
  unfold knapsack
  rw [bag_eq items 0 v.vector (by simpa using h)]
  simp only [List.drop_zero, bind, Except.bind]
  split <;> rfl

theorem bag_ok {items : List (ℚ × ℚ)} {k : Nat} {cells : List ℚ} {p : ℚ × ℚ}
    (h : bag items ((cells.zipIdx k).map fun p => (p.2, p.1)) = .ok p) :
    p = (total Prod.fst (items.drop k) cells, total Prod.snd (items.drop k) cells) := by
  induction cells generalizing k p with
  | nil =>
    simp only [List.zipIdx_nil, List.map_nil, bag, Except.ok.injEq] at h
    subst h
    simp [total]
  | cons x cells ih =>
    rw [List.zipIdx_cons, List.map_cons] at h
    unfold bag at h
    cases hr : bag items ((cells.zipIdx (k + 1)).map fun p => (p.2, p.1)) with
    | error e => rw [hr] at h; simp [bind, Except.bind] at h
    | ok q =>
      rw [hr] at h
      have hq := ih hr
      subst hq
      simp only [bind, Except.bind] at h
      rcases Nat.lt_or_ge k items.length with hk | hk
      · have hd : items.drop k = items[k] :: items.drop (k + 1) := List.drop_eq_getElem_cons hk
        by_cases hx : x = 0
        · simp only [hx, ne_eq, not_true_eq_false, if_false, Except.ok.injEq] at h
          rw [← h, hd]
          simp only [total, List.zip_cons_cons, List.filter_cons]
          simp [hx]
        · simp only [ne_eq, hx, not_false_eq_true, if_true, List.getElem?_eq_getElem hk, Except.ok.injEq] at h
          rw [← h, hd]
          simp only [total, List.zip_cons_cons, List.filter_cons]
          simp [hx, add_comm]
      · by_cases hx : x = 0
        · simp only [hx, ne_eq, not_true_eq_false, if_false, Except.ok.injEq] at h
          rw [← h, List.drop_eq_nil_of_le hk, List.drop_eq_nil_of_le (by omega)]
          simp [total]
        · simp [hx, List.getElem?_eq_none hk] at h

theorem knapsack_ok {items : List (ℚ × ℚ)} {maxWeight : ℚ} {v : GA.Vec} {r : Option ℚ} (h : knapsack items maxWeight v = .ok r) :
    r = if total Prod.fst items v.vector > maxWeight then none else some (total Prod.snd items v.vector) := by
  unfold knapsack at h
  cases hr : bag items (v.vector.zipIdx.map fun p => (p.2, p.1)) with
  | error e => rw [hr] at h; simp [bind, Except.bind] at h
  | ok p =>
    rw [hr] at h
    have := bag_ok hr
    subst this
    simp only [bind, Except.bind, List.drop_zero] at h
    split at h <;> rename_i hw <;> simp only [Except.ok.injEq] at h <;> simp [← h, hw]

theorem bag_error {items : List (ℚ × ℚ)} {cells : List (Nat × ℚ)} {e : Err} (h : bag items cells = .error e) : e = .keyError := by
  induction cells with
  | nil => simp [bag] at h
  | cons p cells ih =>
    obtain ⟨i, x⟩ := p
    unfold bag at h
    cases hr : bag items cells with
    | error e' =>
      rw [hr] at h ih
      simp only [bind, Except.bind] at h
      exact ih h
    | ok q =>
      rw [hr] at h
      simp only [bind, Except.bind] at h
      split at h
      · split at h
        · simp at h
        · exact (Except.error.inj h).symm
      · simp at h

theorem bag_missing {items : List (ℚ × ℚ)} (k : Nat) (cells : List ℚ) {i : Nat} {x : ℚ} (hi : cells[i]? = some x) (hx : x ≠ 0)
    (h : items.length ≤ k + i) : bag items ((cells.zipIdx k).map fun p => (p.2, p.1)) = .error .keyError := by
  cases hr : bag items ((cells.zipIdx k).map fun p => (p.2, p.1)) with
  | error e => rw [bag_error hr]
  | ok p =>
    exfalso
    induction cells generalizing k i p with
    | nil => simp at hi
    | cons y cells ih =>
      rw [List.zipIdx_cons, List.map_cons] at hr
      unfold bag at hr
      cases hr' : bag items ((cells.zipIdx (k + 1)).map fun p => (p.2, p.1)) with
      | error e => rw [hr'] at hr; simp [bind, Except.bind] at hr
      | ok q =>
        cases i with
        | succ i => exact ih (k + 1) (by simpa using hi) (by omega) _ hr'
        | zero =>
          simp only [List.getElem?_cons_zero, Option.some.injEq] at hi
          subst hi
          rw [hr'] at hr
          simp [bind, Except.bind, hx, List.getElem?_eq_none (show items.length ≤ k by simpa using h)] at hr

/-- **C140**: a cell that is not zero and has no item is a `KeyError`. -/
theorem C140_missing {items : List (ℚ × ℚ)} {maxWeight : ℚ} {v : GA.Vec} {i : Nat} {x : ℚ} (hi : v.vector[i]? = some x) (hx : x ≠ 0)
    (h : items.length ≤ i) : knapsack items maxWeight v = .error .keyError := by
  unfold knapsack
  rw [bag_missing 0 v.vector hi hx (by simpa using h)]
  rfl

variable {κ : Type} {c : Cfg GA.Vec κ} {sub : SubCfg GA.Vec} {m : Mode} {s s' : Run GA.Vec κ}

/-- The bag is not too heavy. -/
def Feasible (items : List (ℚ × ℚ)) (maxWeight : ℚ) (v : GA.Vec) : Prop := total Prod.fst items v.vector ≤ maxWeight

/-- **C140** for runs: if some bag that has been evaluated is not too heavy, the best individual of the run is not too heavy,
and no bag that has been evaluated and is not too heavy is worth more.  A number `low` below the values of all bags that are
not too heavy stands for `-inf`. -/
theorem C140_run {items : List (ℚ × ℚ)} {maxWeight low : ℚ} (hc : c.Ordinary sub m) (hm : m.hib = true)
    (hbloat : m.bloat = none ∨ m.bloat = some 0)
    (hd : sub.Computes fun v => (knapsack items maxWeight v).map (·.getD low))
    (hlow : ∀ v, Feasible items maxWeight v → low < total Prod.snd items v.vector)
    (hr : s.Ready m) (hlog : s.log = []) (h : evolve c s = (.ok (), s'))
    {e₀ : Event GA.Vec} {r₀ : Nat} {j₀ : Ind GA.Vec} (he₀ : e₀ ∈ s'.log) (hev₀ : e₀.IsEval) (hsh₀ : e₀.Shows r₀)
    (hj₀ : e₀.snap.heap[r₀]? = some j₀) (hfe₀ : Feasible items maxWeight j₀.genome) :
    ∃ b i, s'.bestOfRun = some b ∧ s'.w.heap[b]? = some i ∧ Feasible items maxWeight i.genome ∧
      ∀ e ∈ s'.log, e.IsEval → ∀ r j, e.Shows r → e.snap.heap[r]? = some j → Feasible items maxWeight j.genome →
        total Prod.snd items j.genome.vector ≤ total Prod.snd items i.genome.vector := by
  have hval : ∀ v q, (knapsack items maxWeight v).map (·.getD low) = .ok q →
      q = if total Prod.fst items v.vector > maxWeight then low else total Prod.snd items v.vector := by
    intro v q hq
    cases hk : knapsack items maxWeight v with
    | error e => rw [hk] at hq; simp [Except.map] at hq
    | ok r =>
      rw [hk] at hq
      have := knapsack_ok hk
      simp only [Except.map, Except.ok.injEq] at hq
      rw [← hq, this]
      split <;> rfl
  have hfeas : ∀ v, Feasible items maxWeight v ↔ ¬ total Prod.fst items v.vector > maxWeight := fun v => not_lt.symm
  obtain ⟨b, i, q, h1, h2, h3, -, -, h5⟩ := best_objective hc hd hr hlog h
  have hcmp : ∀ e ∈ s'.log, e.IsEval → ∀ r j, e.Shows r → e.snap.heap[r]? = some j → Feasible items maxWeight j.genome →
      total Prod.snd items j.genome.vector ≤ q := by
    intro e he hev r j hsh hj hfe
    obtain ⟨j', x, h6, h7, h8⟩ := h5 e he hev r hsh
    rw [hj, Option.some.injEq] at h6
    subst h6
    have hx := hval _ _ h7
    rw [if_neg ((hfeas _).1 hfe)] at hx
    subst hx
    rw [hm] at h8
    rcases hbloat with hb | hb <;> simpa [Preferred, score, hb] using h8
  have hq := hval _ _ h3
  have hbest : Feasible items maxWeight i.genome := by
    rw [hfeas]
    intro hheavy
    rw [if_pos hheavy] at hq
    have := hcmp e₀ he₀ hev₀ r₀ j₀ hsh₀ hj₀ hfe₀
    have := hlow _ hfe₀
    linarith
  refine ⟨b, i, h1, h2, hbest, ?_⟩
  rw [if_neg ((hfeas _).1 hbest)] at hq
  rw [← hq]
  exact hcmp

/-- What the example promises: there is a best individual, it is a bag of items, and if any bag seen in the run is not too
heavy, it is not too heavy either, and none of these bags is worth more. -/
def PacksWell (n : Nat) (items : List (ℚ × ℚ)) (maxWeight : ℚ) (s' : Run GA.Vec Unit) : Prop :=
  ∃ b i, s'.bestOfRun = some b ∧ s'.w.heap[b]? = some i ∧ i.genome.vector.length = n ∧
    ∀ e ∈ s'.log, e.IsEval → ∀ r j, e.Shows r → e.snap.heap[r]? = some j → Feasible items maxWeight j.genome →
      Feasible items maxWeight i.genome ∧ total Prod.snd items j.genome.vector ≤ total Prod.snd items i.genome.vector

variable {n pop tour maxGen : Nat} {elite : Int} {pCross pMut : ℚ} {stream : Nat → Tape} {sched : Nat → Nat → List Nat}

theorem knapsack_built {items : List (ℚ × ℚ)} {maxWeight low : ℚ} (hn : 3 ≤ n) (hs : ∀ gen k, (sched gen k).Perm (List.range k)) :
    (knapsackCfg n pop tour elite pCross pMut items maxWeight low maxGen stream sched).BuiltWith
      (knapsackSub n pop tour elite pCross pMut items maxWeight low) ⟨true, none⟩ (GA.LibCreator .bit (.tup [0, 1]) n ⟨true, none⟩)
      (GA.PairedOp .bit n) where
  subs := rfl
  dir := rfl
  creators := by
    intro create h
    simp only [knapsackSub, List.mem_singleton] at h
    subst h
    exact .mk _ _ ⟨rfl, rfl⟩
  sels := ⟨_, _, rfl, tournament_good _ _, tournament_fills _ _⟩
  ops := by
    intro o ho
    simp only [knapsackSub, List.mem_cons, List.not_mem_nil, or_false] at ho
    rcases ho with rfl | rfl
    · exact ⟨.crossover _ _ _ (by omega), fun _ => le_refl _⟩
    · refine ⟨.mutation .bitFlip _ _ rfl (fun k hk => ?_), fun h => ?_⟩
      · simp [GA.MutationClass.points] at hk
        omega
      · simp [GA.mutationOp, Op.inPlace] at h
  sched := hs
  map := rfl

/-- **C140** for the example itself, with any items of which none has a negative price and of which there is one for every
cell: whatever the sizes (an even number of individuals, at least as many as a tournament needs), the probabilities and the
random numbers, the run returns and has done what it promises. -/
theorem C140_example {items : List (ℚ × ℚ)} {maxWeight : ℚ} (hn : 3 ≤ n) (hitems : items.length = n) (hprice : ∀ it ∈ items, 0 ≤ it.2)
    (hpop : 0 < pop) (heven : 2 ∣ pop) (htour : 0 < tour) (hle : tour ≤ pop)
    (hs : ∀ gen k, (sched gen k).Perm (List.range k)) {s : Run GA.Vec Unit} (hf : Fresh s) :
    ∃ s', evolve (knapsackCfg n pop tour elite pCross pMut items maxWeight (-1) maxGen stream sched) s = (.ok (), s') ∧
      PacksWell n items maxWeight s' := by
  have hb := zeroOne_proper n
  have hbuilt := knapsack_built (n := n) (pop := pop) (tour := tour) (elite := elite) (pCross := pCross) (pMut := pMut)
    (maxGen := maxGen) (stream := stream) (items := items) (maxWeight := maxWeight) (low := -1) hn hs
  have hval : ∀ v : GA.Vec, GA.Legal .bit (.tup [0, 1]) n v → ∃ q, (knapsack items maxWeight v).map (·.getD (-1)) = .ok q := by
    rintro v ⟨-, -, -, hl, -⟩
    rw [C140_fitness (by omega)]
    exact ⟨_, rfl⟩
  obtain ⟨s', h, -⟩ := GA.C80_vectors hb hbuilt (K := fun _ => True)
    { popSize := hpop
      arities := by
        intro a ha
        simp [knapsackSub, GA.crossoverOp, GA.mutationOp, Op.inPlace, tournament] at ha
        rcases ha with rfl | rfl | rfl
        · simp
        · exact ⟨by simp, heven⟩
        · simp
      pick := fun t => ⟨0, t, rfl, Nat.one_pos⟩
      select := by
        intro sel rest h
        simp only [knapsackSub, List.cons.injEq] at h
        obtain ⟨rfl, -⟩ := h
        exact tournament_worksOn htour hle
      evaluate := by
        intro v hv t
        obtain ⟨q, hq⟩ := hval v hv
        simp [knapsackSub, PyM.ofExcept, hq]
      calm := trivial }
    (s := s)
    { ready := .inl hf.inds
      given := by simp [hf.inds]
      fits := by simp [Cfg.Fits, knapsackCfg]
      executor := hf.shutdown }
  refine ⟨s', h, ?_⟩
  have hord := hbuilt.ordinary (fun _ h => h.good hb) (fun _ h => h.1.good)
  have hcomp : (knapsackSub n pop tour elite pCross pMut items maxWeight (-1)).Computes
      fun v => (knapsack items maxWeight v).map (·.getD (-1)) := by
    intro v t
    simp [knapsackSub, PyM.ofExcept]
  have hready : s.Ready ⟨true, none⟩ := .inl hf.inds
  have hall := GA.C76_vectors_legal hb { hbuilt with ops := fun o ho => (hbuilt.ops o ho).1 } hready
    ⟨by simp [hf.inds], hf.bestOfRun, hf.bestOfGen, hf.log⟩ _ _ h
  obtain ⟨b, i, q, h1, h2, -⟩ := best_objective hord hcomp hready hf.log h
  obtain ⟨e', he', h10, h11⟩ := evolve_last h
  have hlen : i.genome.vector.length = n := by
    obtain ⟨j, h3, h4⟩ := (hall e' he').2.1 b (h11.trans h1) b (by simp)
    rw [h10, h2, Option.some.injEq] at h3
    subst h3
    exact h4.2.2.2.1
  have hlow : ∀ v, Feasible items maxWeight v → (-1 : ℚ) < total Prod.snd items v.vector := by
    intro v _
    have : 0 ≤ total Prod.snd items v.vector := by
      unfold total
      refine List.sum_nonneg fun x hx => ?_
      obtain ⟨p, hp, rfl⟩ := List.mem_map.1 hx
      exact hprice _ (List.of_mem_zip (a := p.1) (b := p.2) (List.mem_filter.1 hp).1).1
    linarith
  refine ⟨b, i, h1, h2, hlen, fun e he hev r j hsh hj hfe => ?_⟩
  obtain ⟨b', i', h3, h4, h5, h6⟩ := C140_run hord rfl (.inl rfl) hcomp hlow hready hf.log h he hev hsh hj hfe
  rw [h1, Option.some.injEq] at h3
  subst h3
  rw [h2, Option.some.injEq] at h4
  subst h4
  exact ⟨h5, h6 e he hev r j hsh hj hfe⟩

/-- **C140** for the items the evaluator makes if it is given none: they are as the theorem before needs them, for vectors of
twenty cells. -/
theorem C140_default : Ensures knapsackDefault fun items =>
    items.length = 20 ∧ ∀ it ∈ items, (1 ≤ it.1 ∧ it.1 ≤ 10) ∧ 0 ≤ it.2 ∧ it.2 ≤ 100 := by
  unfold knapsackDefault
  refine (replicateM_ensures (Q := fun it : ℚ × ℚ => (1 ≤ it.1 ∧ it.1 ≤ 10) ∧ 0 ≤ it.2 ∧ it.2 ≤ 100) 20 ?_).mono
    (fun items h => ⟨h.1, h.2⟩)
  refine Ensures.bind (Rand.randint_ensures (by norm_num)) fun w hw => ?_
  refine Ensures.bind (Rand.uniform_ensures (by norm_num)) fun p hp => ?_
  refine Ensures.pure ⟨⟨?_, ?_⟩, hp.1, hp.2⟩
  · show (1 : ℚ) ≤ w
    exact_mod_cast hw.1
  · show (w : ℚ) ≤ 10
    exact_mod_cast hw.2

/-! ## Examples -/

/-- Three items, of weights 3, 4, 5 and prices 10, 20, 25; at most 8 fits. -/
def exItems : List (ℚ × ℚ) := [(3, 10), (4, 20), (5, 25)]

def exBag (cells : List ℚ) : GA.Vec := { kind := .bit, bounds := .tup [0, 1], length := 3, vector := cells }

example : knapsack exItems 8 (exBag [1, 0, 1]) = .ok (some 35) ∧ knapsack exItems 8 (exBag [0, 1, 1]) = .ok none := by
  decide +kernel

example : Feasible exItems 8 (exBag [1, 0, 1]) ∧ ¬ Feasible exItems 8 (exBag [0, 1, 1]) := by
  constructor <;> simp [Feasible, total, exItems, exBag] <;> norm_num

/-- A bag with a fourth item, which is missing. -/
example : knapsack exItems 8 (exBag [0, 0, 0, 1]) = .error .keyError := by decide +kernel

def exKnapsack : Cfg GA.Vec Unit :=
  knapsackCfg 3 4 2 1 (1 / 2) (1 / 3) exItems 8 (-1) 4 (fun seed k => (seed + 7 * k * k + k / 2) % 11) (fun _ k => List.range k)

/-- It returns and its best bag is worth 35. -/
theorem exKnapsack_best : (evolve exKnapsack exOneMaxRun).1 = .ok () ∧
    ((evolve exKnapsack exOneMaxRun).2.bestOfRun.bind fun b => (evolve exKnapsack exOneMaxRun).2.w.heap[b]?).map
      (fun i => (i.genome.vector, i.fit.value)) = some ([1, 0, 1], .num 35) := by decide +kernel

example : ∃ s', evolve exKnapsack exOneMaxRun = (.ok (), s') ∧ PacksWell 3 exItems 8 s' :=
  C140_example (n := 3) (pop := 4) (tour := 2) (elite := 1) (pCross := 1 / 2) (pMut := 1 / 3) (maxGen := 4)
    (by omega) rfl (by simp [exItems]) (by omega) ⟨2, rfl⟩ (by omega) (by omega) (fun _ k => .refl (List.range k)) exOneMaxRun_fresh

/-- The run of the script itself: 20 items, 50 bags, for at most 500 generations, whatever the items. -/
example (items : List (ℚ × ℚ)) (hitems : items.length = 20) (hprice : ∀ it ∈ items, 0 ≤ it.2) (stream : Nat → Tape)
    (s : Run GA.Vec Unit) (hf : Fresh s) :
    ∃ s', evolve (knapsackCfg 20 50 4 0 (1 / 2) (1 / 20) items 30 (-1) 500 stream fun _ k => List.range k) s = (.ok (), s') ∧
      PacksWell 20 items 30 s' :=
  C140_example (n := 20) (pop := 50) (tour := 4) (elite := 0) (pCross := 1 / 2) (pMut := 1 / 20) (maxGen := 500) (stream := stream)
    (by omega) hitems hprice (by omega) ⟨25, rfl⟩ (by omega) (by omega) (fun _ k => .refl (List.range k)) hf

end Verif.Examples
