import Verif.Props.Run
import Verif.Props.MooParents

/-! # C167 — the probabilities of selection methods

A sub-population is configured with pairs of a selection method and its probability.  The breeders use the first method and
read no probability: the others matter only through the arity check of `SimpleBreeder`. -/

namespace Verif.Evo
open PyM
variable {G κ : Type}

/-- The `selection_methods` argument of `Subpopulation`: pairs of a method and its probability — subpopulation.py:37-39, 111-119. -/
abbrev Methods (G : Type) := List (Sel G × ℚ)

/-- The sub-population with these selection methods — subpopulation.py:126; the breeder drops the probabilities,
simple_breeder.py:38-39. -/
def SubCfg.withMethods (c : SubCfg G) (ms : Methods G) : SubCfg G := { c with sels := ms.map (·.1) }

/-- All sub-populations with these selection methods. -/
def Cfg.withMethods (c : Cfg G κ) (ms : Methods G) : Cfg G κ := { c with subs := c.subs.map (·.withMethods ms) }

/-- The arities of the methods divide the population size. -/
def Methods.Fit (ms : Methods G) (popSize : Nat) : Prop := ∀ x ∈ ms, x.1.arity ≠ 0 ∧ popSize % x.1.arity = 0

/-! ## Breeding -/

theorem checkArities_fit {σ : Type} (popSize : Nat) {as : List Nat} (h : ∀ a ∈ as, a ≠ 0 ∧ popSize % a = 0) (bs : List Nat) :
    (checkArities popSize (as ++ bs) : PyM σ Unit) = checkArities popSize bs := by
  induction as with
  | nil => rfl
  | cons a as ih =>
    rw [List.cons_append]
    conv => lhs; unfold checkArities
    rw [if_neg (h a (by simp)).1, if_neg (by simpa using (h a (by simp)).2)]
    exact ih fun b hb => h b (by simp [hb])

theorem checkArities_unfit {σ : Type} (popSize : Nat) {as : List Nat} (h : ∃ a ∈ as, a = 0 ∨ popSize % a ≠ 0) (w : σ) :
    ∃ e, (checkArities popSize as : PyM σ Unit) w = (.error e, w) ∧ (e = .zeroDivisionError ∨ e = .valueError) := by
  induction as with
  | nil => obtain ⟨a, ha, -⟩ := h; simp at ha
  | cons a as ih =>
    unfold checkArities
    by_cases h0 : a = 0
    · rw [if_pos h0]; exact ⟨_, rfl, .inl rfl⟩
    · rw [if_neg h0]
      by_cases h1 : popSize % a ≠ 0
      · rw [if_pos h1]; exact ⟨_, rfl, .inr rfl⟩
      · rw [if_neg h1]
        obtain ⟨b, hb, hb'⟩ := h
        rcases List.mem_cons.1 hb with rfl | hb
        · exact absurd hb' (by simp [h0, not_not.1 h1])
        · exact ih ⟨b, hb, hb'⟩

theorem breedSub_methods (size : G → Nat) (c : SubCfg G) {x : Sel G} {p q : ℚ} {ms ms' : Methods G}
    (h : ms.Fit c.popSize) (h' : ms'.Fit c.popSize) :
    breedSub size (c.withMethods ((x, p) :: ms)) = breedSub size (c.withMethods ((x, q) :: ms')) := by
  funext inds
  unfold breedSub
  have e : ∀ (r : ℚ) (l : Methods G), l.Fit c.popSize →
      (checkArities c.popSize ((c.withMethods ((x, r) :: l)).sels.map (·.arity) ++ c.ops.map (·.arity)) : WM G Unit) =
        checkArities c.popSize (x.arity :: c.ops.map (·.arity)) := by
    intro r l hl
    show checkArities c.popSize ((x.arity :: ((l.map (·.1)).map (·.arity))) ++ c.ops.map (·.arity)) = _
    rw [List.cons_append]
    unfold checkArities
    rw [checkArities_fit]
    intro a ha
    simp only [List.map_map, List.mem_map, Function.comp] at ha
    obtain ⟨y, hy, rfl⟩ := ha
    exact hl y hy
  have e1 := e p ms h
  have e2 := e q ms' h'
  show (checkArities c.popSize _ >>= _) = (checkArities c.popSize _ >>= _)
  exact (congrArg (fun z : WM G Unit => z >>= _) e1).trans (congrArg (fun z : WM G Unit => z >>= _) e2).symm

/-- **C167 (a)** If the arity of some method is not a divisor of the population size, breeding raises before it has touched
anything — also if that method has probability 0 and another one is to be used. -/
theorem C167_arity_partial (size : G → Nat) (c : SubCfg G) {ms : Methods G} (h : ¬ ms.Fit c.popSize) (inds : List Nat) (w : World G) :
    ∃ e, breedSub size (c.withMethods ms) inds w = (.error e, w) ∧ (e = .zeroDivisionError ∨ e = .valueError) := by
  unfold Methods.Fit at h
  push Not at h
  obtain ⟨x, hx, hb⟩ := h
  obtain ⟨e, he, hk⟩ := checkArities_unfit (σ := World G) c.popSize
    (as := (ms.map (·.1)).map (·.arity) ++ c.ops.map (·.arity)) ⟨x.1.arity, by
      refine List.mem_append_left _ ?_
      simp only [List.map_map, List.mem_map, Function.comp]
      exact ⟨x, hx, rfl⟩, by
      by_cases h0 : x.1.arity = 0
      · exact .inl h0
      · exact .inr (hb h0)⟩ w
  refine ⟨e, ?_, hk⟩
  unfold breedSub
  exact bind_of_error he

/-! ## Runs -/

variable {c : Cfg G κ}

theorem mapL_congr {σ α β : Type} {f g : α → PyM σ β} {l : List α} (h : ∀ a ∈ l, f a = g a) : mapL f l = mapL g l := by
  induction l with
  | nil => rfl
  | cons a l ih =>
    unfold mapL
    rw [h a (by simp), ih fun b hb => h b (by simp [hb])]

theorem createPopulation_methods (ms ms' : Methods G) :
    createPopulation (c.withMethods ms) = createPopulation (c.withMethods ms') := by
  have e : ∀ (l : List (SubCfg G)) (is : List (Option (List Nat))),
      mapL (fun (p : SubCfg G × Option (List Nat)) => createSub p.1 p.2) ((l.map (·.withMethods ms)).zip is) =
      mapL (fun (p : SubCfg G × Option (List Nat)) => createSub p.1 p.2) ((l.map (·.withMethods ms')).zip is) := by
    intro l
    induction l with
    | nil => intro is; rfl
    | cons a l ih =>
      intro is
      cases is with
      | nil => rfl
      | cons i is =>
        simp only [List.map_cons, List.zip_cons_cons, mapL]
        rw [ih is]
        rfl
  unfold createPopulation
  funext s
  show PyM.bind _ _ s = PyM.bind _ _ s
  unfold PyM.bind
  show (world (mapL _ _) >>= _) s = (world (mapL _ _) >>= _) s
  rw [show (c.withMethods ms).subs.zip s.inds = (c.subs.map (·.withMethods ms)).zip s.inds from rfl, e]
  rfl

theorem evaluateBody_methods (ms ms' : Methods G) : evaluateBody (c.withMethods ms) = evaluateBody (c.withMethods ms') := by
  unfold evaluateBody Cfg.withMethods
  dsimp only
  congr 1
  funext s
  rcases c.subs with _ | ⟨a, _ | ⟨b, l⟩⟩ <;> rcases s.inds with _ | ⟨_ | is, _ | ⟨j, k⟩⟩ <;> rfl

theorem recordWorst_methods (ms ms' : Methods G) : recordWorst (c.withMethods ms) = recordWorst (c.withMethods ms') := by
  unfold recordWorst Cfg.withMethods
  dsimp only
  congr 1
  funext s
  rcases c.subs with _ | ⟨a, l⟩ <;> rcases s.inds with _ | ⟨_ | is, k⟩ <;> rfl

theorem breedBody_methods {ms ms' : Methods G}
    (h : ∀ sub ∈ c.subs, breedSub c.size (sub.withMethods ms) = breedSub c.size (sub.withMethods ms')) :
    breedBody (c.withMethods ms) = breedBody (c.withMethods ms') := by
  have e : ∀ (l : List (SubCfg G)) (is : List (Option (List Nat))), (∀ sub ∈ l, sub ∈ c.subs) →
      breedAll c.size ((l.map (·.withMethods ms)).zip is) = breedAll c.size ((l.map (·.withMethods ms')).zip is) := by
    intro l
    induction l with
    | nil => intro is _; rfl
    | cons a l ih =>
      intro is hl
      rcases is with _ | ⟨_ | i, is⟩
      · rfl
      · rfl
      · simp only [List.map_cons, List.zip_cons_cons, breedAll]
        rw [ih is fun b hb => hl b (by simp [hb]), h a (hl a (by simp))]
  unfold breedBody
  funext s
  show PyM.bind _ _ s = PyM.bind _ _ s
  unfold PyM.bind
  show (world (breedAll c.size _) >>= _) s = (world (breedAll c.size _) >>= _) s
  rw [show (c.withMethods ms).subs.zip s.inds = (c.subs.map (·.withMethods ms)).zip s.inds from rfl, e _ _ fun _ h => h]
  rfl

theorem evolve_methods {ms ms' : Methods G}
    (h : ∀ sub ∈ c.subs, breedSub c.size (sub.withMethods ms) = breedSub c.size (sub.withMethods ms')) :
    evolve (c.withMethods ms) = evolve (c.withMethods ms') := by
  have hev : evaluatePopulation (c.withMethods ms) = evaluatePopulation (c.withMethods ms') := by
    unfold evaluatePopulation
    rw [evaluateBody_methods ms ms']
  have hgen : generationIteration (c.withMethods ms) = generationIteration (c.withMethods ms') := by
    unfold generationIteration breed
    rw [hev, breedBody_methods h, recordWorst_methods ms ms']
    rfl
  have hloop : ∀ n gen, mainLoop (c.withMethods ms) n gen = mainLoop (c.withMethods ms') n gen := by
    intro n
    induction n with
    | zero => intro _; rfl
    | succ n ih =>
      intro gen
      unfold mainLoop
      rw [hgen, ih]
      rfl
  have hinit : initRun (c.withMethods ms) = initRun (c.withMethods ms') := by
    unfold initRun
    rw [hev, createPopulation_methods ms ms']
    rfl
  have hafter : afterInit (c.withMethods ms) = afterInit (c.withMethods ms') := by
    unfold afterInit
    rw [show (c.withMethods ms).maxGen = (c.withMethods ms').maxGen from rfl, hloop]
    rfl
  unfold evolve
  rw [hinit, hafter]

/-- **C167 (b)** Runs: only the first method counts.  Its probability and all other methods, with whatever probabilities, may be
exchanged, and the run is the same. -/
theorem C167_first_partial {x : Sel G} {p q : ℚ} {ms ms' : Methods G} (h : ∀ sub ∈ c.subs, ms.Fit sub.popSize ∧ ms'.Fit sub.popSize) :
    evolve (c.withMethods ((x, p) :: ms)) = evolve (c.withMethods ((x, q) :: ms')) :=
  evolve_methods fun sub hs => breedSub_methods c.size sub (h sub hs).1 (h sub hs).2

/-- The property as one would expect it, in a weak form: a method whose probability is 0 makes no difference. -/
def C167_statement : Prop :=
  ∀ (c : Cfg Nat Nat) (ms ms' : Methods Nat) (x : Sel Nat), (∀ sub ∈ c.subs, Methods.Fit (ms ++ (x, 0) :: ms') sub.popSize) →
    evolve (c.withMethods (ms ++ (x, 0) :: ms')) = evolve (c.withMethods (ms ++ ms'))

/-- Tournaments of one, with probability 0, before tournaments of three: all individuals are drawn at random, and the best genome
is not reached. -/
theorem C167_refuted : ¬ C167_statement := by
  intro h
  have := h exCfg [] [(tournament (fun _ => 1) 3 true, 1)] (tournament (fun _ => 1) 1 true) (by
    intro sub _ x hx
    simp only [List.nil_append, List.mem_cons, List.not_mem_nil, or_false] at hx
    rcases hx with rfl | rfl <;> exact ⟨by decide, Nat.mod_one _⟩)
  have := congrArg (fun f => (f exRun).2.w.heap.map (·.genome)) this
  exact absurd this (by decide +kernel)

/-! ## Examples -/

example (p q : ℚ) : evolve (exCfg.withMethods [(tournament (fun _ => 1) 2 true, p), (tournament (fun _ => 1) 3 false, q)]) =
    evolve (exCfg.withMethods [(tournament (fun _ => 1) 2 true, 1)]) :=
  C167_first_partial fun sub _ => ⟨fun x hx => by
    simp only [List.mem_singleton] at hx
    subst hx
    exact ⟨Nat.one_ne_zero, Nat.mod_one _⟩, fun x hx => by simp at hx⟩

example : (evolve (exCfg.withMethods [(tournament (fun _ => 1) 2 true, 0), (tournament (fun _ => 1) 3 false, 1)]) exRun).1 = .ok () := by
  decide +kernel

/-- A second method that selects pairs, in a population of three. -/
example (w : World Nat) : ∃ e, breedSub (fun _ => 1) (exSubCfg.withMethods [(tournament (fun _ => 1) 2 true, 1),
    (⟨2, tournamentSelect (fun _ => 1) 2 true⟩, 0)]) [0, 1, 2] w = (.error e, w) ∧ (e = .zeroDivisionError ∨ e = .valueError) :=
  C167_arity_partial _ _ (fun h => absurd (h (⟨2, tournamentSelect (fun _ => 1) 2 true⟩, 0) (by simp)).2 (by decide)) _ _

end Verif.Evo

namespace Verif.Moo
open PyM
variable {G : Type}

theorem mevolve_selecting {c : MCfg G} {sels sels' : List (MSel G)}
    (h : mbreed (c.selecting sels) = mbreed (c.selecting sels')) : mevolve (c.selecting sels) = mevolve (c.selecting sels') := by
  have hgen : mgeneration (c.selecting sels) = mgeneration (c.selecting sels') := by
    unfold mgeneration
    rw [h]
    rfl
  have hloop : ∀ n gen, mloop (c.selecting sels) n gen = mloop (c.selecting sels') n gen := by
    intro n
    induction n with
    | zero => intro _; rfl
    | succ n ih =>
      intro gen
      unfold mloop
      rw [hgen, ih]
      rfl
  have hafter : mafterInit (c.selecting sels) = mafterInit (c.selecting sels') := by
    unfold mafterInit
    rw [show (c.selecting sels).maxGen = (c.selecting sels').maxGen from rfl, hloop]
    rfl
  unfold mevolve
  rw [hafter]
  rfl

/-- **C167 (c)** The same for runs of `NSGA2Evolution`.  `NSGA2Breeder` checks no arities; with the default breeder those of the
other methods must divide the population size. -/
theorem C167_nsga2_partial (c : MCfg G) (x : MSel G) {rest rest' : List (MSel G)}
    (h : c.nsga2Breeder = false → ∀ y ∈ rest ++ rest', y.arity ≠ 0 ∧ c.sub.popSize % y.arity = 0) :
    mevolve (c.selecting (x :: rest)) = mevolve (c.selecting (x :: rest')) := by
  refine mevolve_selecting ?_
  unfold mbreed mbreedBody
  cases hb : c.nsga2Breeder with
  | true =>
    have hb1 : (c.selecting (x :: rest)).nsga2Breeder = true := hb
    have hb2 : (c.selecting (x :: rest')).nsga2Breeder = true := hb
    simp only [hb1, hb2, if_true]
    rfl
  | false =>
    have hb1 : (c.selecting (x :: rest)).nsga2Breeder = false := hb
    have hb2 : (c.selecting (x :: rest')).nsga2Breeder = false := hb
    have e : ∀ l : List (MSel G), (∀ y ∈ l, y.arity ≠ 0 ∧ c.sub.popSize % y.arity = 0) →
        (Evo.checkArities c.sub.popSize ((x :: l).map (·.arity) ++ c.sub.ops.map (·.arity)) : MM G Unit) =
          Evo.checkArities c.sub.popSize (x.arity :: c.sub.ops.map (·.arity)) := by
      intro l hl
      rw [List.map_cons, List.cons_append]
      unfold Evo.checkArities
      rw [Evo.checkArities_fit]
      intro a ha
      obtain ⟨y, hy, rfl⟩ := List.mem_map.1 ha
      exact hl y hy
    have e1 := e rest fun y hy => h hb y (by simp [hy])
    have e2 := e rest' fun y hy => h hb y (by simp [hy])
    have hs : simpleBreed (c.selecting (x :: rest)).sub = simpleBreed (c.selecting (x :: rest')).sub := by
      funext inds
      unfold simpleBreed
      exact (congrArg (fun z : MM G Unit => z >>= _) e1).trans (congrArg (fun z : MM G Unit => z >>= _) e2).symm
    simp only [hb1, hb2, Bool.false_eq_true, if_false, hs]

example : mevolve ((exCfg true 3).selecting [⟨1, tournamentM 2 true⟩, ⟨3, tournamentM 1 true⟩]) exRun =
    mevolve ((exCfg true 3).selecting [⟨1, tournamentM 2 true⟩]) exRun := by
  rw [C167_nsga2_partial _ _ fun h => by simp [exCfg] at h]

example : mevolve ((exCfg false 2).selecting [⟨1, tournamentM 2 true⟩, ⟨2, tournamentM 1 true⟩]) exRun =
    mevolve ((exCfg false 2).selecting [⟨1, tournamentM 2 true⟩]) exRun := by
  have h : ∀ y ∈ [(⟨2, tournamentM 1 true⟩ : MSel ℚ)] ++ [], y.arity ≠ 0 ∧ (exCfg false 2).sub.popSize % y.arity = 0 := by
    intro y hy
    simp only [List.append_nil, List.mem_singleton] at hy
    subst hy
    exact ⟨by decide, by decide⟩
  rw [C167_nsga2_partial _ _ fun _ => h]

end Verif.Moo
