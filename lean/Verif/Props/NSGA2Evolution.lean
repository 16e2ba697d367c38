import Verif.Lemmas.MooRun

/-!
# C53, C54, C55 — runs of NSGA-II

The theorems are about every successful run of `NSGA2Evolution.evolve`, observed through the events it publishes.
-/

namespace Verif.Moo
open PyM
variable {G : Type} {n m : Nat} {ds : List Bool} {c : MCfg G} {s s' : MRun G}

/-- What the parts an `NSGA2Evolution` is configured with must do. -/
structure MCfg.Good (c : MCfg G) (n m : Nat) (ds : List Bool) : Prop where
  creates : ∀ s, AllDir m ds s → wlp c.sub.create (fun l s' => l.length = n ∧ l.Nodup ∧ Exist s' l ∧ AllDir m ds s') s
  ops : ∀ o ∈ c.sub.ops, o.Good
  sels : ∀ x ∈ c.sub.sels, x.Good
  evaluates : c.sub.Evaluates m
  directions : ds.length = m
  order : ∀ g k l, (c.setOrder g k l).Perm l

/-- The events at the end of a generation.  `e1` was published when the population had been evaluated, `e2` when
the generation was over; the population had `bred` individuals at the first, and has `size` at the second. -/
structure GenEvents (bred size : Nat) (ds : List Bool) (e1 e2 : MEvent) : Prop where
  publisher : e1.publisher = "population_evaluator"
  name : e1.name = "after_operator"
  genNum : e1.genNum = e2.genNum
  bred : e1.inds.length = bred
  size : e2.inds.length = size
  nonempty : e1.inds ≠ []
  survivors : e2.inds.Nodup ∧ ∀ x ∈ e2.inds, x ∈ e1.inds
  front : ∃ vec : Nat → List ℚ, (∀ y ∈ e1.inds, (e1.fits y).objs = some (vec y)) ∧
    ∃ front, e2.bestOfGen = some front ∧
      ∀ x, x ∈ front ↔ x ∈ e2.inds ∧ ∀ y ∈ e1.inds, ¬ Pareto ds (vec y) (vec x)

/-- The end of generation `g` is preceded by the evaluation of generation `g`. -/
def LogOk (bred size : Nat → Nat) (ds : List Bool) (log : List MEvent) : Prop :=
  ∀ pre e2 post, log = pre ++ e2 :: post → e2.publisher = "algorithm" → e2.name = "after_generation" →
    1 ≤ e2.genNum → ∃ pre' e1, pre = pre' ++ [e1] ∧ GenEvents (bred e2.genNum) (size e2.genNum) ds e1 e2

/-- The algorithm's own events show populations of the size `size`. -/
def SizeOk (size : Nat → Nat) (log : List MEvent) : Prop :=
  ∀ e ∈ log, e.publisher = "algorithm" → e.inds.length = size e.genNum

/-- The population sizes: constant with `NSGA2Breeder`, halved in each generation with `SimpleBreeder`. -/
def MCfg.size (c : MCfg G) (n g : Nat) : Nat := if c.nsga2Breeder then n else n / 2 ^ g

/-- The number of individuals that are evaluated. -/
def MCfg.bred (c : MCfg G) (n g : Nat) : Nat := if c.nsga2Breeder then 2 * n else n / 2 ^ (g - 1)

theorem snoc_split {α : Type} {l pre post : List α} {a e : α} (h : l ++ [a] = pre ++ e :: post) :
    (pre = l ∧ e = a ∧ post = []) ∨ ∃ post', post = post' ++ [a] ∧ l = pre ++ e :: post' := by
  rcases List.eq_nil_or_concat post with rfl | ⟨post', b, rfl⟩
  · left
    have := List.append_inj' h rfl
    simp only [List.cons.injEq, and_true] at this
    exact ⟨this.1.symm, this.2.symm, rfl⟩
  · right
    rw [List.concat_eq_append, ← List.cons_append, ← List.append_assoc] at h
    have := List.append_inj' h rfl
    simp only [List.cons.injEq, and_true] at this
    exact ⟨post', by rw [this.2, List.concat_eq_append], this.1⟩

theorem LogOk.snoc {bred size : Nat → Nat} {log : List MEvent} {e : MEvent} (h : LogOk bred size ds log)
    (he : e.publisher = "algorithm" → e.name = "after_generation" → 1 ≤ e.genNum →
      ∃ pre' e1, log = pre' ++ [e1] ∧ GenEvents (bred e.genNum) (size e.genNum) ds e1 e) :
    LogOk bred size ds (log ++ [e]) := by
  intro pre e2 post hsplit h1 h2 h3
  rcases snoc_split hsplit with ⟨rfl, rfl, -⟩ | ⟨post', -, hl⟩
  · exact he h1 h2 h3
  · exact h pre e2 post' hl h1 h2 h3

theorem SizeOk.snoc {size : Nat → Nat} {log : List MEvent} {e : MEvent} (h : SizeOk size log)
    (he : e.publisher = "algorithm" → e.inds.length = size e.genNum) : SizeOk size (log ++ [e]) := by
  intro x hx h1
  simp only [List.mem_append, List.mem_singleton] at hx
  rcases hx with hx | rfl
  · exact h x hx h1
  · exact he h1

/-- The event that would be published now. -/
def MRun.event (s : MRun G) (publisher name : String) : MEvent :=
  ⟨publisher, name, s.w.fits, s.inds.getD [], s.bestOfRun, s.bestOfGen, s.genNum⟩

theorem wlp_mpublish {publisher name : String} {Q : Unit → MRun G → Prop} :
    wlp (mpublish publisher name) Q s ↔ Q () { s with log := s.log ++ [s.event publisher name] } := wlp_modify

theorem wlp_mworld {α : Type} {x : MM G α} {Q : α → MRun G → Prop} :
    wlp (mworld x) Q s ↔ wlp x (fun a w => Q a { s with w := w }) s.w := wlp_zoom

theorem wlp_mact {α : Type} {publisher : String} {x : MRM G α} {Q : α → MRun G → Prop} :
    wlp (mact publisher x) Q s ↔ wlp x (fun a s' => Q a { s' with log := s'.log ++ [s'.event publisher "after_operator"] })
      { s with log := s.log ++ [s.event publisher "before_operator"] } := by
  unfold mact
  rw [wlp_bind, wlp_mpublish, wlp_bind]
  constructor
  · intro h
    refine h.mono fun a s' h => ?_
    rw [wlp_bind, wlp_mpublish] at h
    exact wlp_pure.1 h
  · intro h
    refine h.mono fun a s' h => ?_
    rw [wlp_bind, wlp_mpublish]
    exact wlp_pure.2 h

theorem wlp_individuals {Q : List Nat → MRun G → Prop} :
    wlp individuals Q s ↔ ∀ is, s.inds = some is → Q is s := by
  unfold individuals
  rw [wlp_bind, wlp_get]
  cases h : s.inds with
  | none => simp
  | some is =>
    dsimp only
    rw [show (PyM.pure is : MRM G _) = pure is from rfl, wlp_pure]
    simp

/-- A population of `k` individuals. -/
structure MRun.Pop (s : MRun G) (k m : Nat) (ds : List Bool) (l : List Nat) : Prop where
  inds : s.inds = some l
  length : l.length = k
  nodup : l.Nodup
  exist : Exist s.w l
  dirs : AllDir m ds s.w

/-- The invariant at the end of a generation. -/
structure MRun.Inv (c : MCfg G) (n m : Nat) (ds : List Bool) (s : MRun G) : Prop where
  pop : ∃ inds, s.Pop (c.size n s.genNum) m ds inds
  log : LogOk (c.bred n) (c.size n) ds s.log
  sizes : SizeOk (c.size n) s.log

theorem mevaluate_wlp (hc : c.Good n m ds) {k : Nat} {inds : List Nat} (hp : s.Pop k m ds inds) :
    wlp (mevaluate c) (fun b s' => b ∈ inds ∧ s'.Pop k m ds inds ∧ s'.genNum = s.genNum ∧
      (∃ vec : Nat → List ℚ, ∀ r ∈ inds, (s'.w.fits r).Is ds (vec r)) ∧
      ∃ e0 e1, s'.log = s.log ++ [e0] ++ [e1] ∧ e0.publisher = "population_evaluator" ∧
        e1 = s'.event "population_evaluator" "after_operator") s := by
  unfold mevaluate
  rw [wlp_mact]
  unfold mevaluateBody
  rw [wlp_bind, wlp_individuals]
  intro is his
  have : is = inds := by
    have := hp.inds
    dsimp only at his
    rw [this] at his
    exact (Option.some.inj his).symm
  subst this
  rw [wlp_bind, wlp_get, wlp_mworld]
  refine (evaluateM_wlp hc.evaluates hc.directions hp.exist hp.dirs).mono ?_
  rintro b w ⟨h0, h1, h2, h3, h4, h5⟩
  choose! vec hvec using h4
  exact ⟨h0, ⟨hp.inds, hp.length, hp.nodup, fun r hr => by dsimp only; rw [h1]; exact hp.exist r hr, h3⟩, rfl,
    ⟨vec, hvec⟩, _, _, rfl, rfl, rfl⟩

theorem mbreed_wlp (hc : c.Good n m ds) {k : Nat} {inds : List Nat} (hp : s.Pop k m ds inds) :
    wlp (mbreed c) (fun _ s' => (∃ inds', s'.Pop (if c.nsga2Breeder then 2 * k else k) m ds inds') ∧
      s'.genNum = s.genNum ∧ ∃ e0 e1, s'.log = s.log ++ [e0] ++ [e1] ∧ e0.publisher = "breeder" ∧ e1.publisher = "breeder") s := by
  unfold mbreed
  rw [wlp_mact]
  unfold mbreedBody
  rw [wlp_bind, wlp_individuals]
  intro is his
  have : is = inds := by
    have := hp.inds
    dsimp only at his
    rw [this] at his
    exact (Option.some.inj his).symm
  subst this
  rw [wlp_bind, wlp_mworld]
  cases hb : c.nsga2Breeder with
  | true =>
    rw [if_pos rfl]
    refine (nsga2Breed_wlp hc.ops hc.sels hp.exist hp.nodup hp.dirs).mono ?_
    rintro l w ⟨h1, h2, h3, h4⟩
    rw [wlp_modify]
    exact ⟨⟨l, rfl, by rw [h1, hp.length]; simp, h2, h3, h4⟩, rfl, _, _, rfl, rfl, rfl⟩
  | false =>
    rw [if_neg (by simp)]
    refine (simpleBreed_wlp hc.ops hc.sels hp.exist hp.dirs).mono ?_
    rintro l w ⟨h1, h2, h3, h4⟩
    rw [wlp_modify]
    exact ⟨⟨l, rfl, by rw [h1, hp.length]; simp, h2, h3, h4⟩, rfl, _, _, rfl, rfl, rfl⟩

/-- One generation. -/
theorem mgeneration_wlp (hc : c.Good n m ds) {k : Nat} {inds : List Nat} (hp : s.Pop k m ds inds)
    (hl : LogOk (c.bred n) (c.size n) ds s.log) (hs : SizeOk (c.size n) s.log) {k' : Nat}
    (hk' : k' = if c.nsga2Breeder then 2 * k else k) :
    wlp (mgeneration c) (fun _ s' => (∃ inds', s'.Pop (k' / 2) m ds inds') ∧ s'.genNum = s.genNum ∧
      LogOk (c.bred n) (c.size n) ds s'.log ∧ SizeOk (c.size n) s'.log ∧
      ∃ pre e1, s'.log = pre ++ [e1] ∧
        GenEvents k' (k' / 2) ds e1 (s'.event "algorithm" "after_generation")) s := by
  unfold mgeneration
  rw [wlp_bind]
  refine (mbreed_wlp hc hp).mono ?_
  rintro _ s₁ ⟨⟨inds₁, hp₁⟩, g1, b0, b1, hlog1, hb0, hb1⟩
  rw [← hk'] at hp₁
  rw [wlp_bind]
  refine (mevaluate_wlp hc hp₁).mono ?_
  rintro b s₂ ⟨hb, hp₂, g2, ⟨vec, hvec⟩, e0, e1, hlog2, he0, he1⟩
  have hL : LogOk (c.bred n) (c.size n) ds s₂.log := by
    rw [hlog2, hlog1]
    refine (((hl.snoc ?_).snoc ?_).snoc ?_).snoc ?_ <;> intro h
    · rw [hb0] at h; exact absurd h (by decide)
    · rw [hb1] at h; exact absurd h (by decide)
    · rw [he0] at h; exact absurd h (by decide)
    · rw [he1] at h; exact absurd h (show ¬ "population_evaluator" = "algorithm" by decide)
  have hS : SizeOk (c.size n) s₂.log := by
    rw [hlog2, hlog1]
    refine (((hs.snoc ?_).snoc ?_).snoc ?_).snoc ?_ <;> intro h
    · rw [hb0] at h; exact absurd h (by decide)
    · rw [hb1] at h; exact absurd h (by decide)
    · rw [he0] at h; exact absurd h (by decide)
    · rw [he1] at h; exact absurd h (show ¬ "population_evaluator" = "algorithm" by decide)
  rw [wlp_bind]
  unfold msort
  rw [wlp_bind, wlp_individuals]
  intro is his
  obtain rfl : is = inds₁ := Option.some.inj (his.symm.trans hp₂.inds)
  rw [wlp_bind, wlp_get, wlp_bind, wlp_mworld]
  refine (sortM_wlp (hc.order _) hp₂.nodup hvec hp₂.dirs).mono ?_
  rintro l w ⟨q1, q2, q3, q4, q5, q6, q7, q8⟩
  rw [wlp_modify]
  unfold mfronts
  rw [wlp_bind, wlp_individuals]
  intro is' his'
  obtain rfl : l = is' := Option.some.inj his'
  rw [wlp_modify]
  refine ⟨⟨l, rfl, by rw [q4, hp₂.length], q5, ?_, q3⟩, by rw [← g1, ← g2], hL, hS, s.log ++ [b0] ++ [b1] ++ [e0], e1,
    by rw [← hlog1, ← hlog2], ?_⟩
  · intro r hr
    dsimp only
    rw [q1]
    exact hp₂.exist r (q6 r hr)
  · have hi : e1.inds = is := by
      rw [he1]; show s₂.inds.getD [] = is; rw [hp₂.inds]; rfl
    have hf : e1.fits = s₂.w.fits := by rw [he1]; rfl
    refine ⟨by rw [he1]; rfl, by rw [he1]; rfl, by rw [he1]; rfl, by rw [hi, hp₂.length], ?_, ?_, ?_, vec, ?_, ?_⟩
    · show l.length = _; rw [q4, hp₂.length]
    · rw [hi]; intro h; rw [h] at hb; simp at hb
    · rw [hi]; exact ⟨q5, q6⟩
    · rw [hi, hf]; exact fun y hy => (hvec y hy).objs
    · refine ⟨_, rfl, fun x => ?_⟩
      rw [List.mem_filter, hi]
      show _ ↔ x ∈ l ∧ _
      refine and_congr_right fun hx => ?_
      rw [decide_eq_true_eq]
      exact q8 x hx

theorem minit_wlp (hc : c.Good n m ds) (hn : s.inds = none) (hd : AllDir m ds s.w) (hlog : s.log = [])
    (hg : s.genNum = 0) :
    wlp (minit c) (fun _ s' => s'.Inv c n m ds ∧ s'.genNum = 0 ∧
      ∃ b v, s'.bestOfRun = some b ∧ (s'.w.fits b).objs = some v) s := by
  unfold minit
  rw [wlp_bind, wlp_get, wlp_bind]
  unfold msetSeed
  rw [wlp_modify, wlp_bind]
  unfold mcreate
  rw [wlp_bind, wlp_get]
  dsimp only
  rw [hn]
  dsimp only
  rw [wlp_bind, wlp_mworld]
  refine (hc.creates { s.w with tape := c.stream s.randomSeed } hd).mono ?_
  rintro l w ⟨h1, h2, h3, h4⟩
  rw [wlp_modify, wlp_bind]
  refine (mevaluate_wlp (k := n) (inds := l) hc ⟨rfl, h1, h2, h3, h4⟩).mono ?_
  rintro b s₁ ⟨hb, hp, hg1, ⟨vec, hvec⟩, e0, e1, hl, he0, he1⟩
  rw [wlp_bind, wlp_modify, wlp_mpublish]
  have hg1' : s₁.genNum = 0 := by rw [hg1]; exact hg
  have hsize : c.size n 0 = n := by unfold MCfg.size; simp
  dsimp only at hl
  rw [hlog, List.nil_append] at hl
  refine ⟨⟨⟨l, ⟨hp.inds, ?_, hp.nodup, hp.exist, hp.dirs⟩⟩, ?_, ?_⟩, hg1', b, vec b, rfl, (hvec b hb).objs⟩
  · dsimp only; rw [hg1', hsize]; exact hp.length
  · dsimp only
    rw [hl]
    have h0 : LogOk (c.bred n) (c.size n) ds [] := by intro pre e2 post h; simp at h
    refine ((LogOk.snoc (log := []) h0 ?_).snoc ?_).snoc ?_
    · intro h; rw [he0] at h; exact absurd h (by decide)
    · intro h; rw [he1] at h; exact absurd h (show ¬ "population_evaluator" = "algorithm" by decide)
    · intro _ h; exact absurd h (show ¬ "init" = "after_generation" by decide)
  · dsimp only
    rw [hl]
    have h0 : SizeOk (c.size n) [] := by intro e h; simp at h
    refine ((SizeOk.snoc (log := []) h0 ?_).snoc ?_).snoc ?_
    · intro h; rw [he0] at h; exact absurd h (by decide)
    · intro h; rw [he1] at h; exact absurd h (show ¬ "population_evaluator" = "algorithm" by decide)
    · intro _
      show (s₁.inds.getD []).length = c.size n s₁.genNum
      rw [hg1', hsize, hp.inds]
      exact hp.length

theorem MRun.Inv.after_generation {s : MRun G} {x : Option Nat} {e1 : MEvent} {pre : List MEvent}
    (hp : ∃ inds', s.Pop (c.size n s.genNum) m ds inds')
    (hl : LogOk (c.bred n) (c.size n) ds s.log) (hs : SizeOk (c.size n) s.log) (hlog : s.log = pre ++ [e1])
    (he : GenEvents (c.bred n s.genNum) (c.size n s.genNum) ds e1 (s.event "algorithm" "after_generation")) :
    MRun.Inv c n m ds { s with finalGen := x, log := s.log ++ [s.event "algorithm" "after_generation"] } := by
  obtain ⟨inds', hp⟩ := hp
  refine ⟨⟨inds', hp.inds, hp.length, hp.nodup, hp.exist, hp.dirs⟩, ?_, ?_⟩
  · exact hl.snoc fun _ _ _ => ⟨pre, e1, hlog, he⟩
  · refine hs.snoc fun _ => ?_
    show (s.inds.getD []).length = c.size n s.genNum
    rw [hp.inds]
    exact hp.length

theorem bred_eq (c : MCfg G) (n g : Nat) :
    (if c.nsga2Breeder then 2 * c.size n g else c.size n g) = c.bred n (g + 1) := by
  unfold MCfg.bred MCfg.size
  split
  · rfl
  · simp

theorem size_eq (c : MCfg G) (n g : Nat) : c.bred n (g + 1) / 2 = c.size n (g + 1) := by
  unfold MCfg.bred MCfg.size
  split
  · omega
  · simp only [Nat.add_sub_cancel]
    rw [Nat.pow_succ, Nat.div_div_eq_div_mul]

theorem mloop_wlp (hc : c.Good n m ds) (N : Nat) (hi : s.Inv c n m ds) :
    wlp (mloop c N (s.genNum + 1)) (fun _ s' => s'.Inv c n m ds ∧
      (∀ g, s.genNum < g → g ≤ s'.genNum → c.bred n g ≠ 0) ∧
      ((∀ h l b g, c.checker h l b g ≠ .ok true) → s'.genNum = s.genNum + N)) s := by
  induction N generalizing s with
  | zero => unfold mloop; exact wlp_pure.2 ⟨hi, fun g h1 h2 => by omega, fun _ => rfl⟩
  | succ N ih =>
    unfold mloop
    rw [wlp_bind, wlp_modify, wlp_bind, wlp_individuals]
    intro is his
    rw [wlp_bind, wlp_get, wlp_bind]
    unfold msetSeed
    rw [wlp_modify, wlp_bind, wlp_modify, wlp_bind]
    obtain ⟨inds, hp⟩ := hi.pop
    refine wlp.mono (mgeneration_wlp (k := c.size n s.genNum) (inds := inds) (k' := c.bred n (s.genNum + 1)) hc
      (by exact ⟨hp.inds, hp.length, hp.nodup, hp.exist, hp.dirs⟩) (by exact hi.log) (by exact hi.sizes)
      (bred_eq c n s.genNum).symm) ?_
    rintro _ s₁ ⟨hp1, hg1, hl1, hs1, pre, e1, hlog1, hev⟩
    dsimp only at hg1
    rw [size_eq, ← hg1] at hp1 hev
    have hne : c.bred n (s.genNum + 1) ≠ 0 := by
      rw [← hg1, ← hev.bred]
      exact fun h => hev.nonempty (List.length_eq_zero_iff.1 h)
    rw [wlp_bind]
    unfold mstop
    rw [wlp_bind, wlp_get, wlp_ofExcept]
    intro stop hstop
    rw [wlp_ite]
    refine ⟨fun hst => ?_, fun _ => ?_⟩
    · rw [wlp_bind, wlp_modify, wlp_mpublish]
      refine ⟨MRun.Inv.after_generation (s := s₁) hp1 hl1 hs1 hlog1 hev, fun g h1 h2 => ?_, fun hno => ?_⟩
      · have : g = s.genNum + 1 := by dsimp only at h2; omega
        rw [this]; exact hne
      · rw [hst] at hstop; exact absurd hstop (hno _ _ _ _)
    · rw [wlp_bind, wlp_mpublish]
      have hinv := MRun.Inv.after_generation (x := s₁.finalGen) hp1 hl1 hs1 hlog1 hev
      have := ih hinv
      dsimp only at this
      rw [← hg1]
      refine this.mono ?_
      rintro _ s₂ ⟨h1, h2, h3⟩
      refine ⟨h1, fun g h4 h5 => ?_, fun hno => by rw [h3 hno]; omega⟩
      by_cases hgs : g = s.genNum + 1
      · rw [hgs]; exact hne
      · exact h2 g (by omega) h5

/-- A run that is about to start. -/
structure MRun.Fresh (s : MRun G) (m : Nat) (ds : List Bool) : Prop where
  inds : s.inds = none
  dirs : AllDir m ds s.w
  log : s.log = []
  genNum : s.genNum = 0

theorem mevolve_wlp (hc : c.Good n m ds) (hf : s.Fresh m ds) :
    wlp (mevolve c) (fun _ s' => LogOk (c.bred n) (c.size n) ds s'.log ∧ SizeOk (c.size n) s'.log ∧
      (∀ g, 0 < g → g ≤ s'.genNum → c.bred n g ≠ 0) ∧
      ((∀ h l b g, c.checker h l b g ≠ .ok true) → s'.genNum = c.maxGen)) s := by
  unfold mevolve
  rw [wlp_bind]
  refine (minit_wlp hc hf.inds hf.dirs hf.log hf.genNum).mono ?_
  rintro _ s₁ ⟨hi, hg, -⟩
  rw [wlp_bind]
  have key : wlp (mafterInit c) (fun _ s' => s'.Inv c n m ds ∧ (∀ g, 0 < g → g ≤ s'.genNum → c.bred n g ≠ 0) ∧
      ((∀ h l b g, c.checker h l b g ≠ .ok true) → s'.genNum = c.maxGen)) s₁ := by
    unfold mafterInit
    rw [wlp_bind, wlp_get, wlp_bind]
    unfold mstop
    rw [wlp_bind, wlp_get, wlp_ofExcept]
    intro stop hstop
    rw [wlp_ite]
    refine ⟨fun hst => ?_, fun _ => ?_⟩
    · rw [wlp_bind, wlp_modify, wlp_mpublish]
      obtain ⟨inds, hp⟩ := hi.pop
      refine ⟨⟨⟨inds, hp.inds, hp.length, hp.nodup, hp.exist, hp.dirs⟩, hi.log.snoc ?_, hi.sizes.snoc ?_⟩,
        fun g h1 h2 => by dsimp only at h2; omega, fun hno => ?_⟩
      · intro _ _ h
        have h' : 1 ≤ s₁.genNum := h
        omega
      · intro _
        show (s₁.inds.getD []).length = c.size n s₁.genNum
        rw [hp.inds]
        exact hp.length
      · rw [hst] at hstop; exact absurd hstop (hno _ _ _ _)
    · have := mloop_wlp hc c.maxGen hi
      rw [hg] at this
      refine this.mono ?_
      rintro _ s₂ ⟨h1, h2, h3⟩
      exact ⟨h1, h2, fun hno => by rw [h3 hno]; omega⟩
  refine key.mono ?_
  rintro _ s₂ ⟨hi2, h2, h3⟩
  rw [wlp_bind, wlp_mpublish]
  unfold mfinish
  rw [wlp_bind, wlp_get]
  dsimp only
  split
  · simp
  · rw [wlp_bind, wlp_ofExcept]
    intro _ _
    refine wlp_pure.2 ⟨hi2.log.snoc fun _ h => absurd h (show ¬ "evolution_finished" = "after_generation" by decide),
      hi2.sizes.snoc fun _ => ?_, h2, h3⟩
    obtain ⟨inds, hp⟩ := hi2.pop
    show (s₂.inds.getD []).length = c.size n s₂.genNum
    rw [hp.inds]
    exact hp.length

/-! ## The theorems -/

/-- C53: with `NSGA2Breeder` the population has its initial size at each event of the algorithm — after the
initialisation, after each generation and at the end. -/
theorem C53_size (hc : c.Good n m ds) (hb : c.nsga2Breeder = true) (hf : s.Fresh m ds)
    (hrun : mevolve c s = (.ok (), s')) : ∀ e ∈ s'.log, e.publisher = "algorithm" → e.inds.length = n := by
  intro e he hp
  have := (mevolve_wlp hc hf () s' hrun).2.1 e he hp
  rw [this]
  simp [MCfg.size, hb]

/-- C53: in each generation breeding has doubled the population when it was evaluated, and the survivors are
distinct members of the doubled population. -/
theorem C53_doubled (hc : c.Good n m ds) (hb : c.nsga2Breeder = true) (hf : s.Fresh m ds)
    (hrun : mevolve c s = (.ok (), s')) {pre post : List MEvent} {e : MEvent} (hsplit : s'.log = pre ++ e :: post)
    (hp : e.publisher = "algorithm") (hname : e.name = "after_generation") (hgen : 1 ≤ e.genNum) :
    ∃ pre' e1, pre = pre' ++ [e1] ∧ e1.publisher = "population_evaluator" ∧ e1.name = "after_operator" ∧
      e1.genNum = e.genNum ∧ e1.inds.length = 2 * n ∧ e.inds.Nodup ∧ ∀ x ∈ e.inds, x ∈ e1.inds := by
  obtain ⟨pre', e1, h1, h2⟩ := (mevolve_wlp hc hf () s' hrun).1 pre e post hsplit hp hname hgen
  exact ⟨pre', e1, h1, h2.publisher, h2.name, h2.genNum, by rw [h2.bred]; simp [MCfg.bred, hb], h2.survivors⟩

/-- C55: at the end of each generation, whatever the breeder, `best_of_gen` is exactly the survivors that no
individual evaluated in that generation dominates. -/
theorem C55_pareto_front (hc : c.Good n m ds) (hf : s.Fresh m ds) (hrun : mevolve c s = (.ok (), s'))
    {pre post : List MEvent} {e : MEvent} (hsplit : s'.log = pre ++ e :: post)
    (hp : e.publisher = "algorithm") (hname : e.name = "after_generation") (hgen : 1 ≤ e.genNum) :
    ∃ pre' e1 front, pre = pre' ++ [e1] ∧ e1.publisher = "population_evaluator" ∧ e1.name = "after_operator" ∧
      e1.genNum = e.genNum ∧ e.bestOfGen = some front ∧
      ∃ vec : Nat → List ℚ, (∀ y ∈ e1.inds, (e1.fits y).objs = some (vec y)) ∧
        ∀ x, x ∈ front ↔ x ∈ e.inds ∧ ∀ y ∈ e1.inds, ¬ Pareto ds (vec y) (vec x) := by
  obtain ⟨pre', e1, h1, h2⟩ := (mevolve_wlp hc hf () s' hrun).1 pre e post hsplit hp hname hgen
  obtain ⟨vec, h3, front, h4, h5⟩ := h2.front
  exact ⟨pre', e1, front, h1, h2.publisher, h2.name, h2.genNum, h4, vec, h3, h5⟩

/-- C54 as stated: with the default breeder (and a checker that works) the population keeps its size. -/
def C54_statement : Prop :=
  ∀ (G : Type) (c : MCfg G) (n m : Nat) (ds : List Bool) (s s' : MRun G), c.Good n m ds → c.nsga2Breeder = false →
    s.Fresh m ds → mevolve c s = (.ok (), s') →
    ∀ e ∈ s'.log, e.publisher = "algorithm" → e.inds.length = n

/-- C54, what happens instead: the population is halved in each generation. -/
theorem C54_halves_partial (hc : c.Good n m ds) (hb : c.nsga2Breeder = false) (hf : s.Fresh m ds)
    (hrun : mevolve c s = (.ok (), s')) : ∀ e ∈ s'.log, e.publisher = "algorithm" → e.inds.length = n / 2 ^ e.genNum := by
  intro e he hp
  have := (mevolve_wlp hc hf () s' hrun).2.1 e he hp
  rw [this]
  simp [MCfg.size, hb]

/-- C54, what happens instead: a run with the default breeder that is not stopped by its checker cannot finish if
it has more than `log₂ n + 1` generations. -/
theorem C54_dies_partial (hc : c.Good n m ds) (hb : c.nsga2Breeder = false) (hf : s.Fresh m ds)
    (hno : ∀ h l b g, c.checker h l b g ≠ .ok true) (hmax : n < 2 ^ (c.maxGen - 1)) (hpos : 0 < c.maxGen) :
    (mevolve c s).1 ≠ .ok () := by
  intro hrun
  have h := mevolve_wlp hc hf () (mevolve c s).2 (Prod.ext hrun rfl)
  apply h.2.2.1 c.maxGen hpos (le_of_eq (h.2.2.2 hno).symm)
  simp only [MCfg.bred, hb, Bool.false_eq_true, if_false]
  exact Nat.div_eq_of_lt hmax

/-- C54: with the default termination checker no run gets past the initialisation: it raises `TypeError`. -/
theorem C54_default_checker_partial (hc : c.Good n m ds) (hf : s.Fresh m ds) (hdef : c.checker = defaultChecker)
    {s₁ : MRun G} (hinit : minit c s = (.ok (), s₁)) : mevolve c s = (.error .typeError, s₁) := by
  obtain ⟨-, -, b, v, h1, h2⟩ := minit_wlp hc hf.inds hf.dirs hf.log hf.genNum () s₁ hinit
  unfold mevolve
  rw [bind_of_ok hinit]
  have : mafterInit c s₁ = (.error .typeError, s₁) := by
    have hstop : mstop c s₁.genNum s₁ = (.error .typeError, s₁) := by
      show PyM.ofExcept (c.checker s₁.w.fits (s₁.inds.getD []) s₁.bestOfRun s₁.genNum) s₁ = _
      have : c.checker s₁.w.fits (s₁.inds.getD []) s₁.bestOfRun s₁.genNum = .error .typeError := by
        simp only [hdef, defaultChecker, h1, Fit.pure, h2]
      rw [this]
      rfl
    unfold mafterInit
    rw [bind_of_ok (m := PyM.get) (a := s₁) (s' := s₁) rfl]
    exact bind_of_error hstop
  exact bind_of_error this

/-! ## Example -/

/-- An individual with the given genome. -/
def exNew (g : ℚ) : MM ℚ Nat := do
  let w ← PyM.get
  PyM.set { w with
    fits := fun x => if x = w.next then .new none (.each [false, true]) false false else w.fits x
    genome := fun x => if x = w.next then g else w.genome x
    next := w.next + 1 }
  PyM.pure w.next

/-- Minimise `x`, maximise `x (5 - x)`; the operator adds one to the genome in place. -/
def exCfg (nsga2 : Bool) (maxGen : Nat) : MCfg ℚ where
  sub := {
    create := mapL exNew [0, 3, 5, 7]
    ops := [MOp.inPlace 1 1 fun refs => modify fun w =>
      { w with genome := fun r => if r ∈ refs then w.genome r + 1 else w.genome r }]
    sels := [⟨1, tournamentM 2 true⟩]
    popSize := 4
    nElite := 1
    hib := false
    evaluate := fun g => PyM.pure [g, g * (5 - g)] }
  nsga2Breeder := nsga2
  stream := fun seed k => seed + k
  maxGen := maxGen
  checker := fun _ _ _ _ => .ok false
  sched := fun _ k => List.range k
  setOrder := fun _ _ l => l.reverse

def exRun : MRun ℚ where
  w := ⟨fun _ => .new none (.each []) false false, fun _ => 0, 0, fun _ => 0⟩
  inds := none
  bestOfRun := none
  bestOfGen := none
  genNum := 0
  randomSeed := 1
  genSeed := 1
  finalGen := none
  log := []

theorem exRun_fresh : exRun.Fresh 2 [false, true] := ⟨rfl, fun r hr => absurd hr (Nat.not_lt_zero r), rfl, rfl⟩

theorem exCfg_good (nsga2 : Bool) (maxGen : Nat) : (exCfg nsga2 maxGen).Good 4 2 [false, true] := by
  refine ⟨fun s hd => ?_, ?_, ?_, fun g t => wlp_pure.2 rfl, rfl, fun g k l => List.reverse_perm l⟩
  · refine wlp.mono (wlp_mapL (I := fun (pre : List ℚ) (l : List Nat) s' => l.length = pre.length ∧ l.Nodup ∧
      Exist s' l ∧ AllDir 2 [false, true] s') ⟨rfl, List.nodup_nil, by intro r hr; simp at hr, hd⟩ ?_)
      (fun l s' h => ⟨h.1, h.2.1, h.2.2.1, h.2.2.2⟩)
    rintro pre x post l s₁ - ⟨h1, h2, h3, h4⟩
    unfold exNew
    rw [wlp_bind, wlp_get, wlp_bind, wlp_set]
    refine wlp_pure.2 ⟨by simp [h1], ?_, ?_, ?_⟩
    · rw [List.nodup_append]
      refine ⟨h2, by simp, fun a ha b hb hab => ?_⟩
      simp only [List.mem_singleton] at hb
      have := h3 a ha
      omega
    · intro r hr
      simp only [List.mem_append, List.mem_singleton] at hr
      rcases hr with hr | rfl
      · exact Nat.lt_succ_of_lt (h3 r hr)
      · exact Nat.lt_succ_self _
    · intro r hr
      dsimp only at hr ⊢
      split
      · rfl
      · exact h4 r (by omega)
  · intro o ho
    simp only [exCfg, List.mem_singleton] at ho
    subst ho
    exact MOp.inPlace_good fun refs s => wlp_modify.2 ⟨rfl, rfl⟩
  · intro x hx
    simp only [exCfg, List.mem_singleton] at hx
    subst hx
    exact MSel.tournament_good 1 2 true

/-- What is seen at the algorithm's own events. -/
def trace (c : MCfg ℚ) : Bool × List (String × Nat × List Nat × Option (List Nat)) :=
  match mevolve c exRun with
  | (.ok (), s) => (true, (s.log.filter fun e => e.publisher = "algorithm").map fun e => (e.name, e.genNum, e.inds, e.bestOfGen))
  | (.error _, _) => (false, [])

example : trace (exCfg true 2) = (true, [("init", 0, [0, 1, 2, 3], none),
    ("after_generation", 1, [5, 0, 6, 1], some [5, 0, 6]), ("after_generation", 2, [10, 11, 5, 0], some [10, 11, 5, 0]),
    ("evolution_finished", 2, [10, 11, 5, 0], some [10, 11, 5, 0])]) := by
  decide +kernel

theorem ok_pair {σ : Type} {p : Except Err Unit × σ} (h : p.1 = .ok ()) : p = (.ok (), p.2) := Prod.ext h rfl

/-- With the default breeder two generations leave one individual, three leave none, and a fourth fails. -/
example : trace (exCfg false 3) = (true, [("init", 0, [0, 1, 2, 3], none),
    ("after_generation", 1, [4, 6], some [4]), ("after_generation", 2, [8], some [8]),
    ("after_generation", 3, [], some []), ("evolution_finished", 3, [], some [])]) ∧ (trace (exCfg false 4)).1 = false := by
  decide +kernel

example : (mevolve (exCfg false 4) exRun).1 ≠ .ok () :=
  C54_dies_partial (exCfg_good false 4) rfl exRun_fresh (fun _ _ _ _ => by simp [exCfg]) (by decide) (by decide)

/-- The default termination checker. -/
def exDefault : MCfg ℚ := { exCfg true 3 with checker := defaultChecker }

example : (mevolve exDefault exRun).1 = .error .typeError := by
  have hg := exCfg_good true 3
  have hgood : exDefault.Good 4 2 [false, true] :=
    ⟨hg.creates, hg.ops, hg.sels, hg.evaluates, hg.directions, hg.order⟩
  rw [C54_default_checker_partial hgood exRun_fresh rfl (ok_pair (p := minit exDefault exRun) (by decide +kernel))]

/-- C54 is false. -/
theorem C54_refuted : ¬ C54_statement := by
  intro h
  have hrun : mevolve (exCfg false 1) exRun = (.ok (), (mevolve (exCfg false 1) exRun).2) :=
    ok_pair (by decide +kernel)
  have hsize := h ℚ (exCfg false 1) 4 2 [false, true] exRun _ (exCfg_good false 1) rfl exRun_fresh hrun
  have hbad : ((mevolve (exCfg false 1) exRun).2.log.all fun e =>
      decide (e.publisher = "algorithm" → e.inds.length = 4)) = false := by decide +kernel
  rw [List.all_eq_true.2 fun e he => decide_eq_true (hsize e he)] at hbad
  simp at hbad

/-! ## C70 — the best individual of the run -/

/-- C70 as stated: the individual that `finish` reports as the best one is not dominated by any individual that
was evaluated in the run. -/
def C70_statement : Prop :=
  ∀ (G : Type) (c : MCfg G) (n m : Nat) (ds : List Bool) (s s' : MRun G), c.Good n m ds → c.nsga2Breeder = true →
    s.Fresh m ds → mevolve c s = (.ok (), s') →
    ∀ b v, s'.bestOfRun = some b → (s'.w.fits b).objs = some v →
    ∀ e ∈ s'.log, ∀ y ∈ e.inds, ∀ u, (e.fits y).objs = some u → ¬ Pareto ds u v

/-- C70 is false: in a run of one generation the individual reported has the objectives `[8, -24]`, and one of the
survivors has `[0, 0]` (minimise the first, maximise the second). -/
theorem C70_refuted : ¬ C70_statement := by
  intro h
  have hrun : mevolve (exCfg true 1) exRun = (.ok (), (mevolve (exCfg true 1) exRun).2) :=
    ok_pair (by decide +kernel)
  have h1 := h ℚ (exCfg true 1) 4 2 [false, true] exRun _ (exCfg_good true 1) rfl exRun_fresh hrun 3 [8, -24]
    (by decide +kernel) (by decide +kernel)
  have h2 : ((mevolve (exCfg true 1) exRun).2.log.any fun e =>
      decide (5 ∈ e.inds ∧ (e.fits 5).objs = some [0, 0])) = true := by decide +kernel
  obtain ⟨e, he, hd⟩ := List.any_eq_true.1 h2
  rw [decide_eq_true_eq] at hd
  refine h1 e he 5 hd.1 _ hd.2 ⟨?_, 0, false, 0, 8, rfl, rfl, rfl, by norm_num [Better]⟩
  rintro (_ | _ | i) d x y hd hx hy
  · simp at hd hx hy; subst hd hx hy; norm_num [AtLeast]
  · simp at hd hx hy; subst hd hx hy; norm_num [AtLeast]
  · simp at hd

/-- A computation that does not change `best_of_run_`, also not in the events it publishes. -/
def KeepsBest {α : Type} (x : MRM G α) : Prop :=
  ∀ s, wlp x (fun _ s' => s'.bestOfRun = s.bestOfRun ∧ ∀ e ∈ s'.log, e ∈ s.log ∨ e.bestOfRun = s.bestOfRun) s

theorem KeepsBest.bind {α β : Type} {x : MRM G α} {f : α → MRM G β} (hx : KeepsBest x) (hf : ∀ a, KeepsBest (f a)) :
    KeepsBest (x >>= f) := by
  intro s
  rw [wlp_bind]
  refine (hx s).mono fun a s₁ h1 => (hf a s₁).mono fun b s₂ h2 => ⟨h2.1.trans h1.1, fun e he => ?_⟩
  rcases h2.2 e he with h | h
  · exact h1.2 e h
  · exact .inr (h.trans h1.1)

theorem KeepsBest.pure {α : Type} (a : α) : KeepsBest (PyM.pure a : MRM G α) := fun s => wlp_pure.2 ⟨rfl, fun e he => .inl he⟩

theorem KeepsBest.get : KeepsBest (PyM.get : MRM G (MRun G)) := fun s => wlp_get.2 ⟨rfl, fun e he => .inl he⟩

theorem KeepsBest.ofExcept {α : Type} (x : Except Err α) : KeepsBest (PyM.ofExcept x : MRM G α) :=
  fun s => wlp_ofExcept.2 fun a _ => ⟨rfl, fun e he => .inl he⟩

theorem KeepsBest.raise {α : Type} (e : Err) : KeepsBest (PyM.raise e : MRM G α) := fun s => by simp

theorem KeepsBest.modify {f : MRun G → MRun G} (h1 : ∀ s, (f s).bestOfRun = s.bestOfRun) (h2 : ∀ s, (f s).log = s.log) :
    KeepsBest (PyM.modify f) := fun s => wlp_modify.2 ⟨h1 s, fun e he => .inl (by rwa [h2] at he)⟩

theorem KeepsBest.world {α : Type} (x : MM G α) : KeepsBest (mworld x) :=
  fun s => wlp_mworld.2 (fun a w _ => ⟨rfl, fun e he => .inl he⟩)

theorem KeepsBest.publish (publisher name : String) : KeepsBest (mpublish publisher name : MRM G Unit) := by
  intro s
  rw [wlp_mpublish]
  refine ⟨rfl, fun e he => ?_⟩
  simp only [List.mem_append, List.mem_singleton] at he
  rcases he with he | rfl
  · exact .inl he
  · exact .inr rfl

theorem KeepsBest.act {α : Type} {x : MRM G α} (hx : KeepsBest x) (publisher : String) : KeepsBest (mact publisher x) := by
  unfold mact
  exact (KeepsBest.publish _ _).bind fun _ => hx.bind fun _ => (KeepsBest.publish _ _).bind fun _ => KeepsBest.pure _

theorem KeepsBest.individuals : KeepsBest (individuals : MRM G _) :=
  fun s => wlp_individuals.2 fun is _ => ⟨rfl, fun e he => .inl he⟩

theorem KeepsBest.loop (c : MCfg G) (N gen : Nat) : KeepsBest (mloop c N gen) := by
  induction N generalizing gen with
  | zero => unfold mloop; exact KeepsBest.pure _
  | succ N ih =>
    unfold mloop
    refine KeepsBest.bind (KeepsBest.modify (fun _ => rfl) fun _ => rfl) fun _ => KeepsBest.individuals.bind fun _ =>
      KeepsBest.get.bind fun _ => KeepsBest.bind (KeepsBest.modify (fun _ => rfl) fun _ => rfl) fun _ =>
      KeepsBest.bind (KeepsBest.modify (fun _ => rfl) fun _ => rfl) fun _ => KeepsBest.bind ?_ fun _ => KeepsBest.bind ?_ fun stop => ?_
    · unfold mgeneration mbreed mevaluate mbreedBody mevaluateBody msort mfronts
      refine KeepsBest.bind (KeepsBest.act ?_ _) fun _ => KeepsBest.bind (KeepsBest.act ?_ _) fun _ =>
        KeepsBest.bind ?_ fun _ => ?_
      · exact KeepsBest.individuals.bind fun _ => (KeepsBest.world _).bind fun _ => KeepsBest.modify (fun _ => rfl) fun _ => rfl
      · exact KeepsBest.individuals.bind fun _ => KeepsBest.get.bind fun _ => KeepsBest.world _
      · exact KeepsBest.individuals.bind fun _ => KeepsBest.get.bind fun _ => (KeepsBest.world _).bind fun _ =>
          KeepsBest.modify (fun _ => rfl) fun _ => rfl
      · exact KeepsBest.individuals.bind fun _ => KeepsBest.modify (fun _ => rfl) fun _ => rfl
    · unfold mstop
      exact KeepsBest.get.bind fun _ => KeepsBest.ofExcept _
    · cases stop
      · exact (KeepsBest.publish _ _).bind fun _ => ih _
      · exact KeepsBest.bind (KeepsBest.modify (fun _ => rfl) fun _ => rfl) fun _ => KeepsBest.publish _ _

/-- C70, what happens instead: the individual chosen at initialisation stays `best_of_run_` (the object; breeding
may modify it) for the whole run, whatever is found later. -/
theorem C70_never_updated_partial {s₁ : MRun G} (hinit : minit c s = (.ok (), s₁)) (hrun : mevolve c s = (.ok (), s')) :
    s'.bestOfRun = s₁.bestOfRun ∧ ∀ e ∈ s'.log, e ∈ s₁.log ∨ e.bestOfRun = s₁.bestOfRun := by
  unfold mevolve at hrun
  rw [bind_of_ok hinit] at hrun
  have key : KeepsBest (do mafterInit c; mpublish "algorithm" "evolution_finished"; mfinish) := by
    refine KeepsBest.bind ?_ fun _ => (KeepsBest.publish _ _).bind fun _ => ?_
    · unfold mafterInit
      refine KeepsBest.get.bind fun _ => KeepsBest.bind ?_ fun stop => ?_
      · unfold mstop
        exact KeepsBest.get.bind fun _ => KeepsBest.ofExcept _
      · cases stop
        · exact KeepsBest.loop _ _ _
        · exact KeepsBest.bind (KeepsBest.modify (fun _ => rfl) fun _ => rfl) fun _ => KeepsBest.publish _ _
    · unfold mfinish
      refine KeepsBest.get.bind fun s => ?_
      cases s.bestOfRun with
      | none => exact KeepsBest.raise _
      | some r => exact (KeepsBest.ofExcept _).bind fun _ => KeepsBest.pure _
  exact key s₁ () s' hrun

end Verif.Moo
