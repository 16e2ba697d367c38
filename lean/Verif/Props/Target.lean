import Verif.Props.Progress
import Verif.Props.Termination
import Verif.Props.Statistics

/-! # C109: a run with a target stops when the target is reached -/

namespace Verif.Evo
open PyM
variable {G : Type} {c : Cfg G Unit} {sub : SubCfg G} {m : Mode} {s s' : Run G Unit} {f : G → Except Err ℚ}

/-- `x` is as good as the target, up to the threshold. -/
def Reached (d : Bool) (optimal thr x : ℚ) : Prop := if d then optimal - thr ≤ x else x ≤ optimal + thr

/-- An individual with such a fitness value was in the population at the end of one of these evaluations. -/
def SomeoneReached (d : Bool) (optimal thr : ℚ) (past : List (Event G)) : Prop :=
  ∃ e ∈ past, e.IsEval ∧ ∃ r x, e.Shows r ∧ PureIs e.snap.heap r x ∧ Reached d optimal thr x

/-- If somebody has reached the target by the end of a generation (or of the initialisation), it was the last one. -/
def StopsWhenReached (d : Bool) (optimal thr : ℚ) (s' : Run G Unit) : Prop :=
  ∀ past e future, s'.log = past ++ e :: future → e.isPoint = true → SomeoneReached d optimal thr past →
    s'.genNum = e.snap.genNum

/-- C109, as the property says it. -/
def C109_statement : Prop :=
  ∀ (c : Cfg Nat Unit) (sub : SubCfg Nat) (m : Mode) (f : Nat → Except Err ℚ) (optimal thr : ℚ) (s s' : Run Nat Unit),
    c.Ordinary sub m → c.checker = .one (threshold optimal thr) → sub.Computes f → s.Ready m →
    s.log = [] → s.genNum = 0 → s.checkers = [()] → evolve c s = (.ok (), s') → StopsWhenReached m.hib optimal thr s'

/-- What is seen at the end of the generations, with the answers of the checker. -/
theorem feeds_getElem {κ : Type} {t : Checker G κ} {snaps : List (Snapshot G)} {k k' : κ} {bs : List Bool} (h : Feeds t snaps k bs k')
    {j : Nat} {e : Snapshot G} (hj : snaps[j]? = some e) :
    ∃ b k₁ k₂, bs[j]? = some b ∧ t k₁ e.heap e.inds e.bestOfRun e.genNum = (.ok b, k₂) := by
  induction h generalizing j with
  | nil => simp at hj
  | @cons e' es k k' k'' b bs h1 _ ih =>
    cases j with
    | zero =>
      simp only [List.getElem?_cons_zero, Option.some.injEq] at hj
      subst hj
      exact ⟨b, k, k', rfl, h1⟩
    | succ j => exact ih (by simpa using hj)

theorem consultations_genNum {κ : Type} {c : Cfg G κ} {gen : Nat} {snaps : List (Snapshot G)} {ks ks' : List κ} {stop : Bool}
    (h : Consultations c gen snaps ks stop ks') {j : Nat} {e : Snapshot G} (hj : snaps[j]? = some e) : e.genNum = gen + j := by
  induction h generalizing j with
  | done => simp at hj
  | stop h1 _ =>
    cases j with
    | zero => simp only [List.getElem?_cons_zero, Option.some.injEq] at hj; subst hj; exact h1
    | succ j => simp at hj
  | next h1 _ _ ih =>
    cases j with
    | zero => simp only [List.getElem?_cons_zero, Option.some.injEq] at hj; subst hj; exact h1
    | succ j => rw [ih (by simpa using hj)]; omega

/-- The best individual at an event of the algorithm, in terms of fitness values. -/
theorem best_at (hc : c.Ordinary sub m) (hd : sub.Computes f) (hr : s.Ready m) (hlog : s.log = []) {r : Except Err Unit}
    (h : evolve c s = (r, s')) {past future : List (Event G)} {e : Event G} (hl : s'.log = past ++ e :: future)
    (hp : e.publisher = "algorithm") :
    ∃ b i q, e.snap.bestOfRun = some b ∧ e.snap.heap[b]? = some i ∧ f i.genome = .ok q ∧ PureIs e.snap.heap b q ∧
      ∀ e' ∈ past, e'.IsEval → ∀ r x, e'.Shows r → PureIs e'.snap.heap r x → ∃ j, e'.snap.heap[r]? = some j ∧
        f j.genome = .ok x ∧
        ¬ Preferred m.hib (score m.hib m.bloat x (c.size j.genome)) (score m.hib m.bloat q (c.size i.genome)) := by
  obtain ⟨b, hb, ⟨e₀, he₀, hev₀, hsh₀⟩, hall⟩ := C35_always hc hr hlog h past e future hl hp
  have hval := evolve_evals hc (valued_prop hc hd) hr hlog _ _ h
  have hin : ∀ e' ∈ past, e' ∈ s'.log := by intro e' he'; rw [hl]; simp [he']
  have hess : ∀ e' ∈ past, e'.IsEval → ∀ r, e'.Shows r → ∃ j x, e'.snap.heap[r]? = some j ∧ f j.genome = .ok x ∧
      j.fit.value = .num x ∧ ∃ i, e.snap.heap[r]? = some i ∧ i.genome = j.genome ∧ i.fit.value = .num x ∧ i.fit.evaluated = true ∧
        HasScore c.size m.hib (ofHeap e.snap.heap) r (score m.hib m.bloat x (c.size j.genome)) := by
    intro e' he' hev r hsh
    obtain ⟨j, x, h1, h2, h3, h4, h5⟩ := hval e' (hin e' he') hev r hsh
    obtain ⟨-, h6, -⟩ := hall e' he' hev r hsh
    unfold essence at h6
    rw [h1] at h6
    cases h7 : e.snap.heap[r]? with
    | none => rw [h7] at h6; simp at h6
    | some i =>
      rw [h7] at h6
      simp only [Option.map_some, Option.some.injEq, Prod.mk.injEq] at h6
      refine ⟨j, x, h1, h2, h3, i, rfl, h6.2.1, by rw [h6.2.2]; exact h3, by rw [h6.2.2]; exact h4, i, m.bloat, x, h7, ?_,
        by rw [h6.2.1]⟩
      rw [h6.2.2]
      subst h5
      exact ⟨h3, h4, rfl, rfl⟩
  obtain ⟨j, q, h1, h2, h2', i, h3, h4, h5, h5', h6⟩ := hess e₀ he₀ hev₀ b hsh₀
  refine ⟨b, i, q, hb, h3, by rw [h4]; exact h2, ⟨i, h3, h5, h5'⟩, ?_⟩
  intro e' he' hev r x hsh hx
  obtain ⟨k, x', h7, h8, h8', -, -, -, -, -, h9⟩ := hess e' he' hev r hsh
  obtain ⟨k', hk', hx', -⟩ := hx
  rw [h7, Option.some.injEq] at hk'
  subst hk'
  rw [h8', FVal.num.injEq] at hx'
  subst hx'
  refine ⟨k, h7, h8, fun hp => ?_⟩
  obtain ⟨-, -, hnb⟩ := hall e' he' hev r hsh
  refine hnb ⟨_, _, h9, ?_, hp⟩
  rw [h4]
  exact h6

/-- **C109 (partial)**: without bloat control, and if none of the genomes that occur is better than the target, a run with a
`ThresholdFromTargetTerminationChecker` ends with the first generation by whose end somebody has reached the target up to
the threshold. -/
theorem C109_legal_partial {P : G → Prop} {optimal thr : ℚ} (hc : c.Ordinary sub m) (hck : c.checker = .one (threshold optimal thr))
    (hd : sub.Computes f) (hbloat : m.bloat = none ∨ m.bloat = some 0)
    (hopt : ∀ g q, P g → f g = .ok q → ¬ Preferred m.hib q optimal)
    (hr : s.Ready m) (hlog : s.log = []) (hg : s.genNum = 0) (hk : s.checkers = [()]) (h : evolve c s = (.ok (), s'))
    (hP : ∀ e ∈ s'.log, ∀ b i, e.snap.bestOfRun = some b → e.snap.heap[b]? = some i → P i.genome) :
    StopsWhenReached m.hib optimal thr s' := by
  intro past e future hl hpt ⟨e', he', hev, r, x, hsh, hx, hre⟩
  obtain ⟨snaps, stop, hcourse, answers, k', -, hfeed, h1, -⟩ := C36_one_checker hck hlog hg hk h
  have hpub : e.publisher = "algorithm" := by
    simp only [Event.isPoint, Event.tag, Bool.or_eq_true, beq_iff_eq, Prod.mk.injEq] at hpt
    rcases hpt with h | h <;> exact h.1
  -- the event shows one of the snapshots
  obtain ⟨j, hj⟩ : ∃ j, snaps[j]? = some e.snap := by
    have hm : e.snap ∈ (s'.log.filter Event.isPoint).map (·.snap) :=
      List.mem_map_of_mem (List.mem_filter.2 ⟨by rw [hl]; simp, hpt⟩)
    rw [hcourse.seen] at hm
    have : e.snap ∈ snaps := by
      rcases List.mem_append.1 hm with hm | hm
      · exact hm
      · split at hm
        · exact hm
        · simp at hm
    exact List.mem_iff_getElem?.1 this
  have hgen := consultations_genNum hcourse.asked hj
  obtain ⟨b, k₁, k₂, hb, hask⟩ := feeds_getElem hfeed hj
  obtain ⟨best, i, q, hbest, hi, hq, hpure, hall⟩ := best_at hc hd hr hlog h hl hpub
  obtain ⟨j', -, -, hnp⟩ := hall e' he' hev r x hsh hx
  have hnp' : ¬ Preferred m.hib x q := by
    rcases hbloat with hb | hb
    · rw [hb] at hnp; simpa [score] using hnp
    · rw [hb] at hnp
      cases hm : m.hib <;> rw [hm] at hnp <;> simpa [score, hm] using hnp
  have hPi : P i.genome := hP e (by rw [hl]; simp) best i hbest hi
  have hno := hopt _ _ hPi hq
  rw [hbest] at hask
  have hb' : b = true := by
    refine ((C42_threshold (pureOf_of hpure)).1 hask).2 ?_
    unfold Preferred at hnp' hno
    unfold Reached at hre
    rw [abs_le]
    cases hm : m.hib
    · simp only [hm, Bool.false_eq_true, if_false, not_lt] at hnp' hno hre
      constructor <;> linarith
    · simp only [hm, if_true, not_lt] at hnp' hno hre
      constructor <;> linarith
  subst hb'
  obtain ⟨-, hlast⟩ := h1 j hb
  rw [hcourse.genNum, hgen]
  omega

/-- **C109 (partial)**: the same if no genome at all is better than the target. -/
theorem C109_optimal_partial {optimal thr : ℚ} (hc : c.Ordinary sub m) (hck : c.checker = .one (threshold optimal thr))
    (hd : sub.Computes f) (hbloat : m.bloat = none ∨ m.bloat = some 0)
    (hopt : ∀ g q, f g = .ok q → ¬ Preferred m.hib q optimal)
    (hr : s.Ready m) (hlog : s.log = []) (hg : s.genNum = 0) (hk : s.checkers = [()]) (h : evolve c s = (.ok (), s')) :
    StopsWhenReached m.hib optimal thr s' :=
  C109_legal_partial (P := fun _ => True) hc hck hd hbloat (fun g q _ => hopt g q) hr hlog hg hk h
    fun _ _ _ _ _ _ => trivial

/-- C109: a run with such a checker that ends before `max_generation` has reached the target: its best individual then is
within the threshold of it.  (Whatever the fitness, the evaluator and the operators.) -/
theorem C109_early {optimal thr : ℚ} (hck : c.checker = .one (threshold optimal thr)) (hlog : s.log = []) (hg : s.genNum = 0)
    (hk : s.checkers = [()]) (h : evolve c s = (.ok (), s')) (hearly : s'.genNum < c.maxGen) :
    ∃ b x, s'.bestOfRun = some b ∧ PureIs s'.w.heap b x ∧ |x - optimal| ≤ thr := by
  obtain ⟨snaps, stop, hcourse, answers, k', -, hfeed, -, h2⟩ := C36_one_checker hck hlog hg hk h
  have hstop : stop = true := by
    cases stop with
    | true => rfl
    | false =>
      have h3 := hcourse.full rfl
      rw [hcourse.genNum, h3] at hearly
      omega
  have hans := h2 hstop
  have hne := hcourse.ne
  obtain ⟨sn, hsn⟩ : ∃ sn, snaps[snaps.length - 1]? = some sn := by
    have : snaps.length - 1 < snaps.length := by have := List.length_pos_iff.2 hne; omega
    exact ⟨_, List.getElem?_eq_getElem this⟩
  obtain ⟨b, k₁, k₂, hb, hask⟩ := feeds_getElem hfeed hsn
  rw [hans, Option.some.injEq] at hb
  subst hb
  have hlast := hcourse.last
  rw [List.getLast?_eq_getElem?, hsn, Option.some.injEq] at hlast
  subst hlast
  change threshold optimal thr k₁ s'.w.heap s'.inds s'.bestOfRun s'.genNum = _ at hask
  unfold threshold at hask
  cases hbest : s'.bestOfRun with
  | none => rw [hbest] at hask; simp at hask
  | some best =>
    rw [hbest] at hask
    dsimp only at hask
    cases hp : pureOf s'.w.heap best with
    | error _ => rw [hp] at hask; simp at hask
    | ok v =>
      rw [hp] at hask
      cases v with
      | none => simp at hask
      | obj _ => simp at hask
      | num x =>
        simp only [Prod.mk.injEq, Except.ok.injEq, decide_eq_true_eq, and_true] at hask
        refine ⟨best, x, rfl, ?_, hask⟩
        unfold pureOf at hp
        cases hi : s'.w.heap[best]? with
        | none => rw [hi] at hp; simp at hp
        | some i =>
          rw [hi] at hp
          unfold Fit.getPure at hp
          simp only at hp
          split at hp
          · rename_i hev
            exact ⟨i, hi, by simpa using hp, hev⟩
          · simp at hp

/-! ## Examples -/

/-- An operator that adds two. -/
def addTwo : Op Nat := Op.inPlace "addTwo" 1 1 fun gs => pure (some (gs.map (· + 2)))

theorem addTwo_good : addTwo.Good := by
  unfold addTwo
  exact Op.inPlace_good _ _ _ _

/-- The configuration of `Progress`, with a target and a ceiling for the fitness. -/
def targetCfg (optimal : ℚ) (ceiling : Nat) : Cfg Nat Unit :=
  { progCfg addTwo with subs := [{ progSub addTwo with evaluate := fun g => pure (min g ceiling : Nat) }], checker := .one (threshold optimal 0), maxGen := 3 }

def targetRun : Run Nat Unit := { progRun with checkers := [()] }

theorem targetCfg_ordinary (optimal : ℚ) (ceiling : Nat) : (targetCfg optimal ceiling).Ordinary
    { progSub addTwo with evaluate := fun g => pure (min g ceiling : Nat) } ⟨true, none⟩ where
  subs := rfl
  dir := rfl
  creators := by simp [progSub]
  sels := ⟨_, _, rfl, tournament_good _ _, tournament_fills _ _⟩
  ops := by simpa [progSub] using addTwo_good
  sched := fun _ _ => List.Perm.refl _
  map := rfl

theorem target_ends : (evolve (targetCfg 10 10) targetRun).1 = .ok () ∧ (evolve (targetCfg 10 10) targetRun).2.genNum = 1 := by
  decide +kernel

example := C109_optimal_partial (targetCfg_ordinary 10 10) rfl (f := fun g => .ok ((min g 10 : Nat) : ℚ)) (fun _ _ => rfl)
  (.inl rfl) (by
    intro g q hq
    simp only [Except.ok.injEq] at hq
    subst hq
    simp only [Preferred, if_true, not_lt]
    exact_mod_cast Nat.min_le_right g 10) (s := targetRun) progRun_ready rfl rfl rfl (ran target_ends.1)

example := C109_early (c := targetCfg 10 10) (s := targetRun) rfl rfl rfl rfl (ran target_ends.1) (by rw [target_ends.2]; decide)

/-! ## The target is overshot -/

theorem overshot_ends : (evolve (targetCfg 9 100) targetRun).1 = .ok () ∧ (evolve (targetCfg 9 100) targetRun).2.genNum = 3 := by
  decide +kernel

theorem overshot_eval : ((evolve (targetCfg 9 100) targetRun).2.log[6]?).any (endsWith (fun a b => decide (b ≤ a)) [2, 3] 10) = true := by
  decide +kernel

theorem overshot_point : ((evolve (targetCfg 9 100) targetRun).2.log[7]?).any (fun e => e.isPoint && (e.snap.genNum == 1)) = true := by
  decide +kernel

/-- **C109 is false**: an individual with fitness 10 is there after the first generation, which is better than the target 9,
higher fitness being better; but it is not within the threshold of the target, so the run goes on. -/
theorem C109_refuted : ¬ C109_statement := by
  intro h
  have hk := h (targetCfg 9 100) _ ⟨true, none⟩ (fun g => .ok ((min g 100 : Nat) : ℚ)) 9 0 targetRun _ (targetCfg_ordinary 9 100) rfl
    (fun _ _ => rfl) progRun_ready rfl rfl rfl (ran overshot_ends.1)
  have h0 := overshot_ends.2
  have h1 := overshot_eval
  have h2 := overshot_point
  generalize (evolve (targetCfg 9 100) targetRun).2 = s' at hk h0 h1 h2
  rw [Option.any_eq_true] at h1 h2
  obtain ⟨e₁, he1, h1⟩ := h1
  obtain ⟨e₂, he2, h2⟩ := h2
  simp only [Bool.and_eq_true, beq_iff_eq] at h2
  obtain ⟨l2, e2⟩ := List.getElem?_eq_some_iff.1 he2
  have hsplit : s'.log = s'.log.take 7 ++ e₂ :: s'.log.drop 8 := by
    rw [← e2, ← List.drop_eq_getElem_cons, List.take_append_drop]
  have hmem : e₁ ∈ s'.log.take 7 := by
    refine List.mem_of_getElem? (i := 6) ?_
    rw [List.getElem?_take_of_lt (by decide)]
    exact he1
  obtain ⟨a1, b1, c1⟩ := endsWith_spec h1
  obtain ⟨x, hx, ⟨i, hi, hv, hev⟩, -⟩ := c1 2 (by simp)
  have := hk _ _ _ hsplit h2.1 ⟨e₁, hmem, a1, 2, x, (b1 2).2 (by simp), ⟨i, hi, hv, hev⟩, by
    simp only [decide_eq_true_eq] at hx
    simp only [Reached, if_true]
    linarith⟩
  rw [h0, h2.2] at this
  exact absurd this (by decide)

end Verif.Evo
