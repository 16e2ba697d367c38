import Verif.Lemmas.Course
import Verif.Lemmas.Creation
import Verif.Props.Breeder
import Verif.Props.Evaluator

/-! # C35, C36, C37, C40: evolutionary runs -/

namespace Verif.Evo
open PyM
variable {G κ : Type} {c : Cfg G κ} {s s' : Run G κ}

/-! ## C35: `best_of_run_` -/

/-- The invariant holds throughout a run. -/
theorem evolve_alive {sub : SubCfg G} {m : Mode} (hc : c.Ordinary sub m) (hr : s.Ready m)
    (hlog : s.log = []) :
    tri (evolve c) (fun _ s' => Alive c.size m s') (LogOK c.size m) s := by
  unfold evolve
  refine tri_bind ((initRun_alive hc hr hlog).mono fun _ s₁ h1 => ?_)
  refine tri_bind (tri.mono (Q := fun _ s₂ => Alive c.size m s₂) ?_ fun _ s₂ h2 => ?_)
  · unfold afterInit
    refine tri_bind (tri_get (tri_bind ((shouldTerminate_alive h1 _).mono fun v s₂ h2 => ?_)))
    refine tri_ite (fun _ => tri_bind (tri_modify (tri_publish ?_))) (fun _ => mainLoop_alive hc _ _ h2)
    exact Alive.push (⟨h2.log, h2.best, h2.pop⟩ : Alive c.size m { s₂ with finalGen := some 0 }) (by simp)
  · refine tri_bind (tri_publish (tri_modify ?_))
    have := h2.push (p := "algorithm") (n := "evolution_finished") (by simp)
    exact ⟨this.log, this.best, this.pop⟩

/-- C35: however a run goes on and ends — normally or with an exception, for every evaluator, seed,
checkers, and for all operators, creators and selection methods meeting their contracts — whenever the
algorithm publishes an event, `best_of_run_` is the best individual evaluated so far: it was evaluated,
no individual of any generation beats it, and all of them still have the genome and fitness they were
evaluated with. -/
theorem C35_always {sub : SubCfg G} {m : Mode} (hc : c.Ordinary sub m) (hr : s.Ready m) (hlog : s.log = [])
    {r : Except Err Unit} (h : evolve c s = (r, s')) : BestAlways c.size m.hib s'.log := by
  have := evolve_alive hc hr hlog r s' h
  cases r with
  | ok _ => exact this.log
  | error _ => exact this

/-- C35: the same at the end of `evolve`. -/
theorem C35_end {sub : SubCfg G} {m : Mode} (hc : c.Ordinary sub m) (hr : s.Ready m) (hlog : s.log = [])
    (h : evolve c s = (.ok (), s')) :
    ∃ b, s'.bestOfRun = some b ∧ BestOf c.size m.hib s'.log s'.w.heap b :=
  (evolve_alive hc hr hlog _ s' h).best

/-! ## C36: generations and events -/

/-- What C36 says of a run from `s` to `s'` in which the population was looked at in the moments `snaps`
(after the initialisation and after every generation). -/
structure Course (c : Cfg G κ) (s s' : Run G κ) (snaps : List (Snapshot G)) (stop : Bool) : Prop where
  /-- at least the initial population, at most `max_generation` generations -/
  ne : snaps ≠ []
  le : snaps.length ≤ c.maxGen + 1
  /-- without an answer to stop, all generations are run -/
  full : stop = false → snaps.length = c.maxGen + 1
  /-- the checkers were asked after each of them; only the last answer can have been to stop -/
  asked : Consultations c 0 snaps s.checkers stop s'.checkers
  /-- the events, in order -/
  tags : s'.log.map Event.tag = initTags ++ (List.replicate (snaps.length - 1) genTags).flatten ++
    (if stop = true ∧ snaps.length = 1 then [("algorithm", "after_generation")] else []) ++
    [("algorithm", "evolution_finished")]
  /-- `snaps` is what could be seen at the `init` and `after_generation` events -/
  seen : (s'.log.filter Event.isPoint).map (·.snap) =
    snaps ++ (if stop = true ∧ snaps.length = 1 then snaps else [])
  genNum : s'.genNum = snaps.length - 1
  finalGen : s'.finalGen = if stop then some (snaps.length - 1) else s.finalGen
  shutdown : s'.shutdown = true
  /-- what was seen last is what is there at the end -/
  last : snaps.getLast? = some s'.snapshot

/-- C36: every run that returns has such a course. -/
theorem C36_course (hlog : s.log = []) (hg : s.genNum = 0) (hf : c.Fits s.checkers)
    (h : evolve c s = (.ok (), s')) : ∃ snaps stop, Course c s s' snaps stop := by
  revert s'
  suffices hw : wlp (evolve c) (fun _ s' => ∃ snaps stop, Course c s s' snaps stop) s from
    fun {s'} h => hw _ s' h
  unfold evolve
  rw [wlp_bind]
  -- the initialisation publishes its events, the last one showing the state reached
  have hinit : wlp (initRun c) (fun _ s₁ => Goes initTags s s₁ ∧
      ∃ evs : List (Event G), s₁.log = s.log ++ (evs ++ [⟨"algorithm", "init", s₁.snapshot⟩]) ∧
        evs.map Event.tag = [("population_evaluator", "before_operator"), ("population_evaluator", "after_operator")]) s := by
    have h1 := goes_init c s
    have h2 : wlp (initRun c) (fun _ s₁ => ∃ pre : List (Event G), s₁.log = pre ++ [⟨"algorithm", "init", s₁.snapshot⟩]) s := by
      unfold initRun
      rw [wlp_bind, wlp_get, wlp_bind]
      refine (wlp_true _ _).mono fun _ s₁ _ => ?_
      rw [wlp_bind]
      refine (wlp_true _ _).mono fun _ s₂ _ => ?_
      rw [wlp_bind]
      refine (wlp_true _ _).mono fun b s₃ _ => ?_
      rw [wlp_bind, wlp_modify]
      unfold publish
      rw [wlp_modify]
      exact ⟨s₃.log, rfl⟩
    refine (h1.and h2).mono ?_
    rintro _ s₁ ⟨g, pre, hpre⟩
    refine ⟨g, ?_⟩
    obtain ⟨evs, l, t⟩ := g.log
    rw [hlog, List.nil_append] at l
    refine ⟨pre, by rw [hlog, List.nil_append]; exact hpre, ?_⟩
    rw [← l, hpre, List.map_append] at t
    have := List.append_inj_left' (t₁ := List.map Event.tag [⟨"algorithm", "init", s₁.snapshot⟩])
      (s₂ := [("population_evaluator", "before_operator"), ("population_evaluator", "after_operator")])
      (t₂ := [("algorithm", "init")]) t rfl
    exact this
  refine hinit.mono ?_
  rintro _ s₁ ⟨g, evs, hl, ht⟩
  rw [hlog, List.nil_append] at hl
  have hg1 : s₁.genNum = 0 := g.genNum.trans hg
  have hp0 : evs.filter Event.isPoint = [] := points_of_tags ht (by simp)
  have hpi : Event.isPoint (⟨"algorithm", "init", s₁.snapshot⟩ : Event G) = true := by
    simp [Event.isPoint, Event.tag]
  have hpa : ∀ sn : Snapshot G, Event.isPoint ⟨"algorithm", "after_generation", sn⟩ = true := by
    intro sn; simp [Event.isPoint, Event.tag]
  have hpf : ∀ sn : Snapshot G, Event.isPoint ⟨"algorithm", "evolution_finished", sn⟩ = false := by
    intro sn; simp [Event.isPoint, Event.tag]
  unfold afterInit
  rw [wlp_bind, wlp_bind, wlp_get, wlp_bind]
  refine (shouldTerminate_asked rfl (by rw [g.checkers]; exact hf)).mono ?_
  rintro v _ ⟨ks, rfl, hask, hfit⟩
  rw [g.checkers] at hask
  rw [wlp_ite]
  constructor
  · rintro rfl
    unfold publish
    rw [wlp_bind, wlp_modify, wlp_modify, wlp_bind, wlp_modify, wlp_modify]
    refine ⟨[s₁.snapshot], true, by simp, by simp, by simp, .stop hg1 hask, ?_, ?_, hg1, by simp, rfl, rfl⟩
    · show List.map Event.tag ((s₁.log ++ [_]) ++ [_]) = _
      rw [hl]
      simp only [List.map_append, ht]
      rfl
    · show List.map _ (List.filter _ ((s₁.log ++ [_]) ++ [_])) = _
      rw [hl]
      simp only [List.filter_append, hp0, List.filter_cons, hpi, hpa, hpf, if_true, Bool.false_eq_true, if_false]
      rfl
  · intro hv
    simp only [Bool.not_eq_true] at hv
    subst hv
    refine (mainLoop_course c c.maxGen 1 { s₁ with checkers := ks } hfit).mono ?_
    rintro _ s₂ ⟨snaps, stop, hr⟩
    unfold publish
    rw [wlp_bind, wlp_modify, wlp_modify]
    obtain ⟨ev2, hl2, ht2, hp2⟩ := hr.log
    have hnot : ¬ (stop = true ∧ (s₁.snapshot :: snaps).length = 1) := by
      rintro ⟨h1, h2⟩
      exact hr.ne h1 (by simpa using h2)
    refine ⟨s₁.snapshot :: snaps, stop, by simp, by simpa using hr.le, fun h => by simp [hr.full h],
      .next hg1 hask hr.asked, ?_, ?_, ?_, ?_, rfl, ?_⟩
    · rw [if_neg hnot]
      show List.map Event.tag (s₂.log ++ [_]) = _
      rw [hl2]
      show List.map Event.tag ((s₁.log ++ _) ++ [_]) = _
      rw [hl]
      simp only [List.map_append, ht, ht2]
      simp [initTags, Event.tag]
    · rw [if_neg hnot]
      show List.map _ (List.filter _ (s₂.log ++ [_])) = _
      rw [hl2]
      show List.map _ (List.filter _ ((s₁.log ++ _) ++ [_])) = _
      rw [hl]
      simp only [List.filter_append, hp0, List.filter_cons, hpi, hpf, if_true, Bool.false_eq_true, if_false,
        List.map_append, hp2]
      simp
    · show s₂.genNum = _
      rw [hr.genNum]
      by_cases hs : snaps = []
      · simp [hs, hg1]
      · simp only [hs, if_false, List.length_cons]; omega
    · show s₂.finalGen = _
      rw [hr.finalGen]
      cases stop with
      | false => simpa using g.finalGen
      | true => simp only [if_true, List.length_cons]; congr 1; omega
    · exact hr.last

/-! ## C37: `final_generation_` -/

/-- The claim of C37: after `evolve`, `final_generation_` is the number of the last generation. -/
def C37_statement : Prop :=
  ∀ (c : Cfg Nat Unit) (s s' : Run Nat Unit), s.log = [] → s.genNum = 0 → c.Fits s.checkers →
    evolve c s = (.ok (), s') → s'.finalGen = some s'.genNum

/-- C37 holds for runs that were stopped by a checker: `final_generation_` is the number of the last
generation executed (one `breeder` round per generation), and it is the generation in which the checkers
said so. -/
theorem C37_stopped_partial (hlog : s.log = []) (hg : s.genNum = 0) (hf : c.Fits s.checkers)
    (h : evolve c s = (.ok (), s')) :
    ∃ snaps stop, Course c s s' snaps stop ∧
      (stop = true → s'.finalGen = some s'.genNum ∧
        s'.genNum = (s'.log.map Event.tag).count ("breeder", "after_operator")) := by
  obtain ⟨snaps, stop, hc⟩ := C36_course hlog hg hf h
  refine ⟨snaps, stop, hc, ?_⟩
  rintro rfl
  refine ⟨by rw [hc.finalGen, hc.genNum]; rfl, ?_⟩
  rw [hc.genNum, hc.tags]
  generalize snaps.length - 1 = n
  have h1 : ((List.replicate n genTags).flatten).count ("breeder", "after_operator") = n := by
    induction n with
    | zero => rfl
    | succ n ih =>
      rw [List.replicate_succ, List.flatten_cons, List.count_append, ih]
      have : genTags.count ("breeder", "after_operator") = 1 := by decide
      omega
  have h2 : initTags.count ("breeder", "after_operator") = 0 := by decide
  rw [List.count_append, List.count_append, List.count_append, h1, h2]
  split <;> simp

/-- What happens otherwise: `final_generation_` keeps its value, which is `None` in a new algorithm. -/
theorem C37_exhausted_partial (hlog : s.log = []) (hg : s.genNum = 0) (hf : c.Fits s.checkers)
    (h : evolve c s = (.ok (), s')) :
    ∃ snaps stop, Course c s s' snaps stop ∧
      (stop = false → s'.finalGen = s.finalGen ∧ s'.genNum = c.maxGen) := by
  obtain ⟨snaps, stop, hc⟩ := C36_course hlog hg hf h
  refine ⟨snaps, stop, hc, ?_⟩
  rintro rfl
  refine ⟨by rw [hc.finalGen]; rfl, ?_⟩
  rw [hc.genNum, hc.full rfl]; rfl

/-! ## C40: lists of checkers -/

theorem consultations_feeds {ts : List (Checker G κ)} (hck : c.checker = .many ts) {gen : Nat}
    {snaps : List (Snapshot G)} {ks ks' : List κ} {stop : Bool} (hl : ks.length = ts.length)
    (h : Consultations c gen snaps ks stop ks') :
    ∃ ans : List (List Bool), ans.length = ts.length ∧
      (∀ (i : Nat) (t : Checker G κ) (k : κ), ts[i]? = some t → ks[i]? = some k → ∃ bs k',
        ans[i]? = some bs ∧ ks'[i]? = some k' ∧ Feeds t snaps k bs k') ∧
      (∀ bs ∈ ans, ∀ j, bs[j]? = some true → stop = true ∧ j + 1 = snaps.length) ∧
      (stop = true → ∃ bs ∈ ans, bs[snaps.length - 1]? = some true) := by
  induction h with
  | done =>
    refine ⟨ts.map fun _ => [], by simp, fun i t k hi hk => ⟨[], k, by rw [List.getElem?_map, hi]; rfl, hk, .nil⟩, ?_, by simp⟩
    intro bs hb j hj
    obtain ⟨_, _, rfl⟩ := List.mem_map.1 hb
    simp at hj
  | @stop gen e ks ks' hg ha =>
    unfold Asked at ha
    rw [hck] at ha
    obtain ⟨h1, bs, h2, h3, h4⟩ := ha
    refine ⟨bs.map fun b => [b], by simp [h2], fun i t k hi hk => ?_, ?_, fun _ => ?_⟩
    · obtain ⟨b, k', hb, hk', ht⟩ := h3 i t k hi hk
      exact ⟨[b], k', by simp [hb], hk', .cons ht .nil⟩
    · intro l hl j hj
      obtain ⟨b, hb, rfl⟩ := List.mem_map.1 hl
      rw [List.getElem?_singleton] at hj
      split at hj
      · exact ⟨rfl, by simp; omega⟩
      · simp at hj
    · exact ⟨[true], List.mem_map_of_mem (h4.1 rfl), rfl⟩
  | @next gen e es ks ks' ks'' b hg ha _ ih =>
    unfold Asked at ha
    rw [hck] at ha
    obtain ⟨h1, bs, h2, h3, h4⟩ := ha
    have hno : true ∉ bs := fun h => by simpa using h4.2 h
    obtain ⟨ans, g1, g2, g3, g4⟩ := ih (h1.trans hl)
    have hlen : ∀ (i : Nat) (t : Checker G κ) (k : κ), ts[i]? = some t → ks[i]? = some k →
        ∃ b l k'', bs[i]? = some b ∧ ans[i]? = some l ∧ ks''[i]? = some k'' ∧ Feeds t (e :: es) k (b :: l) k'' := by
      intro i t k hi hk
      obtain ⟨b, k', hb, hk', ht⟩ := h3 i t k hi hk
      obtain ⟨l, k'', hl, hk'', hf⟩ := g2 i t k' hi hk'
      exact ⟨b, l, k'', hb, hl, hk'', .cons ht hf⟩
    refine ⟨List.zipWith List.cons bs ans, by simp [h2, g1], fun i t k hi hk => ?_, ?_, ?_⟩
    · obtain ⟨b, l, k'', hb, hl, hk'', hf⟩ := hlen i t k hi hk
      exact ⟨b :: l, k'', by simp [List.getElem?_zipWith, hb, hl], hk'', hf⟩
    · intro l hl j hj
      obtain ⟨i, hi⟩ := List.getElem?_of_mem hl
      rw [List.getElem?_zipWith] at hi
      cases hb : bs[i]? with
      | none => simp [hb] at hi
      | some b₀ =>
        cases ha' : ans[i]? with
        | none => simp [hb, ha'] at hi
        | some l₀ =>
          simp only [hb, ha', Option.some.injEq] at hi
          subst hi
          cases j with
          | zero =>
            simp only [List.getElem?_cons_zero, Option.some.injEq] at hj
            subst hj
            exact absurd (List.mem_of_getElem? hb) hno
          | succ j =>
            obtain ⟨q1, q2⟩ := g3 l₀ (List.mem_of_getElem? ha') j (by simpa using hj)
            exact ⟨q1, by simp [q2]⟩
    · intro hb
      obtain ⟨l, hl, hj⟩ := g4 hb
      obtain ⟨i, hi⟩ := List.getElem?_of_mem hl
      have hib : i < bs.length := by
        have := (List.getElem?_eq_some_iff.1 hi).1
        omega
      refine ⟨bs[i] :: l, ?_, ?_⟩
      · refine List.mem_of_getElem? (i := i) ?_
        rw [List.getElem?_zipWith, List.getElem?_eq_getElem hib, hi]
      · cases es with
        | nil =>
          simp only [List.length_nil] at hj
          obtain ⟨q1, q2⟩ := g3 l hl 0 hj
          simp at q2
        | cons e' es' => simpa using hj

/-- C40: with a list of checkers, every checker is asked after the initialisation and after every
generation, with what can be seen there, keeping its own state; the run goes on as long as all of them
say no, and stops in the generation in which at least one of them says yes. -/
theorem C40_all_consulted {ts : List (Checker G κ)} (hck : c.checker = .many ts) (hlog : s.log = [])
    (hg : s.genNum = 0) (hf : s.checkers.length = ts.length) (h : evolve c s = (.ok (), s')) :
    ∃ snaps stop, Course c s s' snaps stop ∧ ∃ ans : List (List Bool), ans.length = ts.length ∧
      (∀ (i : Nat) (t : Checker G κ) (k : κ), ts[i]? = some t → s.checkers[i]? = some k → ∃ bs k',
        ans[i]? = some bs ∧ s'.checkers[i]? = some k' ∧ Feeds t snaps k bs k') ∧
      (∀ bs ∈ ans, ∀ j, bs[j]? = some true → stop = true ∧ j + 1 = snaps.length) ∧
      (stop = true → ∃ bs ∈ ans, bs[snaps.length - 1]? = some true) := by
  obtain ⟨snaps, stop, hc⟩ := C36_course (c := c) hlog hg (by unfold Cfg.Fits; rw [hck]; exact hf) h
  exact ⟨snaps, stop, hc, consultations_feeds hck hf hc.asked⟩

/-- With a single checker: it is asked after the initialisation and after every generation, and the run
stops in the first generation in which it says yes. -/
theorem C36_one_checker {t : Checker G κ} {k : κ} (hck : c.checker = .one t) (hlog : s.log = [])
    (hg : s.genNum = 0) (hf : s.checkers = [k]) (h : evolve c s = (.ok (), s')) :
    ∃ snaps stop, Course c s s' snaps stop ∧ ∃ answers k', s'.checkers = [k'] ∧ Feeds t snaps k answers k' ∧
      (∀ j, answers[j]? = some true → stop = true ∧ j + 1 = snaps.length) ∧
      (stop = true → answers[snaps.length - 1]? = some true) := by
  obtain ⟨snaps, stop, hc⟩ := C36_course (c := c) hlog hg (by unfold Cfg.Fits; rw [hck, hf]; rfl) h
  refine ⟨snaps, stop, hc, ?_⟩
  have key : ∀ {gen : Nat} {snaps : List (Snapshot G)} {ks ks' : List κ} {stop : Bool},
      Consultations c gen snaps ks stop ks' → ∀ k, ks = [k] → ∃ answers k', ks' = [k'] ∧ Feeds t snaps k answers k' ∧
      (∀ j, answers[j]? = some true → stop = true ∧ j + 1 = snaps.length) ∧
      (stop = true → answers[snaps.length - 1]? = some true) := by
    intro gen snaps ks ks' stop hcon
    induction hcon with
    | done => rintro k rfl; exact ⟨[], k, rfl, .nil, by simp, by simp⟩
    | stop _ ha =>
      rintro k rfl
      unfold Asked at ha
      rw [hck] at ha
      obtain ⟨k₀, k', h1, rfl, h3⟩ := ha
      simp only [List.cons.injEq, and_true] at h1
      subst h1
      refine ⟨[true], k', rfl, .cons h3 .nil, fun j hj => ?_, by simp⟩
      rw [List.getElem?_singleton] at hj
      split at hj
      · exact ⟨rfl, by simp; omega⟩
      · simp at hj
    | @next _ e es _ _ _ b _ ha _ ih =>
      rintro k rfl
      unfold Asked at ha
      rw [hck] at ha
      obtain ⟨k₀, k', h1, rfl, h3⟩ := ha
      simp only [List.cons.injEq, and_true] at h1
      subst h1
      obtain ⟨answers, k'', g1, g2, g3, g4⟩ := ih k' rfl
      refine ⟨false :: answers, k'', g1, .cons h3 g2, ?_, ?_⟩
      · rintro (_ | j) hj
        · simp at hj
        · obtain ⟨q1, q2⟩ := g3 j (by simpa using hj)
          exact ⟨q1, by simp [q2]⟩
      · intro hb
        have := g4 hb
        cases es with
        | nil =>
          obtain ⟨-, q2⟩ := g3 0 (by simpa using this)
          simp at q2
        | cons e' es' => simpa using this
  exact key hc.asked k hf

/-! ## Instances -/

theorem ran {σ α : Type} {m : PyM σ α} {s : σ} {a : α} (h : (m s).1 = .ok a) : m s = (.ok a, (m s).2) :=
  Prod.ext h rfl

/-- Three individuals with random genomes, one elite, tournament selection, incrementing operator; fitness
is the genome. -/
def exSubCfg : SubCfg Nat :=
  { exSub with creators := [createIndividuals 0 (fun t => (.ok (t 0 % 7), fun n => t (n + 1)))
    (fun h => ⟨.none, false, h, false, true, none⟩) true] }

/-- Two generations; a list of two checkers that count how often they were asked; the first says yes when
asked for the third time. -/
def exCfg : Cfg Nat Nat where
  size := fun _ => 1
  subs := [exSubCfg]
  stream := fun seed n => seed + n
  maxGen := 5
  checker := .many [fun k _ _ _ _ => (.ok (k = 2), k + 1), fun k _ _ _ _ => (.ok false, k + 1)]
  sched := fun _ n => List.range n
  submit := false

def exRun : Run Nat Nat := ⟨⟨[], 1, fun n => n⟩, [none], none, none, none, 0, 42, 42, none, [0, 0], false, []⟩

theorem exCfg_ordinary : exCfg.Ordinary exSubCfg ⟨true, none⟩ where
  subs := rfl
  dir := rfl
  creators := by
    intro create h
    simp only [exSubCfg, List.mem_singleton] at h
    subst h
    exact createIndividuals_good _ _ _ _ ⟨rfl, rfl⟩
  sels := ⟨_, _, rfl, tournament_good _ _, tournament_fills _ _⟩
  ops := by
    intro o ho
    simp only [exSubCfg, exSub, List.mem_singleton] at ho
    subst ho
    exact Op.inPlace_good _ _ _ _
  sched := fun _ _ => List.Perm.refl _
  map := rfl

/-- The run returns, after two generations. -/
theorem exRun_ends : (evolve exCfg exRun).1 = .ok () ∧ (evolve exCfg exRun).2.genNum = 2 ∧
    (evolve exCfg exRun).2.finalGen = some 2 ∧ (evolve exCfg exRun).2.checkers = [3, 3] ∧
    (evolve exCfg exRun).2.log.length = 14 := by decide +kernel

example := C35_end exCfg_ordinary (.inl rfl) (s := exRun) rfl (s' := (evolve exCfg exRun).2)
  (ran exRun_ends.1)

example := C37_stopped_partial (c := exCfg) (s := exRun) rfl rfl rfl (ran exRun_ends.1)

example := C40_all_consulted (c := exCfg) (s := exRun) rfl rfl rfl rfl (ran exRun_ends.1)

/-- C37 is false: without a checker, `final_generation_` is still `None` at the end. -/
theorem C37_refuted : ¬ C37_statement := by
  intro h
  have := h { size := fun _ => 1, subs := [exSubCfg], stream := fun seed n => seed + n, maxGen := 2,
              checker := .none, sched := fun _ n => List.range n, submit := false }
    ⟨⟨[], 1, fun n => n⟩, [none], none, none, none, 0, 42, 42, none, [], false, []⟩ _ rfl rfl trivial
    (ran (by decide +kernel))
  revert this
  decide +kernel

end Verif.Evo
