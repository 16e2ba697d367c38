import Verif.Model.NSGA2Evolution
import Verif.Props.MooTotal

/-! # C126 — the course of a multi-objective run -/

namespace Verif.Moo
open PyM
variable {G : Type} {c : MCfg G} {s s' t : MRun G}

/-- Who published the event, and its name. -/
def MEvent.tag (e : MEvent) : String × String := (e.publisher, e.name)

/-- The event the algorithm publishes in this state. -/
def MRun.told (s : MRun G) (name : String) : MEvent :=
  ⟨"algorithm", name, s.w.fits, s.inds.getD [], s.bestOfRun, s.bestOfGen, s.genNum⟩

/-- The events of the initialisation. -/
def minitTags : List (String × String) :=
  [("population_evaluator", "before_operator"), ("population_evaluator", "after_operator"), ("algorithm", "init")]

/-- The events of a generation. -/
def mgenTags : List (String × String) :=
  [("breeder", "before_operator"), ("breeder", "after_operator"), ("population_evaluator", "before_operator"),
    ("population_evaluator", "after_operator"), ("algorithm", "after_generation")]

/-- The checker is asked what `e` shows, with the number of the generation. -/
def MCfg.asked (c : MCfg G) (e : MEvent) : Except Err Bool := c.checker e.fits e.inds e.bestOfRun e.genNum

/-- The course of a run: `evs` are the events at which the checker was asked, `stop` its last answer. -/
structure MCourse (c : MCfg G) (s s' : MRun G) (evs : List MEvent) (stop : Bool) : Prop where
  /-- The numbers of the generations: 0 for the initialisation, then 1, 2, ... -/
  numbers : evs.map (·.genNum) = List.range evs.length
  tags : s'.log.map MEvent.tag = minitTags ++ (List.replicate (evs.length - 1) mgenTags).flatten ++
    (if stop = true ∧ evs.length = 1 then [("algorithm", "after_generation")] else []) ++ [("algorithm", "evolution_finished")]
  /-- The events at which the checker was asked are the ones of the algorithm. -/
  shown : s'.log.filter (fun e => e.tag = ("algorithm", "init") ∨ e.tag = ("algorithm", "after_generation")) =
    evs ++ (if stop = true ∧ evs.length = 1 then evs.map fun e => { e with name := "after_generation" } else [])
  notYet : ∀ i e, evs[i]? = some e → i + 1 < evs.length → c.asked e = .ok false
  last : ∀ e, evs.getLast? = some e → c.asked e = .ok stop
  atMost : evs.length ≤ c.maxGen + 1
  full : stop = false → evs.length = c.maxGen + 1
  genNum : s'.genNum + 1 = evs.length
  finalGen : s'.finalGen = if stop then some (evs.length - 1) else s.finalGen

/-! ## Steps -/

/-- `s'` is reached from `s` by publishing events with these tags, none of which the checker is asked about. -/
structure MGoes (tags : List (String × String)) (s s' : MRun G) : Prop where
  log : ∃ evs, s'.log = s.log ++ evs ∧ evs.map MEvent.tag = tags
  genNum : s'.genNum = s.genNum
  finalGen : s'.finalGen = s.finalGen

theorem MGoes.refl (s : MRun G) : MGoes [] s s := ⟨⟨[], by simp, rfl⟩, rfl, rfl⟩

theorem MGoes.trans {a b : List (String × String)} (h : MGoes a s s') (h' : MGoes b s' t) : MGoes (a ++ b) s t := by
  obtain ⟨⟨e1, h1, h2⟩, h3, h4⟩ := h
  obtain ⟨⟨e2, k1, k2⟩, k3, k4⟩ := h'
  exact ⟨⟨e1 ++ e2, by rw [k1, h1, List.append_assoc], by rw [List.map_append, h2, k2]⟩, k3.trans h3, k4.trans h4⟩

theorem mgoes_bind {α β : Type} {m : MRM G α} {f : α → MRM G β} {a b : List (String × String)}
    (hm : ∀ s, wlp m (fun _ s' => MGoes a s s') s) (hf : ∀ x s, wlp (f x) (fun _ s' => MGoes b s s') s) (s : MRun G) :
    wlp (m >>= f) (fun _ s' => MGoes (a ++ b) s s') s := by
  rw [wlp_bind]
  exact (hm s).mono fun x s1 h1 => (hf x s1).mono fun _ s2 h2 => h1.trans h2

theorem mgoes_world {α : Type} (m : MM G α) (s : MRun G) : wlp (mworld m) (fun _ s' => MGoes [] s s') s := by
  intro a s' h
  unfold mworld PyM.zoom at h
  have : s' = { s with w := (m s.w).2 } := (congrArg Prod.snd h).symm
  subst this
  exact ⟨⟨[], by simp, rfl⟩, rfl, rfl⟩

theorem mgoes_publish (p n : String) (s : MRun G) : wlp (mpublish p n) (fun _ s' => MGoes [(p, n)] s s') s := by
  unfold mpublish
  exact wlp_modify.2 ⟨⟨[_], rfl, rfl⟩, rfl, rfl⟩

theorem mgoes_act {α : Type} {p : String} {m : MRM G α} (hm : ∀ s, wlp m (fun _ s' => MGoes [] s s') s) (s : MRun G) :
    wlp (mact p m) (fun _ s' => MGoes [(p, "before_operator"), (p, "after_operator")] s s') s :=
  mgoes_bind (mgoes_publish _ _) (fun _ => mgoes_bind hm fun _ => mgoes_bind (b := []) (mgoes_publish _ _) fun _ s => wlp_pure.2 (.refl s)) s

theorem mgoes_individuals (s : MRun G) : wlp (individuals : MRM G (List Nat)) (fun _ s' => s' = s) s := by
  unfold individuals
  rw [wlp_bind, wlp_get]
  cases s.inds with
  | none => exact wlp_raise.2 trivial
  | some is => exact wlp_pure.2 rfl

theorem mgoes_with {β : Type} {f : List Nat → MRM G β} {b : List (String × String)} (hf : ∀ x s, wlp (f x) (fun _ s' => MGoes b s s') s) (s : MRun G) :
    wlp (individuals >>= f) (fun _ s' => MGoes b s s') s := by
  rw [wlp_bind]
  refine (mgoes_individuals s).mono ?_
  rintro x _ rfl
  exact hf x _

theorem mgoes_evaluate (s : MRun G) : wlp (mevaluate c)
    (fun _ s' => MGoes [("population_evaluator", "before_operator"), ("population_evaluator", "after_operator")] s s') s := by
  refine mgoes_act (fun s => mgoes_with (fun is s => ?_) s) s
  rw [wlp_bind, wlp_get]
  exact mgoes_world _ s

theorem mgoes_put (is : List Nat) (s : MRun G) :
    wlp (modify fun s : MRun G => { s with inds := some is }) (fun _ s' => MGoes [] s s') s :=
  wlp_modify.2 ⟨⟨[], by simp, rfl⟩, rfl, rfl⟩

theorem mgoes_fronts (s : MRun G) : wlp mfronts (fun _ s' => MGoes [] s s') s := by
  refine mgoes_with (fun is s => ?_) s
  rw [wlp_modify]
  exact ⟨⟨[], by simp, rfl⟩, rfl, rfl⟩

theorem mgoes_breed (s : MRun G) : wlp (mbreed c) (fun _ s' => MGoes [("breeder", "before_operator"), ("breeder", "after_operator")] s s') s := by
  refine mgoes_act (fun s => mgoes_with (fun is s => ?_) s) s
  exact mgoes_bind (a := []) (b := []) (mgoes_world _) mgoes_put s

theorem mgoes_sort (s : MRun G) : wlp (msort c) (fun _ s' => MGoes [] s s') s := by
  refine mgoes_with (fun is s => ?_) s
  rw [wlp_bind, wlp_get]
  exact mgoes_bind (a := []) (b := []) (mgoes_world _) mgoes_put s

theorem mgoes_generation (s : MRun G) : wlp (mgeneration c) (fun _ s' => MGoes [("breeder", "before_operator"), ("breeder", "after_operator"),
    ("population_evaluator", "before_operator"), ("population_evaluator", "after_operator")] s s') s :=
  mgoes_bind mgoes_breed (fun _ => mgoes_bind mgoes_evaluate fun _ => mgoes_bind (a := []) (b := []) mgoes_sort fun _ => mgoes_fronts) s

theorem mstop_wlp (gen : Nat) (s : MRun G) :
    wlp (mstop c gen) (fun stop s' => s' = s ∧ c.checker s.w.fits (s.inds.getD []) s.bestOfRun gen = .ok stop) s := by
  unfold mstop
  rw [wlp_bind, wlp_get]
  cases h : c.checker s.w.fits (s.inds.getD []) s.bestOfRun gen with
  | error e => exact wlp_raise.2 trivial
  | ok b => exact wlp_pure.2 ⟨rfl, rfl⟩

/-- One of the events at which the checker is asked. -/
def checkpoint (e : MEvent) : Bool := decide (e.tag = ("algorithm", "init") ∨ e.tag = ("algorithm", "after_generation"))

theorem MGoes.filter {tags : List (String × String)} (h : MGoes tags s s')
    (ht : ∀ x ∈ tags, ¬ (x = ("algorithm", "init") ∨ x = ("algorithm", "after_generation"))) :
    s'.log.filter checkpoint = s.log.filter checkpoint := by
  obtain ⟨⟨evs, h1, h2⟩, -, -⟩ := h
  rw [h1, List.filter_append]
  have : evs.filter checkpoint = [] := by
    rw [List.filter_eq_nil_iff]
    intro e he
    unfold checkpoint
    rw [decide_eq_true_eq]
    exact ht _ (h2 ▸ List.mem_map_of_mem he)
  rw [this, List.append_nil]

/-! ## The loop -/

/-- The course of the main loop, the next generation being `gen` and `n` generations being left. -/
structure MLoops (c : MCfg G) (n gen : Nat) (s s' : MRun G) (evs : List MEvent) (stop : Bool) : Prop where
  numbers : evs.map (·.genNum) = List.range' gen evs.length
  tags : s'.log.map MEvent.tag = s.log.map MEvent.tag ++ (List.replicate evs.length mgenTags).flatten
  shown : s'.log.filter checkpoint = s.log.filter checkpoint ++ evs
  notYet : ∀ i e, evs[i]? = some e → i + 1 < evs.length → c.asked e = .ok false
  last : ∀ e, evs.getLast? = some e → c.asked e = .ok stop
  some : stop = true → evs ≠ []
  atMost : evs.length ≤ n
  full : stop = false → evs.length = n
  genNum : s'.genNum + 1 = if evs = [] then s.genNum + 1 else gen + evs.length
  finalGen : s'.finalGen = if stop then Option.some (gen + evs.length - 1) else s.finalGen

theorem mloop_course (n gen : Nat) (s : MRun G) : wlp (mloop c n gen) (fun _ s' => ∃ evs stop, MLoops c n gen s s' evs stop) s := by
  induction n generalizing gen s with
  | zero =>
    exact wlp_pure.2 ⟨[], false, rfl, by simp, by simp, by simp, by simp, by simp, by simp, by simp, by simp, by simp⟩
  | succ n ih =>
    unfold mloop
    rw [wlp_bind, wlp_modify, wlp_bind]
    refine (mgoes_individuals _).mono ?_
    rintro _ _ rfl
    rw [wlp_bind, wlp_get, wlp_bind]
    unfold msetSeed
    rw [wlp_modify, wlp_bind, wlp_modify, wlp_bind]
    refine (mgoes_generation _).mono fun _ s1 h1 => ?_
    rw [wlp_bind]
    refine (mstop_wlp gen s1).mono ?_
    rintro stop s1 ⟨rfl, hs⟩
    have hf := h1.filter (by decide)
    obtain ⟨⟨evs, hl, ht⟩, hg, hfg⟩ := h1
    dsimp only at hl hg hfg hf
    have hask : c.asked (s1.told "after_generation") = .ok stop := by
      show c.checker s1.w.fits (s1.inds.getD []) s1.bestOfRun s1.genNum = _
      rw [hg]
      exact hs
    rw [wlp_ite]
    refine ⟨fun h => ?_, fun h => ?_⟩
    · subst h
      rw [wlp_bind, wlp_modify]
      unfold mpublish
      rw [wlp_modify]
      refine ⟨[s1.told "after_generation"], true, ?_, ?_, ?_, ?_, ?_, by simp, by simp, by simp, ?_, ?_⟩
      · simp [MRun.told, hg]
      · dsimp only
        rw [List.map_append, hl, List.map_append, ht]
        simp [mgenTags, MEvent.tag]
      · dsimp only
        rw [List.filter_append, hf]
        congr 1
      · intro i e _ hi; simp at hi
      · intro e he; simp at he; rw [← he]; exact hask
      · simp [hg]
      · simp
    · have hstop : stop = false := by cases stop <;> simp_all
      subst hstop
      rw [wlp_bind]
      unfold mpublish
      rw [wlp_modify]
      refine (ih (gen + 1) _).mono ?_
      rintro _ s2 ⟨es, stop, hx⟩
      refine ⟨s1.told "after_generation" :: es, stop, ?_, ?_, ?_, ?_, ?_, by simp, ?_, ?_, ?_, ?_⟩
      · rw [List.map_cons, hx.numbers, List.length_cons, List.range'_succ]
        simp [MRun.told, hg]
      · rw [hx.tags]
        dsimp only
        rw [List.map_append, hl, List.map_append, ht]
        simp [mgenTags, MEvent.tag, List.replicate_succ]
      · rw [hx.shown]
        dsimp only
        rw [List.filter_append, hf, List.append_assoc]
        congr 1
      · intro i e hi hlt
        cases i with
        | zero => simp at hi; rw [← hi]; exact hask
        | succ i => exact hx.notYet i e (by simpa using hi) (by simpa using hlt)
      · intro e he
        cases hes : es with
        | nil =>
          subst hes
          simp at he
          have : stop = false := by
            cases stop with
            | false => rfl
            | true => exact absurd rfl (hx.some rfl)
          rw [← he, this]
          exact hask
        | cons a as =>
          subst hes
          rw [List.getLast?_cons_cons] at he
          exact hx.last e he
      · have := hx.atMost
        simp only [List.length_cons]; omega
      · intro h
        have := hx.full h
        simp only [List.length_cons]; omega
      · rw [hx.genNum]
        dsimp only
        simp only [List.length_cons, reduceCtorEq, if_false]
        split
        · rename_i he; subst he; simp [hg]
        · omega
      · rw [hx.finalGen]
        dsimp only
        rw [hfg]
        simp only [List.length_cons]
        split
        · congr 1; omega
        · rfl

/-! ## The run -/

theorem minit_course (s : MRun G) : wlp (minit c) (fun _ s' => ∃ evs, s'.log = s.log ++ evs ++ [s'.told "init"] ∧
    evs.map MEvent.tag = [("population_evaluator", "before_operator"), ("population_evaluator", "after_operator")] ∧
    s'.genNum = s.genNum ∧ s'.finalGen = s.finalGen) s := by
  unfold minit
  rw [wlp_bind, wlp_get, wlp_bind]
  unfold msetSeed
  rw [wlp_modify, wlp_bind]
  have hcr : ∀ s : MRun G, wlp (mcreate c) (fun _ s' => MGoes [] s s') s := by
    intro s
    unfold mcreate
    rw [wlp_bind, wlp_get]
    cases s.inds with
    | some is => exact wlp_pure.2 (.refl s)
    | none => exact mgoes_bind (a := []) (b := []) (mgoes_world _) mgoes_put s
  refine (hcr _).mono fun _ s1 h1 => ?_
  rw [wlp_bind]
  refine (mgoes_evaluate _).mono fun b s2 h2 => ?_
  rw [wlp_bind, wlp_modify]
  unfold mpublish
  rw [wlp_modify]
  obtain ⟨⟨evs, hl, ht⟩, hg, hf⟩ := h1.trans h2
  dsimp only at hl hg hf
  exact ⟨evs, by dsimp only; rw [hl]; rfl, ht, hg, hf⟩

/-- **C126.** Every run of NSGA-II that returns has such a course. -/
theorem C126_course (hlog : s.log = []) (hg : s.genNum = 0) (h : mevolve c s = (.ok (), s')) : ∃ evs stop, MCourse c s s' evs stop := by
  revert s'
  suffices hw : wlp (mevolve c) (fun _ s' => ∃ evs stop, MCourse c s s' evs stop) s from fun {s'} h => hw _ s' h
  unfold mevolve
  rw [wlp_bind]
  refine (minit_course s).mono ?_
  rintro _ s1 ⟨pre, hl, ht, hgn, hfg⟩
  rw [hlog, List.nil_append] at hl
  rw [hg] at hgn
  have hpre : s1.log.filter checkpoint = [s1.told "init"] := by
    rw [hl, List.filter_append]
    have : pre.filter checkpoint = [] := by
      rw [List.filter_eq_nil_iff]
      intro e he
      unfold checkpoint
      rw [decide_eq_true_eq]
      have : e.tag ∈ pre.map MEvent.tag := List.mem_map_of_mem he
      rw [ht] at this
      revert this
      generalize e.tag = x
      intro hx
      simp only [List.mem_cons, List.not_mem_nil, or_false] at hx
      rcases hx with rfl | rfl <;> decide
    rw [this]
    rfl
  have htag : s1.log.map MEvent.tag = minitTags := by
    rw [hl, List.map_append, ht]; rfl
  have hfin : ∀ (s2 : MRun G), wlp (mpublish "algorithm" "evolution_finished" >>= fun _ => mfinish)
      (fun _ s' => s' = { s2 with log := s2.log ++ [s2.told "evolution_finished"] }) s2 := by
    intro s2
    rw [wlp_bind]
    unfold mpublish
    rw [wlp_modify]
    show wlp mfinish _ { s2 with log := s2.log ++ [s2.told "evolution_finished"] }
    generalize { s2 with log := s2.log ++ [s2.told "evolution_finished"] } = s3
    unfold mfinish
    rw [wlp_bind, wlp_get]
    cases s3.bestOfRun with
    | none => exact wlp_raise.2 trivial
    | some r =>
      dsimp only
      cases (s3.w.fits r).pure with
      | error e => exact wlp_raise.2 trivial
      | ok v => exact wlp_pure.2 rfl
  have hck : ∀ (s2 : MRun G) l, (l ++ [s2.told "evolution_finished"]).filter checkpoint = l.filter checkpoint := by
    intro s2 l
    rw [List.filter_append]
    exact List.append_nil _
  rw [wlp_bind]
  unfold mafterInit
  rw [wlp_bind, wlp_get, wlp_bind]
  refine (mstop_wlp _ s1).mono ?_
  rintro stop s1 ⟨rfl, hs⟩
  have hask : c.asked (s1.told "init") = .ok stop := hs
  rw [wlp_ite]
  refine ⟨fun h => ?_, fun h => ?_⟩
  · subst h
    rw [wlp_bind, wlp_modify]
    unfold mpublish
    rw [wlp_modify]
    refine (hfin _).mono ?_
    rintro _ _ rfl
    refine ⟨[s1.told "init"], true, ?_, ?_, ?_, ?_, ?_, by simp, by simp, ?_, rfl⟩
    · simp [MRun.told, hgn]
    · dsimp only
      rw [List.map_append, List.map_append, htag]
      rfl
    · dsimp only
      show List.filter checkpoint _ = _
      rw [hck, List.filter_append, hpre]
      rfl
    · intro i e _ hi; simp at hi
    · intro e he; simp at he; rw [← he]; exact hask
    · simp [hgn]
  · have hstop : stop = false := by cases stop <;> simp_all
    subst hstop
    refine (mloop_course _ _ _).mono ?_
    rintro _ s2 ⟨es, stop, hx⟩
    refine (hfin _).mono ?_
    rintro _ _ rfl
    have hif : ¬ (stop = true ∧ (s1.told "init" :: es).length = 1) := by
      rintro ⟨rfl, h1⟩
      exact hx.some rfl (List.length_eq_zero_iff.1 (by simpa using h1))
    refine ⟨s1.told "init" :: es, stop, ?_, ?_, ?_, ?_, ?_, ?_, ?_, ?_, ?_⟩
    · rw [List.map_cons, hx.numbers, List.length_cons, List.range_succ_eq_map, List.range'_eq_map_range]
      simp only [MRun.told, hgn]
      congr 1
      exact List.map_congr_left fun x _ => Nat.add_comm _ _
    · rw [if_neg hif]
      dsimp only
      rw [List.map_append, hx.tags, htag]
      simp [MEvent.tag, MRun.told]
    · rw [if_neg hif]
      dsimp only
      show List.filter checkpoint _ = _
      rw [hck, hx.shown, hpre]
      simp
    · intro i e hi hlt
      cases i with
      | zero => simp at hi; rw [← hi]; exact hask
      | succ i => exact hx.notYet i e (by simpa using hi) (by simpa using hlt)
    · intro e he
      cases hes : es with
      | nil =>
        subst hes
        simp at he
        have : stop = false := by
          cases stop with
          | false => rfl
          | true => exact absurd rfl (hx.some rfl)
        rw [← he, this]
        exact hask
      | cons a as =>
        subst hes
        rw [List.getLast?_cons_cons] at he
        exact hx.last e he
    · have := hx.atMost
      simp only [List.length_cons]; omega
    · intro h
      have := hx.full h
      simp only [List.length_cons]; omega
    · show s2.genNum + 1 = _
      rw [hx.genNum]
      split
      · rename_i he; subst he; simp [hgn]
      · simp only [List.length_cons]; omega
    · show s2.finalGen = _
      rw [hx.finalGen, hfg]
      simp only [List.length_cons]
      split
      · congr 1; omega
      · rfl

/-- **C126, the number of generations.** A run that returns executes as many generations as the breeder was called,
at most `max_generation`; if the checker never says stop, exactly `max_generation`. -/
theorem C126_generations (hlog : s.log = []) (hg : s.genNum = 0) (h : mevolve c s = (.ok (), s')) :
    (s'.log.map MEvent.tag).count ("breeder", "after_operator") = s'.genNum ∧ s'.genNum ≤ c.maxGen ∧
      ((∀ e, c.asked e ≠ .ok true) → s'.genNum = c.maxGen ∧ s'.finalGen = s.finalGen) := by
  obtain ⟨evs, stop, hc⟩ := C126_course hlog hg h
  have hn := hc.genNum
  refine ⟨?_, ?_, fun hno => ?_⟩
  · rw [hc.tags, ← hn]
    have h1 : ∀ n, ((List.replicate n mgenTags).flatten).count ("breeder", "after_operator") = n := by
      intro n
      induction n with
      | zero => rfl
      | succ n ih =>
        rw [List.replicate_succ, List.flatten_cons, List.count_append, ih]
        have : mgenTags.count ("breeder", "after_operator") = 1 := by decide
        omega
    have h2 : minitTags.count ("breeder", "after_operator") = 0 := by decide
    rw [List.count_append, List.count_append, List.count_append, h1, h2]
    split <;> simp
  · have := hc.atMost
    omega
  · have hs : stop = false := by
      cases stop with
      | false => rfl
      | true =>
        cases hl : evs.getLast? with
        | none =>
          rw [List.getLast?_eq_none_iff] at hl
          subst hl
          simp at hn
        | some e => exact absurd (hc.last e hl) (hno e)
    subst hs
    have := hc.full rfl
    exact ⟨by omega, hc.finalGen⟩

/-- A run of two generations, stopped by nothing; and one that is stopped in the first. -/
example : ∃ s', mevolve exVector exVectorRun = (.ok (), s') ∧ s'.genNum = 2 ∧
    (s'.log.map MEvent.tag).count ("breeder", "after_operator") = 2 ∧ ∃ evs stop, MCourse exVector exVectorRun s' evs stop := by
  obtain ⟨s', h1, -⟩ := C82_vectors (s := exVectorRun) GA.exLib_proper exVector_assembled ⟨rfl, fun r hr => absurd hr (Nat.not_lt_zero r), rfl, rfl⟩
    (fun r hr => absurd hr (Nat.not_lt_zero r))
  obtain ⟨h2, -, h4⟩ := C126_generations rfl rfl h1
  have h5 := (h4 fun e => by show Except.ok false ≠ _; simp).1
  exact ⟨s', h1, h5, by rw [h2]; exact h5, C126_course rfl rfl h1⟩

/-- `exVector` with a checker that says stop in the generation `g`. -/
def exStopAt (g : Nat) : MCfg GA.Vec := { exVector with checker := fun _ _ _ gen => .ok (decide (gen = g)) }

theorem exStopAt_ends : (mevolve (exStopAt 1) exVectorRun).1 = .ok () ∧ (mevolve (exStopAt 1) exVectorRun).2.genNum = 1 ∧
    (mevolve (exStopAt 1) exVectorRun).2.finalGen = some 1 ∧ (mevolve (exStopAt 0) exVectorRun).1 = .ok () ∧
    (mevolve (exStopAt 0) exVectorRun).2.finalGen = some 0 := by decide +kernel

end Verif.Moo
