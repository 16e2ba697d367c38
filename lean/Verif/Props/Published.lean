import Verif.Model.Publisher
import Verif.Props.Run

/-! # C97: which events are published -/

namespace Verif.Evo
open PyM
variable {G κ α β : Type} {c : Cfg G κ} {s s' : Run G κ}

/-- The tags of the events seen so far. -/
def Run.tags (s : Run G κ) : List (String × String) := s.log.map Event.tag

/-- The computation publishes exactly `t` if it returns, and a part of `t` from the beginning if it raises. -/
def Emits (t : List (String × String)) (m : RM G κ α) : Prop :=
  ∀ s r s', m s = (r, s') → ∃ l, s'.tags = s.tags ++ l ∧ l <+: t ∧ ∀ a, r = .ok a → l = t

/-- The computation publishes nothing. -/
theorem Emits.silent {m : RM G κ α} (h : ∀ s, (m s).2.log = s.log) : Emits [] m := by
  intro s r s' e
  refine ⟨[], ?_, List.prefix_refl _, fun _ _ => rfl⟩
  have := h s
  rw [e] at this
  simp only [Run.tags, List.append_nil]
  rw [show s'.log = s.log from this]

theorem Emits.bind {t u : List (String × String)} {m : RM G κ α} {f : α → RM G κ β} (hm : Emits t m)
    (hf : ∀ a, Emits u (f a)) : Emits (t ++ u) (m >>= f) := by
  intro s r s' e
  rcases h1 : m s with ⟨_ | a, s₁⟩
  · have h2 : (m >>= f) s = (.error _, s₁) := bind_error.2 (.inl h1)
    rw [h2] at e
    simp only [Prod.mk.injEq] at e
    obtain ⟨rfl, rfl⟩ := e
    obtain ⟨l, h3, h4, -⟩ := hm _ _ _ h1
    exact ⟨l, h3, h4.trans (List.prefix_append _ _), fun _ h => by cases h⟩
  · have h2 : (m >>= f) s = f a s₁ := by simp only [Bind.bind, PyM.bind, h1]
    rw [h2] at e
    obtain ⟨l, h3, -, h5⟩ := hm _ _ _ h1
    obtain ⟨l', h6, h7, h8⟩ := hf a _ _ _ e
    obtain rfl := h5 a rfl
    refine ⟨l ++ l', by rw [h6, h3, List.append_assoc], (List.prefix_append_right_inj l).2 h7, fun b hb => ?_⟩
    rw [h8 b hb]

theorem Emits.get_bind {t : List (String × String)} {f : Run G κ → RM G κ β} (hf : ∀ a, Emits t (f a)) :
    Emits t (PyM.get >>= f) := by
  simpa using Emits.bind (t := []) (Emits.silent fun _ => rfl) hf

theorem emits_publish (p n : String) : Emits [(p, n)] (publish p n : RM G κ Unit) := by
  intro s r s' e
  simp only [publish, PyM.modify, Prod.mk.injEq] at e
  obtain ⟨rfl, rfl⟩ := e
  exact ⟨_, by simp [Run.tags, Event.tag], List.prefix_refl _, fun _ _ => rfl⟩

theorem emits_world (m : WM G α) : Emits [] (world m : RM G κ α) := Emits.silent fun _ => rfl

theorem emits_modify {f : Run G κ → Run G κ} (h : ∀ s, (f s).log = s.log) : Emits [] (PyM.modify f) :=
  Emits.silent h

theorem emits_raise (e : Err) : Emits [] (raise e : RM G κ α) := Emits.silent fun _ => rfl

theorem emits_pure (a : α) : Emits [] (pure a : RM G κ α) := Emits.silent fun _ => rfl

theorem emits_act {p : String} {m : RM G κ α} (h : Emits [] m) :
    Emits [(p, "before_operator"), (p, "after_operator")] (act p m) :=
  (emits_publish p "before_operator").bind fun _ => h.bind fun _ => (emits_publish p "after_operator").bind
    (u := []) fun _ => emits_pure _

theorem emits_forL {f : β → RM G κ Unit} (h : ∀ b, Emits [] (f b)) (l : List β) : Emits [] (forL f l) := by
  induction l with
  | nil => exact emits_pure _
  | cons b l ih => exact (h b).bind fun _ => ih

theorem emits_evaluate (c : Cfg G κ) : Emits [("population_evaluator", "before_operator"),
    ("population_evaluator", "after_operator")] (evaluatePopulation c) := by
  refine emits_act (Emits.get_bind fun s => ?_)
  split
  · split
    · exact emits_raise _
    · exact emits_world _
  · exact emits_raise _
  · exact emits_raise _

theorem emits_breed (c : Cfg G κ) : Emits [("breeder", "before_operator"), ("breeder", "after_operator")]
    (breed c) :=
  emits_act (Emits.get_bind fun _ => (emits_world _).bind (t := []) (u := []) fun _ => emits_modify fun _ => rfl)

theorem emits_initRun (c : Cfg G κ) : Emits initTags (initRun c) := by
  refine Emits.get_bind fun s => ?_
  refine Emits.bind (t := []) (u := initTags) (emits_modify fun _ => rfl) fun _ => ?_
  refine Emits.bind (t := []) (u := initTags) (Emits.get_bind fun _ => (emits_world _).bind (t := []) (u := [])
    fun _ => emits_modify fun _ => rfl) fun _ => ?_
  refine (emits_evaluate c).bind (u := [("algorithm", "init")]) fun b => ?_
  exact Emits.bind (t := []) (emits_modify fun _ => rfl) fun _ => emits_publish _ _

theorem emits_shouldTerminate (c : Cfg G κ) (gen : Nat) : Emits [] (shouldTerminate c gen) := by
  refine Emits.silent fun s => ?_
  unfold shouldTerminate
  split
  · rfl
  · split
    · split; rfl
    · rfl
  · split <;> rfl

theorem emits_updateGen (gen : Nat) : Emits [] (updateGen gen : RM G κ Unit) := by
  refine Emits.get_bind fun s => emits_forL (fun is => ?_) _
  cases is with
  | none => exact emits_raise _
  | some _ => exact emits_world _

theorem emits_generation (c : Cfg G κ) : Emits [("breeder", "before_operator"), ("breeder", "after_operator"),
    ("population_evaluator", "before_operator"), ("population_evaluator", "after_operator")]
    (generationIteration c) := by
  refine (emits_breed c).bind fun _ => ?_
  refine (emits_evaluate c).bind (u := []) fun b => ?_
  refine Emits.bind (t := []) (u := []) (emits_modify fun _ => rfl) fun _ => ?_
  refine Emits.bind (t := []) (u := []) ?_ fun _ => ?_
  · refine Emits.get_bind fun s => (emits_world _).bind (t := []) (u := []) fun bt => ?_
    split
    · exact emits_modify fun _ => rfl
    · exact emits_pure _
  · refine Emits.get_bind fun s => ?_
    split
    · exact (emits_world _).bind (t := []) (u := []) fun _ => emits_modify fun _ => rfl
    · exact emits_raise _

/-- The computation publishes one of the sequences in `T` if it returns, and the beginning of `t` if it
raises. -/
def EmitsOne (T : List (String × String) → Prop) (t : List (String × String)) (m : RM G κ α) : Prop :=
  ∀ s r s', m s = (r, s') → ∃ l, s'.tags = s.tags ++ l ∧ match r with
    | .ok _ => T l
    | .error _ => l <+: t

theorem Emits.one {t : List (String × String)} {m : RM G κ α} (h : Emits t m) : EmitsOne (· = t) t m := by
  intro s r s' e
  obtain ⟨l, h1, h2, h3⟩ := h s r s' e
  refine ⟨l, h1, ?_⟩
  cases r with
  | ok a => exact h3 a rfl
  | error _ => exact h2

theorem EmitsOne.mono {T T' : List (String × String) → Prop} {t t' : List (String × String)} {m : RM G κ α}
    (h : EmitsOne T t m) (hT : ∀ l, T l → T' l) (ht : t <+: t') : EmitsOne T' t' m := by
  intro s r s' e
  obtain ⟨l, h1, h2⟩ := h s r s' e
  refine ⟨l, h1, ?_⟩
  cases r with
  | ok _ => exact hT l h2
  | error _ => exact h2.trans ht

theorem Emits.bind_one {t u : List (String × String)} {T : List (String × String) → Prop} {m : RM G κ α}
    {f : α → RM G κ β} (hm : Emits t m) (hf : ∀ a, EmitsOne T u (f a)) :
    EmitsOne (fun l => ∃ l', l = t ++ l' ∧ T l') (t ++ u) (m >>= f) := by
  intro s r s' e
  rcases h1 : m s with ⟨_ | a, s₁⟩
  · have h2 : (m >>= f) s = (.error _, s₁) := bind_error.2 (.inl h1)
    rw [h2] at e
    simp only [Prod.mk.injEq] at e
    obtain ⟨rfl, rfl⟩ := e
    obtain ⟨l, h3, h4, -⟩ := hm _ _ _ h1
    exact ⟨l, h3, h4.trans (List.prefix_append _ _)⟩
  · have h2 : (m >>= f) s = f a s₁ := by simp only [Bind.bind, PyM.bind, h1]
    rw [h2] at e
    obtain ⟨l, h3, -, h5⟩ := hm _ _ _ h1
    obtain ⟨l', h6, h7⟩ := hf a _ _ _ e
    obtain rfl := h5 a rfl
    refine ⟨l ++ l', by rw [h6, h3, List.append_assoc], ?_⟩
    cases r with
    | ok _ => exact ⟨l', rfl, h7⟩
    | error _ => exact (List.prefix_append_right_inj l).2 h7

/-- `k` generations. -/
def genTagsN (k : Nat) : List (String × String) := (List.replicate k genTags).flatten

theorem genTagsN_succ (k : Nat) : genTagsN (k + 1) = genTags ++ genTagsN k := by
  simp [genTagsN, List.replicate_succ]

theorem emits_mainLoop (c : Cfg G κ) (n gen : Nat) :
    EmitsOne (fun l => ∃ k, k ≤ n ∧ l = genTagsN k) (genTagsN n) (mainLoop c n gen) := by
  induction n generalizing gen with
  | zero => exact (emits_pure ()).one.mono (fun l h => ⟨0, le_refl _, h⟩) (List.prefix_refl _)
  | succ n ih =>
    have hrest : ∀ stop : Bool, EmitsOne (fun l => ∃ k, k ≤ n ∧ l = ("algorithm", "after_generation") :: genTagsN k)
        (("algorithm", "after_generation") :: genTagsN n) (if stop then do
            PyM.modify fun s : Run G κ => { s with finalGen := some gen }
            publish "algorithm" "after_generation"
          else do
            publish "algorithm" "after_generation"
            mainLoop c n (gen + 1)) := by
      intro stop
      split
      · have := Emits.bind (t := []) (u := [("algorithm", "after_generation")])
          (emits_modify (f := fun s : Run G κ => { s with finalGen := some gen }) fun _ => rfl)
          fun _ => emits_publish (κ := κ) (G := G) "algorithm" "after_generation"
        exact this.one.mono (fun l h => ⟨0, Nat.zero_le _, h⟩) (by simp)
      · exact (Emits.bind_one (emits_publish "algorithm" "after_generation") fun _ => ih (gen + 1)).mono
          (by rintro l ⟨l', rfl, k, hk, rfl⟩; exact ⟨k, hk, rfl⟩) (List.prefix_refl _)
    have hpre : ∀ s₀ : Run G κ, EmitsOne (fun l => ∃ k, k ≤ n ∧ l = genTags ++ genTagsN k) (genTags ++ genTagsN n) (do
        setSeed c (nextSeed s₀.genSeed)
        PyM.modify fun s : Run G κ => { s with genSeed := nextSeed s.genSeed }
        generationIteration c
        let stop ← shouldTerminate c gen
        if stop then do
            PyM.modify fun s : Run G κ => { s with finalGen := some gen }
            publish "algorithm" "after_generation"
          else do
            publish "algorithm" "after_generation"
            mainLoop c n (gen + 1)) := by
      intro s₀
      have h1 := Emits.bind_one (emits_shouldTerminate c gen) hrest
      have h2 := Emits.bind_one (emits_generation c) fun _ => h1
      have h3 := Emits.bind_one (emits_modify (f := fun s : Run G κ => { s with genSeed := nextSeed s.genSeed })
        fun _ => rfl) fun _ => h2
      have h4 := Emits.bind_one (emits_modify (f := fun s : Run G κ => { s with w := { s.w with tape := c.stream (nextSeed s₀.genSeed) } })
        fun _ => rfl) fun _ => h3
      refine EmitsOne.mono h4 ?_ (List.prefix_refl _)
      rintro l ⟨l1, rfl, l2, rfl, l3, rfl, l4, rfl, k, hk, rfl⟩
      exact ⟨k, hk, rfl⟩
    have h5 := Emits.bind_one (Emits.silent (m := (PyM.get : RM G κ (Run G κ))) fun _ => rfl) hpre
    have h6 := Emits.bind_one (emits_updateGen gen) fun _ => h5
    have h7 := Emits.bind_one (emits_modify (f := fun s : Run G κ => { s with genNum := gen }) fun _ => rfl) fun _ => h6
    refine EmitsOne.mono h7 ?_ (by rw [genTagsN_succ]; exact List.prefix_refl _)
    rintro l ⟨l1, rfl, l2, rfl, l3, rfl, k, hk, rfl⟩
    exact ⟨k + 1, by omega, by rw [genTagsN_succ]⟩

/-- C97: whatever the configuration and whatever happens in the run, the events published are, in this order:
those of the evaluation and `init`; for each generation those of breeding, evaluation and `after_generation`;
and `evolution_finished`.  A run that stops right after the initialisation publishes `after_generation` once.
A run that raises an exception has published the beginning of such a sequence. -/
theorem C97_order {r : Except Err Unit} (h : evolve c s = (r, s')) :
    ∃ l, s'.tags = s.tags ++ l ∧
      match r with
      | .ok () => l = initTags ++ [("algorithm", "after_generation"), ("algorithm", "evolution_finished")] ∨
          ∃ k, k ≤ c.maxGen ∧ l = initTags ++ genTagsN k ++ [("algorithm", "evolution_finished")]
      | .error _ => l <+: initTags ++ genTagsN c.maxGen := by
  have hloop : EmitsOne (fun l => l = [("algorithm", "after_generation")] ∨ ∃ k, k ≤ c.maxGen ∧ l = genTagsN k)
      (genTagsN c.maxGen) (afterInit c) := by
    have hrest : ∀ stop : Bool, EmitsOne (fun l => l = [("algorithm", "after_generation")] ∨ ∃ k, k ≤ c.maxGen ∧ l = genTagsN k)
        (genTagsN c.maxGen) (if stop then do
          PyM.modify fun s : Run G κ => { s with finalGen := some 0 }
          publish "algorithm" "after_generation"
        else mainLoop c c.maxGen 1) := by
      intro stop
      split
      · intro s r s' e
        simp only [publish, bind, PyM.bind, PyM.modify, Prod.mk.injEq] at e
        obtain ⟨rfl, rfl⟩ := e
        exact ⟨[("algorithm", "after_generation")], by simp [Run.tags, Event.tag], .inl rfl⟩
      · exact (emits_mainLoop c c.maxGen 1).mono (fun l h => .inr h) (List.prefix_refl _)
    have h0 : ∀ s₀ : Run G κ, EmitsOne (fun l => l = [("algorithm", "after_generation")] ∨ ∃ k, k ≤ c.maxGen ∧ l = genTagsN k)
        (genTagsN c.maxGen) (do
          let stop ← shouldTerminate c s₀.genNum
          if stop then do
            PyM.modify fun s : Run G κ => { s with finalGen := some 0 }
            publish "algorithm" "after_generation"
          else mainLoop c c.maxGen 1) := by
      intro s₀
      refine EmitsOne.mono (Emits.bind_one (emits_shouldTerminate c s₀.genNum) hrest) ?_ (List.prefix_refl _)
      rintro l ⟨l', rfl, h⟩
      exact h
    refine EmitsOne.mono (Emits.bind_one (Emits.silent (m := (PyM.get : RM G κ (Run G κ))) fun _ => rfl) h0) ?_
      (List.prefix_refl _)
    rintro l ⟨l', rfl, h⟩
    exact h
  have hend : ∀ s₀ : Run G κ, ∃ s₁, (do publish "algorithm" "evolution_finished"; PyM.modify fun s : Run G κ => { s with shutdown := true }) s₀
      = (.ok (), s₁) ∧ s₁.tags = s₀.tags ++ [("algorithm", "evolution_finished")] := fun s₀ =>
    ⟨_, rfl, by simp [Run.tags, Event.tag]⟩
  have h1 := emits_initRun c
  rcases hi : initRun c s with ⟨_ | _, s₁⟩
  · have h2 : evolve c s = (.error _, s₁) := bind_error.2 (.inl hi)
    rw [h2] at h
    simp only [Prod.mk.injEq] at h
    obtain ⟨rfl, rfl⟩ := h
    obtain ⟨l, h3, h4, -⟩ := h1 _ _ _ hi
    exact ⟨l, h3, h4.trans (List.prefix_append _ _)⟩
  · obtain ⟨l, h3, -, h5⟩ := h1 _ _ _ hi
    obtain rfl := h5 () rfl
    rcases ha : afterInit c s₁ with ⟨_ | _, s₂⟩
    · have h2 : evolve c s = (.error _, s₂) := bind_error.2 (.inr ⟨_, _, hi, bind_error.2 (.inl ha)⟩)
      rw [h2] at h
      simp only [Prod.mk.injEq] at h
      obtain ⟨rfl, rfl⟩ := h
      obtain ⟨l', h6, h7⟩ := hloop _ _ _ ha
      exact ⟨initTags ++ l', by rw [h6, h3, List.append_assoc], (List.prefix_append_right_inj _).2 h7⟩
    · obtain ⟨s₃, he, ht⟩ := hend s₂
      have h2 : evolve c s = (.ok (), s₃) := bind_ok.2 ⟨_, _, hi, bind_ok.2 ⟨_, _, ha, he⟩⟩
      rw [h2] at h
      simp only [Prod.mk.injEq] at h
      obtain ⟨rfl, rfl⟩ := h
      obtain ⟨l', h6, h7⟩ := hloop _ _ _ ha
      refine ⟨initTags ++ l' ++ [("algorithm", "evolution_finished")], by rw [ht, h6, h3]; simp, ?_⟩
      rcases h7 with rfl | ⟨k, hk, rfl⟩
      · exact .inl rfl
      · exact .inr ⟨k, hk, rfl⟩

/-- C97: no other event is ever published: the algorithm publishes `init`, `after_generation` and
`evolution_finished`, the breeder and the population evaluator publish `before_operator` and `after_operator`,
and creators, selection methods, genetic operators and individual evaluators publish nothing. -/
theorem C97_only (hlog : s.log = []) {r : Except Err Unit} (h : evolve c s = (r, s')) :
    ∀ e ∈ s'.log, e.tag ∈ [("population_evaluator", "before_operator"), ("population_evaluator", "after_operator"),
      ("breeder", "before_operator"), ("breeder", "after_operator"), ("algorithm", "init"),
      ("algorithm", "after_generation"), ("algorithm", "evolution_finished")] := by
  obtain ⟨l, h1, h2⟩ := C97_order h
  have h3 : s'.tags = l := by rw [h1]; simp [Run.tags, hlog]
  have hg : ∀ n, ∀ x ∈ genTagsN n, x ∈ genTags := by
    intro n x hx
    simp only [genTagsN, List.mem_flatten, List.mem_replicate] at hx
    obtain ⟨y, ⟨-, rfl⟩, hy⟩ := hx
    exact hy
  have hall : ∀ x ∈ l, x ∈ initTags ++ genTags ++ [("algorithm", "evolution_finished")] := by
    intro x hx
    cases r with
    | ok u =>
      cases u
      rcases h2 with rfl | ⟨k, -, rfl⟩
      · simp only [List.mem_append, List.mem_cons, List.not_mem_nil, or_false] at hx ⊢
        rcases hx with hx | hx | hx
        · exact .inl (.inl hx)
        · exact .inl (.inr (by rw [hx]; decide))
        · exact .inr hx
      · simp only [List.mem_append] at hx ⊢
        rcases hx with (hx | hx) | hx
        · exact .inl (.inl hx)
        · exact .inl (.inr (hg k x hx))
        · exact .inr hx
    | error _ =>
      have := h2.subset hx
      simp only [List.mem_append] at this ⊢
      rcases this with hx | hx
      · exact .inl (.inl hx)
      · exact .inl (.inr (hg _ x hx))
  intro e he
  have := hall e.tag (by rw [← h3]; exact List.mem_map_of_mem he)
  simp only [initTags, genTags, List.cons_append, List.nil_append, List.mem_cons, List.not_mem_nil, or_false] at this ⊢
  tauto

/-- The event names of a `SimpleEvolution` made without `event_names` — simple_evolution.py:105-111,
algorithm.py:120-125, before_after_publisher.py:8-11. -/
def advertised : List String := ["before_eval", "after_eval", "before_breeding", "after_breeding",
  "init", "evolution_finished", "after_generation"] ++ ["before_operator", "after_operator"]

/-- The claim C97 in full: whoever registers for an event of the algorithm is told about it in a run that
returns after at least one generation. -/
def C97_statement : Prop :=
  ∀ (c : Cfg Nat Nat) (s s' : Run Nat Nat), s.log = [] → evolve c s = (.ok (), s') → 0 < s'.genNum →
    ∀ n ∈ advertised, ∃ e ∈ s'.log, e.tag = ("algorithm", n)

/-- The events for which subscribers are never called. -/
theorem C97_never (hlog : s.log = []) {r : Except Err Unit} (h : evolve c s = (r, s')) :
    ∀ n ∈ ["before_eval", "after_eval", "before_breeding", "after_breeding", "before_operator", "after_operator"],
      ∀ e ∈ s'.log, e.tag ≠ ("algorithm", n) := by
  intro n hn e he ht
  have := C97_only hlog h e he
  rw [ht] at this
  simp only [List.mem_cons, Prod.mk.injEq, List.not_mem_nil, or_false] at hn this
  rcases hn with rfl | rfl | rfl | rfl | rfl | rfl <;> simp at this

theorem C97_refuted : ¬ C97_statement := by
  intro h
  have h1 := ran exRun_ends.1
  obtain ⟨e, he, ht⟩ := h exCfg exRun _ rfl h1 (by rw [exRun_ends.2.1]; decide) "before_breeding" (by decide)
  exact C97_never (s := exRun) rfl h1 "before_breeding" (by decide) e he ht

/-- C97, the part that holds: the other three are published. -/
theorem C97_published_partial (hlog : s.log = []) (h : evolve c s = (.ok (), s')) (hg : 0 < c.maxGen) :
    (s'.tags.count ("algorithm", "init") = 1 ∧ s'.tags.count ("algorithm", "evolution_finished") = 1) ∧
    s'.tags.count ("algorithm", "after_generation") ≤ c.maxGen := by
  obtain ⟨l, h1, h2⟩ := C97_order h
  have h3 : s'.tags = l := by rw [h1]; simp [Run.tags, hlog]
  rw [h3]
  have hc : ∀ k x, (genTagsN k).count x = k * genTags.count x := by
    intro k x
    induction k with
    | zero => simp [genTagsN]
    | succ k ih => rw [genTagsN_succ, List.count_append, ih, Nat.succ_mul]; omega
  have e1 : initTags.count ("algorithm", "init") = 1 := by decide
  have e2 : initTags.count ("algorithm", "evolution_finished") = 0 := by decide
  have e3 : initTags.count ("algorithm", "after_generation") = 0 := by decide
  have e4 : genTags.count ("algorithm", "init") = 0 := by decide
  have e5 : genTags.count ("algorithm", "evolution_finished") = 0 := by decide
  have e6 : genTags.count ("algorithm", "after_generation") = 1 := by decide
  rcases h2 with rfl | ⟨k, hk, rfl⟩
  · simp only [List.count_append, e1, e2, e3]
    refine ⟨by decide, ?_⟩
    have : List.count ("algorithm", "after_generation")
      [("algorithm", "after_generation"), ("algorithm", "evolution_finished")] = 1 := by decide
    omega
  · simp only [List.count_append, e1, e2, e3, hc, e4, e5, e6]
    refine ⟨by simp, ?_⟩
    have : List.count ("algorithm", "after_generation") [("algorithm", "evolution_finished")] = 0 := by decide
    omega

example := C97_order (ran exRun_ends.1)
example := C97_only (s := exRun) rfl (ran exRun_ends.1)
example := C97_published_partial (s := exRun) rfl (ran exRun_ends.1) (by decide)

/-- A run that raises: the checkers' states are missing. -/
example : (evolve exCfg { exRun with checkers := [], inds := [] }).1 = .error .valueError ∧
    (evolve exCfg { exRun with checkers := [], inds := [] }).2.tags = [("population_evaluator", "before_operator")] := by
  decide +kernel

end Verif.Evo
