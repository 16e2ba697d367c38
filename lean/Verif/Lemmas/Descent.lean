import Verif.Spec.Descent
import Verif.Lemmas.Legal

/-! # Features of the initial population that operators cannot add to -/

namespace Verif.Evo
open PyM
variable {G κ K : Type} {P : G → Prop} {Q : Event G → G → Prop}

/-- Events are only added at the end of the log. -/
def Grows {α : Type} (m : RM G κ α) : Prop := ∀ s, ∃ l, (m s).2.log = s.log ++ l

namespace Grows
variable {α β : Type}

theorem pure (a : α) : Grows (Pure.pure a : RM G κ α) := fun _ => ⟨[], by simp [pure_run]⟩
theorem raise (e : Err) : Grows (PyM.raise e : RM G κ α) := fun _ => ⟨[], by simp [PyM.raise]⟩
theorem get : Grows (PyM.get : RM G κ (Run G κ)) := fun _ => ⟨[], by simp [PyM.get]⟩

theorem modify {f : Run G κ → Run G κ} (h : ∀ s, (f s).log = s.log) : Grows (PyM.modify f) :=
  fun s => ⟨[], by simp [PyM.modify, h]⟩

theorem world (m : WM G α) : Grows (Evo.world (κ := κ) m) := fun s => ⟨[], by
  simp only [Evo.world, zoom]
  rcases m s.w with ⟨r, w⟩
  simp⟩

theorem publish (p n : String) : Grows (Evo.publish (G := G) (κ := κ) p n) := fun s => ⟨_, rfl⟩

theorem bind {m : RM G κ α} {f : α → RM G κ β} (hm : Grows m) (hf : ∀ a, Grows (f a)) :
    Grows (m >>= f) := by
  intro s
  obtain ⟨l, hl⟩ := hm s
  rcases h : m s with ⟨_ | a, s₁⟩
  · rw [bind_of_error h]
    exact ⟨l, by rw [h] at hl; exact hl⟩
  · rw [bind_of_ok h]
    obtain ⟨l', hl'⟩ := hf a s₁
    rw [h] at hl
    exact ⟨l ++ l', by rw [hl', hl, List.append_assoc]⟩

theorem ite {c : Prop} [Decidable c] {m₁ m₂ : RM G κ α} (h1 : Grows m₁) (h2 : Grows m₂) :
    Grows (if c then m₁ else m₂) := by split <;> assumption

theorem forL {f : α → RM G κ Unit} (hf : ∀ a, Grows (f a)) (xs : List α) : Grows (PyM.forL f xs) := by
  induction xs with
  | nil => exact Grows.pure _
  | cons x xs ih => exact (hf x).bind fun _ => ih

theorem act {name : String} {m : RM G κ α} (h : Grows m) : Grows (Evo.act name m) := by
  unfold Evo.act
  exact (publish _ _).bind fun _ => h.bind fun _ => (publish _ _).bind fun _ => pure _

end Grows

theorem evaluatePopulation_grows (c : Cfg G κ) : Grows (evaluatePopulation c) := by
  refine Grows.act ?_
  unfold evaluateBody
  refine Grows.get.bind fun s => ?_
  split
  · exact Grows.ite (Grows.raise _) (Grows.world _)
  · exact Grows.raise _
  · exact Grows.raise _

theorem breed_grows (c : Cfg G κ) : Grows (breed c) :=
  Grows.act (Grows.get.bind fun _ => (Grows.world _).bind fun _ => Grows.modify fun _ => rfl)

theorem recordBest_grows (c : Cfg G κ) (b : Nat) : Grows (recordBest c b) :=
  Grows.get.bind fun _ => (Grows.world _).bind fun _ =>
    Grows.ite (Grows.modify fun _ => rfl) (Grows.pure _)

theorem recordWorst_grows (c : Cfg G κ) : Grows (recordWorst c) := by
  refine Grows.get.bind fun s => ?_
  split
  · exact (Grows.world _).bind fun _ => Grows.modify fun _ => rfl
  · exact Grows.raise _

theorem generation_grows (c : Cfg G κ) : Grows (generationIteration c) := by
  refine (breed_grows c).bind fun _ => ?_
  refine (evaluatePopulation_grows c).bind fun b => ?_
  refine Grows.bind (Grows.modify ?_) fun _ => ?_
  · exact fun _ => rfl
  · exact (recordBest_grows c b).bind fun _ => recordWorst_grows c

theorem shouldTerminate_grows (c : Cfg G κ) (gen : Nat) : Grows (shouldTerminate c gen) := by
  intro s
  rcases e : shouldTerminate c gen s with ⟨r, s'⟩
  obtain ⟨ks, rfl⟩ := shouldTerminate_same gen _ _ e
  exact ⟨[], by simp⟩

theorem updateGen_grows (gen : Nat) : Grows (updateGen (G := G) (κ := κ) gen) := by
  refine Grows.get.bind fun s => Grows.forL (fun o => ?_) _
  cases o with
  | none => exact Grows.raise _
  | some is => exact Grows.world _

theorem mainLoop_grows (c : Cfg G κ) (n gen : Nat) : Grows (mainLoop c n gen) := by
  induction n generalizing gen with
  | zero => exact Grows.pure _
  | succ n ih =>
    unfold mainLoop
    refine Grows.bind (Grows.modify (by exact fun _ => rfl)) fun _ => ?_
    refine (updateGen_grows gen).bind fun _ => ?_
    refine Grows.get.bind fun s => ?_
    refine Grows.bind (Grows.modify (by exact fun _ => rfl)) fun _ => ?_
    refine Grows.bind (Grows.modify (by exact fun _ => rfl)) fun _ => ?_
    refine (generation_grows c).bind fun _ => ?_
    refine (shouldTerminate_grows c gen).bind fun stop => ?_
    exact Grows.ite (Grows.bind (Grows.modify (by exact fun _ => rfl)) fun _ => Grows.publish _ _)
      ((Grows.publish _ _).bind fun _ => ih _)

theorem afterInit_grows (c : Cfg G κ) : Grows (afterInit c) := by
  unfold afterInit
  refine Grows.get.bind fun s => ?_
  refine (shouldTerminate_grows c _).bind fun stop => ?_
  exact Grows.ite (Grows.bind (Grows.modify (by exact fun _ => rfl)) fun _ => Grows.publish _ _) (mainLoop_grows c _ _)

theorem evaluatePopulation_first (c : Cfg G κ) (s : Run G κ) (r : Except Err Nat) (s' : Run G κ)
    (h : evaluatePopulation c s = (r, s')) :
    ∃ l, s'.log = (s.push "population_evaluator" "before_operator").log ++ l := by
  unfold evaluatePopulation act at h
  have hpub : publish "population_evaluator" "before_operator" s =
      (.ok (), s.push "population_evaluator" "before_operator") := rfl
  rw [bind_of_ok hpub] at h
  have hg : Grows (do
      let a ← evaluateBody c
      publish "population_evaluator" "after_operator"
      Pure.pure a) := by
    refine Grows.bind ?_ fun a => (Grows.publish _ _).bind fun _ => Grows.pure _
    unfold evaluateBody
    refine Grows.get.bind fun s => ?_
    split
    · exact Grows.ite (Grows.raise _) (Grows.world _)
    · exact Grows.raise _
    · exact Grows.raise _
  obtain ⟨l, hl⟩ := hg (s.push "population_evaluator" "before_operator")
  rw [h] at hl
  exact ⟨l, hl⟩

/-- Everything recorded satisfies `P` and is related to the first event by `Q`. -/
def Desc (P : G → Prop) (Q : Event G → G → Prop) (s : Run G κ) : Prop :=
  ∀ e₀, s.log.head? = some e₀ → LogHas (fun g => P g ∧ Q e₀ g) s

theorem head_append {α : Type} {a l : List α} {x y : α} (h : a.head? = some x)
    (h' : (a ++ l).head? = some y) : y = x := by
  cases a with
  | nil => simp at h
  | cons b t => simp_all

/-- What the individuals in the population of an event have in relation to the event. -/
def Founded (Q : Event G → G → Prop) : Prop :=
  ∀ e is r i, some is ∈ e.snap.inds → r ∈ is → e.snap.heap[r]? = some i → Q e i.genome

theorem initRun_desc {c : Cfg G κ} {sub : SubCfg G} {m : Mode} (hc : c.Ordinary sub m)
    (hcr : ∀ create ∈ sub.creators, CreatorMakes P create) (hQ : Founded Q) {s : Run G κ}
    (hr : s.Ready m) (hf : s.Starts P) :
    tri (initRun c) (fun _ s' => ∃ e₀, s'.log.head? = some e₀ ∧
      Lawful (fun g => P g ∧ Q e₀ g) s') (Desc P Q) s := by
  unfold initRun
  refine tri_bind (tri_get ?_)
  refine tri_bind (tri_modify ?_)
  refine tri_bind ?_
  unfold createPopulation
  refine tri_bind (tri_get ?_)
  refine tri_bind (tri_world (E := Desc P Q) ?_ fun w e₀ he => ?_)
  case refine_2 =>
    have he' : s.log.head? = some e₀ := he
    rw [hf.log] at he'
    simp at he'
  obtain ⟨o, ho, hgood⟩ : ∃ o, s.inds = [o] ∧ ∀ is, o = some is → is.Nodup ∧ ∀ r ∈ is, modeAt s.w r = some m := by
    rcases hr with h | ⟨is, h, h1, h2⟩
    · exact ⟨none, h, by simp⟩
    · exact ⟨some is, h, by rintro is' h'; cases h'; exact ⟨h1, h2⟩⟩
  rw [hc.subs]
  dsimp only
  rw [ho]
  show wlp (mapL _ [(sub, o)]) _ _
  unfold mapL
  rw [wlp_bind]
  refine ((createSub_ready hc.dir hc.creators o (w := { s.w with tape := c.stream s.randomSeed }) hgood).and
    (createSub_carry hcr o (w := { s.w with tape := c.stream s.randomSeed })
      fun is e => hf.pop is (by rw [ho, e]; simp))).mono ?_
  rintro res w ⟨⟨is, rfl, hn, hm⟩, hcar⟩
  unfold mapL
  rw [wlp_bind, wlp_pure, wlp_pure]
  refine tri_modify ?_
  obtain ⟨s₂, hs₂⟩ : ∃ s₂ : Run G κ, s₂ = { s with w := w, inds := [some is] } := ⟨_, rfl⟩
  have hi₂ : s₂.inds = [some is] := by rw [hs₂]
  have hm₂ : ∀ r ∈ is, modeAt s₂.w r = some m := by rw [hs₂]; exact hm
  have hl₂ : s₂.log = [] := by rw [hs₂]; exact hf.log
  have hc₂ : Carry P s₂.w.heap is := by rw [hs₂]; exact hcar is rfl
  have hb₂ : s₂.bestOfRun = none := by rw [hs₂]; exact hf.bestOfRun
  have hg₂ : s₂.bestOfGen = none := by rw [hs₂]; exact hf.bestOfGen
  show tri _ _ _ ({ s with w := w, inds := [some is] } : Run G κ)
  rw [← hs₂]
  clear hs₂ hn hm hcar hf hr ho hgood
  obtain ⟨e₀, he₀⟩ : ∃ e₀ : Event G, e₀ = ⟨"population_evaluator", "before_operator", s₂.snapshot⟩ := ⟨_, rfl⟩
  have hpop : Carry (fun g => P g ∧ Q e₀ g) s₂.w.heap is := by
    intro r hr
    obtain ⟨i, h1, h2⟩ := hc₂ r hr
    refine ⟨i, h1, h2, hQ e₀ is r i ?_ hr ?_⟩
    · rw [he₀]; show some is ∈ s₂.inds; rw [hi₂]; simp
    · rw [he₀]; exact h1
  have h1 : Lawful (fun g => P g ∧ Q e₀ g) s₂ := by
    refine ⟨?_, ?_, fun b e => ?_, fun b e => ?_⟩
    · intro e he; rw [hl₂] at he; simp at he
    · intro is' hi'
      rw [hi₂] at hi'
      simp only [List.mem_singleton, Option.some.injEq] at hi'
      exact hi' ▸ hpop
    · rw [hb₂] at e; simp at e
    · rw [hg₂] at e; simp at e
  refine tri_bind ?_
  intro r s₃ e
  obtain ⟨l, hl⟩ := evaluatePopulation_first c s₂ r s₃ e
  have hhead : s₃.log.head? = some e₀ := by
    rw [hl]
    simp only [Run.push, hl₂, he₀]
    rfl
  have h3 := evaluate_lawful hc hi₂ hm₂ h1 r s₃ e
  cases r with
  | error _ =>
    intro e₁ he₁
    rw [hhead] at he₁
    cases he₁
    exact h3
  | ok b =>
    obtain ⟨h3, hcb⟩ := h3
    refine tri_bind (tri_modify (tri_publish ?_))
    refine ⟨e₀, ?_, ?_⟩
    · show (s₃.log ++ _).head? = some e₀
      rw [List.head?_append, hhead]
      rfl
    · refine Lawful.push (s := { s₃ with bestOfRun := some b }) ⟨h3.log, h3.pop, fun b' e => ?_, h3.bestOfGen⟩ _ _
      simp only [Option.some.injEq] at e
      exact e ▸ hcb

/-- If the creators make individuals satisfying `P`, and the operators preserve `P` together with a relation
to the first event that its population has, everything that can be seen has it. -/
theorem evolve_descends {c : Cfg G κ} {sub : SubCfg G} {m : Mode} (hc : c.Ordinary sub m)
    (hcr : ∀ create ∈ sub.creators, CreatorMakes P create) (hQ : Founded Q)
    (hp : ∀ e, ∀ o ∈ sub.ops, o.Preserves fun g => P g ∧ Q e g)
    {s : Run G κ} (hr : s.Ready m) (hf : s.Starts P) (r : Except Err Unit) (s' : Run G κ)
    (hrun : evolve c s = (r, s')) : Desc P Q s' := by
  have hgoal : tri (evolve c) (fun _ => Desc P Q) (Desc P Q) s := by
    unfold evolve
    refine tri_bind ?_
    intro r s₁ e
    have g1 := tri_and (initRun_alive hc hr hf.log) (initRun_desc hc hcr hQ hr hf) r s₁ e
    cases r with
    | error _ => exact g1.2
    | ok _ =>
    obtain ⟨ha1, e₀, he₀, h1⟩ := g1
    have hrest : ∀ r s₂, (do
        afterInit c
        publish "algorithm" "evolution_finished"
        PyM.modify fun s => { s with shutdown := true }) s₁ = (r, s₂) →
        LogHas (fun g => P g ∧ Q e₀ g) s₂ := by
      intro r s₂ e₂
      have htri : tri (do
        afterInit c
        publish "algorithm" "evolution_finished"
        PyM.modify fun s => { s with shutdown := true }) (fun _ => Lawful (fun g => P g ∧ Q e₀ g))
          (LogHas (fun g => P g ∧ Q e₀ g)) s₁ := by
        refine tri_bind (tri.mono (Q := fun _ s₂ => Lawful (fun g => P g ∧ Q e₀ g) s₂) ?_ fun _ s₂ h2 => ?_)
        · unfold afterInit
          refine tri_bind (tri_get (tri_bind ?_))
          intro r s₃ e
          have g3 := tri_and (shouldTerminate_alive ha1 s₁.genNum) (shouldTerminate_lawful h1 s₁.genNum) r s₃ e
          cases r with
          | error _ => exact g3.2
          | ok v =>
          obtain ⟨ha3, h3⟩ := g3
          refine tri_ite (fun _ => tri_bind (tri_modify (tri_publish ?_)))
            (fun _ => mainLoop_lawful hc (hp _) _ _ ha3 h3)
          exact Lawful.push (s := { s₃ with finalGen := some 0 }) ⟨h3.log, h3.pop, h3.bestOfRun, h3.bestOfGen⟩ _ _
        · refine tri_bind (tri_publish (tri_modify ?_))
          have := h2.push "algorithm" "evolution_finished"
          exact ⟨this.log, this.pop, this.bestOfRun, this.bestOfGen⟩
      have := htri r s₂ e₂
      cases r with
      | ok _ => exact this.log
      | error _ => exact this
    have hgrow : Grows (do
        afterInit c
        publish "algorithm" "evolution_finished"
        PyM.modify fun s => { s with shutdown := true }) :=
      (afterInit_grows c).bind fun _ => (Grows.publish _ _).bind fun _ => Grows.modify (by exact fun _ => rfl)
    intro r s₂ e₂
    obtain ⟨l, hl⟩ := hgrow s₁
    rw [e₂] at hl
    have : Desc P Q s₂ := by
      intro e₁ he₁
      rw [show s₂.log = s₁.log ++ l from hl] at he₁
      rw [head_append he₀ he₁]
      exact hrest r s₂ e₂
    cases r <;> exact this
  have := hgoal r s' hrun
  cases r <;> exact this

/-- If the creators make individuals satisfying `P`, and the operators preserve `P` and produce only
individuals with features of their arguments, then features not in the initial population never
appear. -/
theorem evolve_desc {c : Cfg G κ} {sub : SubCfg G} {m : Mode} (hc : c.Ordinary sub m)
    (hcr : ∀ create ∈ sub.creators, CreatorMakes P create) (key : G → K)
    (hp : ∀ R : K → Prop, ∀ o ∈ sub.ops, o.Preserves fun g => P g ∧ R (key g))
    {s : Run G κ} (hr : s.Ready m) (hf : s.Starts P) (r : Except Err Unit) (s' : Run G κ)
    (hrun : evolve c s = (r, s')) : Desc P (fun e g => e.Features key (key g)) s' :=
  evolve_descends hc hcr (fun _ is r i h1 h2 h3 => ⟨is, r, i, h1, h2, h3, rfl⟩)
    (fun e o ho => hp (fun k => e.Features key k) o ho) hr hf r s' hrun

theorem Desc.allHave {Q : Event G → G → Prop} {s : Run G κ} (h : Desc P Q s) :
    ∀ e₀, s.log.head? = some e₀ → ∀ e ∈ s.log, e.AllHave (Q e₀) :=
  fun e₀ he₀ e he => ⟨fun is hi r hr => (((h e₀ he₀ e he).1 is hi r hr)).imp fun _ h => ⟨h.1, h.2.2⟩,
    fun b hb r hr => (((h e₀ he₀ e he).2.1 b hb r hr)).imp fun _ h => ⟨h.1, h.2.2⟩,
    fun b hb r hr => (((h e₀ he₀ e he).2.2 b hb r hr)).imp fun _ h => ⟨h.1, h.2.2⟩⟩

theorem Desc.confined {key : G → K} {s : Run G κ} (h : Desc P (fun e g => e.Features key (key g)) s) :
    Confined key s.log := h.allHave

/-- If what the individuals produced by the operators consist of comes from the arguments, then nothing
else than what the initial population consists of ever appears. -/
theorem evolve_recombined {c : Cfg G κ} {sub : SubCfg G} {m : Mode} (hc : c.Ordinary sub m)
    (hcr : ∀ create ∈ sub.creators, CreatorMakes P create) (has : G → K → Prop)
    (hp : ∀ R : K → Prop, ∀ o ∈ sub.ops, o.Preserves fun g => P g ∧ ∀ x, has g x → R x)
    {s : Run G κ} (hr : s.Ready m) (hf : s.Starts P) (r : Except Err Unit) (s' : Run G κ)
    (hrun : evolve c s = (r, s')) : Recombined has s'.log :=
  (evolve_descends (Q := fun e g => ∀ x, has g x → e.HasPart has x) hc hcr
    (fun _ is r i h1 h2 h3 x hx => ⟨is, r, i, h1, h2, h3, hx⟩)
    (fun e o ho => hp (fun k => e.HasPart has k) o ho) hr hf r s' hrun).allHave

end Verif.Evo
