import Verif.Spec.Legal
import Verif.Lemmas.Run
import Verif.Lemmas.Creation

/-! # A property of genomes is kept throughout a run -/

namespace Verif.Evo
open PyM
variable {G κ : Type} {P : G → Prop}

theorem carry_append {h : List (Ind G)} {a b : List Nat} (ha : Carry P h a) (hb : Carry P h b) :
    Carry P h (a ++ b) := by
  intro r hr
  rcases List.mem_append.1 hr with hr | hr
  · exact ha r hr
  · exact hb r hr

theorem Carry.sub {h : List (Ind G)} {a b : List Nat} (ha : Carry P h a) (hs : ∀ r ∈ b, r ∈ a) :
    Carry P h b := fun r hr => ha r (hs r hr)

theorem Carry.lt {h : List (Ind G)} {a : List Nat} (ha : Carry P h a) : ∀ r ∈ a, r < h.length := by
  intro r hr
  obtain ⟨i, hi, -⟩ := ha r hr
  exact (List.getElem?_eq_some_iff.1 hi).1

theorem carry_of_genomes {w w' : World G} {a : List Nat} (ha : Carry P w.heap a)
    (hg : ∀ r ∈ a, genomeAt w' r = genomeAt w r) : Carry P w'.heap a := by
  intro r hr
  obtain ⟨i, hi, hp⟩ := ha r hr
  have := hg r hr
  unfold genomeAt at this
  rw [hi] at this
  cases h : w'.heap[r]? with
  | none => simp [h] at this
  | some j =>
    simp only [h, Option.map_some, Option.some.injEq] at this
    exact ⟨j, rfl, this ▸ hp⟩

theorem carry_modify {h : List (Ind G)} {a : List Nat} {r : Nat} {f : Ind G → Ind G} (ha : Carry P h a)
    (hf : ∀ i, P i.genome → P (f i).genome) : Carry P (h.modify r f) a := by
  intro x hx
  obtain ⟨i, hi, hp⟩ := ha x hx
  rw [List.getElem?_modify, hi]
  by_cases hrx : r = x
  · exact ⟨f i, by simp [hrx], hf i hp⟩
  · exact ⟨i, by simp [hrx], hp⟩

theorem updates_carry {α : Type} (f : α → Nat) (g : α → Ind G → Ind G) (xs : List α)
    (hg : ∀ a ∈ xs, ∀ i, P i.genome → P (g a i).genome) (s : World G) :
    wlp (forL (fun a => update (f a) (g a)) xs) (fun _ s' =>
      ∀ refs, Carry P s.heap refs → Carry P s'.heap refs) s := by
  refine wlp_forL (I := fun _ (s' : World G) => ∀ refs, Carry P s.heap refs → Carry P s'.heap refs)
    (fun _ h => h) ?_
  rintro pre a post s₁ hx h
  rw [wlp_update]
  exact fun refs hr => carry_modify (h refs hr) (hg a (by rw [hx]; simp))

/-- Operators working in place keep what their genome function keeps. -/
theorem Op.inPlace_preserves (name : String) (p : ℚ) (arity : Nat) {f : List G → Rand (Option (List G))}
    (hf : ∀ gs, (∀ g ∈ gs, P g) → Post (f gs) fun res => ∀ gs', res = some gs' → ∀ g ∈ gs', P g) :
    (Op.inPlace name p arity f).Preserves P := by
  intro refs s hc
  unfold Op.inPlace
  dsimp only
  rw [wlp_bind]
  refine (genomes_wlp refs s).mono ?_
  rintro gs _ ⟨rfl, hgs⟩
  rename_i s
  have hP : ∀ g ∈ gs, P g := by
    intro g hg
    obtain ⟨k, hk, rfl⟩ := List.getElem_of_mem hg
    have hk' : k < refs.length := by rw [hgs.length_eq]; exact hk
    have h1 := hgs.get hk' hk
    obtain ⟨i, hi, hp⟩ := hc refs[k] (List.getElem_mem hk')
    simp only [List.get_eq_getElem] at h1
    unfold genomeAt at h1
    rw [hi] at h1
    simp only [Option.map_some, Option.some.injEq] at h1
    exact h1 ▸ hp
  rw [wlp_bind, wlp_rand]
  refine ((hf gs hP).wlp _).mono fun r t hr => ?_
  cases r with
  | none => rw [wlp_pure]; simp
  | some gs' =>
    simp only
    rw [wlp_bind]
    unfold putGenomes
    refine (updates_carry (P := P) (fun q : Nat × G => q.1) (fun q i => { i with genome := q.2 })
      (refs.zip gs') (fun q hq i _ => hr gs' rfl q.2 (List.of_mem_zip hq).2) _).mono fun _ s' h => ?_
    rw [wlp_pure]
    rintro l hl
    simp only [Option.some.injEq] at hl
    exact hl ▸ h refs hc

theorem applyOperator_carry {o : Op G} (ho : o.Preserves P) {inds : List Nat} {s : World G}
    (hc : Carry P s.heap inds) : wlp (applyOperator o inds) (fun l s' => Carry P s'.heap l) s := by
  unfold applyOperator
  rw [wlp_bind, wlp_rand]
  refine (wlp_true _ _).mono fun u t _ => ?_
  rw [wlp_ite]
  refine ⟨fun _ => ?_, fun _ => by rw [wlp_pure]; exact hc⟩
  rw [wlp_bind]
  refine (updates_carry (P := P) (fun r : Nat => r) (fun _ i => { i with fit := i.fit.setNotEvaluated })
    inds (fun _ _ _ h => h) { s with tape := t }).mono fun _ s₁ h1 => ?_
  rw [wlp_bind]
  refine (ho inds s₁ (h1 inds hc)).mono fun res s₂ h2 => ?_
  cases res with
  | none => simp
  | some l =>
    simp only
    rw [wlp_bind]
    refine (ids_wlp inds s₂).mono ?_
    rintro ids _ ⟨rfl, -⟩
    rename_i s₂
    rw [wlp_bind]
    refine (updates_carry (P := P) (fun r : Nat => r) (fun _ => record o.name ids) l (fun _ _ _ h => h) s₂).mono
      fun _ s₃ h3 => ?_
    rw [wlp_pure]
    exact h3 l (h2 l rfl)

/-- An operator that hands over keeps what its attempts and the other operator keep. -/
theorem Op.withFallback_preserves (name : String) (p : ℚ) (arity : Nat) {f : List G → Rand (Bool × List G)}
    {inner : Op G} (hf : ∀ gs, (∀ g ∈ gs, P g) → Post (f gs) fun r => ∀ g ∈ r.2, P g) (hi : inner.Preserves P) :
    (Op.withFallback name p arity f inner).Preserves P := by
  intro refs s hc
  unfold Op.withFallback
  dsimp only
  rw [wlp_bind]
  refine (genomes_wlp refs s).mono ?_
  rintro gs _ ⟨rfl, hgs⟩
  rename_i s
  have hP : ∀ g ∈ gs, P g := by
    intro g hg
    obtain ⟨k, hk, rfl⟩ := List.getElem_of_mem hg
    have hk' : k < refs.length := by rw [hgs.length_eq]; exact hk
    have h1 := hgs.get hk' hk
    obtain ⟨i, hi, hp⟩ := hc refs[k] (List.getElem_mem hk')
    simp only [List.get_eq_getElem] at h1
    unfold genomeAt at h1
    rw [hi] at h1
    simp only [Option.map_some, Option.some.injEq] at h1
    exact h1 ▸ hp
  rw [wlp_bind, wlp_rand]
  refine ((hf gs hP).wlp _).mono fun r t hr => ?_
  obtain ⟨b, gs'⟩ := r
  dsimp only at hr ⊢
  rw [wlp_bind]
  unfold putGenomes
  refine (updates_carry (P := P) (fun q : Nat × G => q.1) (fun q i => { i with genome := q.2 })
    (refs.zip gs') (fun q hq i _ => hr q.2 (List.of_mem_zip hq).2) _).mono fun _ s' h => ?_
  rw [wlp_ite]
  refine ⟨fun _ => ?_, fun _ => ?_⟩
  · rw [wlp_pure]
    rintro l hl
    simp only [Option.some.injEq] at hl
    exact hl ▸ h refs hc
  · rw [wlp_bind]
    refine (applyOperator_carry hi (h refs hc)).mono fun l s'' h2 => ?_
    rw [wlp_pure]
    rintro l' hl
    simp only [Option.some.injEq] at hl
    exact hl ▸ h2

theorem carry_ext {T : Nat → Prop} {s s' : World G} {a : List Nat} (ha : Carry P s.heap a) (e : Ext T s s')
    (hT : ∀ r ∈ a, ¬ T r) : Carry P s'.heap a := by
  intro r hr
  obtain ⟨i, hi, hp⟩ := ha r hr
  exact ⟨i, e.getElem? (hT r hr) hi, hp⟩

theorem applyChunks_carry {base : World G} {n : Nat} {m : Mode} {o : Op G} (ho : o.Good)
    (hp : o.Preserves P) (is : List Nat) {s : World G} {inds : List Nat} (hb : Brood base n m s inds)
    (hc : Carry P s.heap inds) :
    wlp (applyChunks o is inds) (fun res s' => Carry P s'.heap res) s := by
  induction is generalizing s inds with
  | nil => unfold applyChunks; rw [wlp_pure]; exact hc
  | cons i is ih =>
    unfold applyChunks
    rw [wlp_bind]
    obtain ⟨A, C, hsplit, hset⟩ := slice_split inds i ((i + o.arity : Nat) : Int)
    have hsub : ∀ r ∈ Py.slice inds i ((i + o.arity : Nat) : Int), r ∈ inds := fun r hr => by
      rw [hsplit]; exact List.mem_append.2 (.inl (List.mem_append.2 (.inr hr)))
    have hv : Valid s (Py.slice inds i ((i + o.arity : Nat) : Int)) := fun r hr => hb.valid r (hsub r hr)
    have hnd := hb.nodup
    rw [hsplit, List.nodup_append, List.nodup_append] at hnd
    obtain ⟨⟨-, -, hAsl⟩, -, hAC⟩ := hnd
    refine (((applyOperator_brood ho hb _ _).and (applyOperator_good ho hv)).and
      (applyOperator_carry hp (hc.sub hsub))).mono ?_
    rintro res s' ⟨⟨hb', e, -⟩, hc'⟩
    refine ih hb' ?_
    rw [hset]
    refine carry_append (carry_append ?_ hc') ?_
    · refine carry_ext (hc.sub fun r hr => by rw [hsplit]; simp [hr]) e ?_
      exact fun r hr h => hAsl r hr r h rfl
    · refine carry_ext (hc.sub fun r hr => by rw [hsplit]; simp [hr]) e ?_
      exact fun r hr h => hAC r (List.mem_append.2 (.inr h)) r hr rfl

theorem applyOperators_carry {base : World G} {n : Nat} {m : Mode} (os : List (Op G))
    (ho : ∀ o ∈ os, o.Good) (hp : ∀ o ∈ os, o.Preserves P) {s : World G} {inds : List Nat}
    (hb : Brood base n m s inds) (hc : Carry P s.heap inds) :
    wlp (applyOperators os inds) (fun res s' => Carry P s'.heap res) s := by
  induction os generalizing s inds with
  | nil => unfold applyOperators; rw [wlp_pure]; exact hc
  | cons o os ih =>
    unfold applyOperators
    rw [wlp_ite]
    refine ⟨fun _ => by simp, fun _ => ?_⟩
    rw [wlp_bind]
    exact ((applyChunks_brood (ho o (by simp)) _ hb).and
      (applyChunks_carry (ho o (by simp)) (hp o (by simp)) _ hb hc)).mono fun res s' h =>
      ih (fun o h => ho o (by simp [h])) (fun o h => hp o (by simp [h])) h.1 h.2

theorem breedSub_carry {size : G → Nat} {sub : SubCfg G}
    (hs : ∃ sel rest, sub.sels = sel :: rest ∧ sel.Good ∧ sel.Fills)
    (ho : ∀ o ∈ sub.ops, o.Good) (hp : ∀ o ∈ sub.ops, o.Preserves P) {m : Mode} {w : World G} {is : List Nat}
    (hm : ∀ r ∈ is, modeAt w r = some m) (hc : Carry P w.heap is) :
    wlp (breedSub size sub is) (fun res w' => Carry P w'.heap res) w := by
  obtain ⟨sel, rest, h1, h2, h3⟩ := hs
  unfold breedSub
  rw [wlp_bind]
  refine (checkArities_wlp sub.popSize _).mono ?_
  rintro _ _ ⟨rfl, -⟩
  rename_i w
  rw [wlp_bind]
  refine (select_brood h1 h2 h3 (fun r hr => modeAt_lt (hm r hr)) hm).mono ?_
  rintro res s₂ ⟨hb, hcopy⟩
  refine applyOperators_carry sub.ops ho hp hb ?_
  intro r hr
  obtain ⟨src, hsrc, hcp⟩ := hcopy r hr
  obtain ⟨i, hi, hpi⟩ := hc src hsrc
  have := hcp.genome
  unfold genomeAt at this
  rw [hi] at this
  cases hj : s₂.heap[r]? with
  | none => simp [hj] at this
  | some j =>
    simp only [hj, Option.map_some, Option.some.injEq] at this
    exact ⟨j, rfl, this ▸ hpi⟩

/-! ## The invariant -/

theorem tri_and {σ α : Type} {m : PyM σ α} {Q R : α → σ → Prop} {E F : σ → Prop} {s : σ}
    (h1 : tri m Q E s) (h2 : tri m R F s) :
    tri m (fun a s' => Q a s' ∧ R a s') (fun s' => E s' ∧ F s') s := by
  intro r s' e
  have a := h1 r s' e
  have b := h2 r s' e
  cases r with
  | ok v => exact ⟨a, b⟩
  | error v => exact ⟨a, b⟩

/-- What was recorded satisfies `P`. -/
abbrev LogHas (P : G → Prop) (s : Run G κ) : Prop := ∀ e ∈ s.log, e.AllHave P

/-- Everything that can be seen, now and in the events recorded, satisfies `P`. -/
structure Lawful (P : G → Prop) (s : Run G κ) : Prop where
  log : LogHas P s
  pop : ∀ is, some is ∈ s.inds → Carry P s.w.heap is
  bestOfRun : ∀ b, s.bestOfRun = some b → Carry P s.w.heap [b]
  bestOfGen : ∀ b, s.bestOfGen = some b → Carry P s.w.heap [b]

theorem Lawful.push {s : Run G κ} (h : Lawful P s) (p n : String) : Lawful P (s.push p n) := by
  refine ⟨?_, h.pop, h.bestOfRun, h.bestOfGen⟩
  intro e he
  simp only [Run.push, List.mem_append, List.mem_singleton] at he
  rcases he with he | rfl
  · exact h.log e he
  · exact ⟨h.pop, h.bestOfRun, h.bestOfGen⟩

/-- Objects that exist keep their genomes. -/
theorem Lawful.world {s : Run G κ} (h : Lawful P s) {w : World G}
    (hg : ∀ r, r < s.w.heap.length → genomeAt w r = genomeAt s.w r) : Lawful P { s with w := w } := by
  have key : ∀ a, Carry P s.w.heap a → Carry P w.heap a := fun a ha =>
    carry_of_genomes ha fun r hr => hg r (ha.lt r hr)
  exact ⟨h.log, fun is hi => key _ (h.pop is hi), fun b hb => key _ (h.bestOfRun b hb),
    fun b hb => key _ (h.bestOfGen b hb)⟩

theorem breed_lawful {c : Cfg G κ} {sub : SubCfg G} {m : Mode} (hc : c.Ordinary sub m)
    (hp : ∀ o ∈ sub.ops, o.Preserves P) {s : Run G κ} (ha : Alive c.size m s) (h : Lawful P s) :
    tri (breed c) (fun _ s' => Lawful P s') (LogHas P) s := by
  unfold breed act
  refine tri_bind (tri_publish ?_)
  have h1 := h.push "breeder" "before_operator"
  have ha1 := ha.push (p := "breeder") (n := "before_operator") (by simp)
  generalize s.push "breeder" "before_operator" = s₁ at h1 ha1
  refine tri_bind ?_
  unfold breedBody
  refine tri_bind (tri_get ?_)
  obtain ⟨is, hi, hn, hm⟩ := ha1.pop
  refine tri_bind (tri_world (E := LogHas P) ?_ fun w => h1.log)
  rw [hc.subs, hi]
  show wlp (breedAll c.size [(sub, some is)]) _ _
  unfold breedAll
  rw [wlp_bind]
  refine ((breedSub_wlp hc.sels hc.ops hm).and (breedSub_carry hc.sels hc.ops hp hm
    (h1.pop is (by rw [hi]; simp)))).mono ?_
  rintro res w ⟨hb, hcar⟩
  unfold breedAll
  rw [wlp_bind, wlp_pure, wlp_pure]
  refine tri_modify ?_
  refine tri_bind (tri_publish (tri_pure ?_))
  have hw := h1.world (w := w) fun r hr => by unfold genomeAt; rw [hb.ext.same r hr fun h => h]
  refine Lawful.push (s := { s₁ with w := w, inds := [some res] }) ⟨hw.log, ?_, hw.bestOfRun, hw.bestOfGen⟩ _ _
  intro is' hi'
  simp only [List.mem_singleton, Option.some.injEq] at hi'
  exact hi' ▸ hcar

theorem evaluate_lawful {c : Cfg G κ} {sub : SubCfg G} {m : Mode} (hc : c.Ordinary sub m) {s : Run G κ}
    {is : List Nat} (hi : s.inds = [some is]) (hm : ∀ r ∈ is, modeAt s.w r = some m) (h : Lawful P s) :
    tri (evaluatePopulation c) (fun b s' => Lawful P s' ∧ Carry P s'.w.heap [b]) (LogHas P) s := by
  unfold evaluatePopulation act
  refine tri_bind (tri_publish ?_)
  have h1 := h.push "population_evaluator" "before_operator"
  have hi1 : (s.push "population_evaluator" "before_operator").inds = [some is] := hi
  have hm1 : ∀ r ∈ is, modeAt (s.push "population_evaluator" "before_operator").w r = some m := hm
  generalize s.push "population_evaluator" "before_operator" = s₁ at h1 hi1 hm1
  refine tri_bind ((evaluateBody_wlp hc hi1 hm1 (fun w => h1.log)).mono ?_)
  rintro b' _ ⟨w, rfl, e, hg, hl, hev, hfb⟩
  refine tri_bind (tri_publish (tri_pure ?_))
  have hw := h1.world (w := w) fun r _ => hg r
  refine ⟨hw.push _ _, ?_⟩
  exact (hw.pop is (by show some is ∈ s₁.inds; rw [hi1]; simp)).sub (by simpa using hfb.mem)

theorem recordBest_lawful {c : Cfg G κ} {s : Run G κ} {b' : Nat} (h : Lawful P s)
    (hb : Carry P s.w.heap [b']) : tri (recordBest c b') (fun _ s' => Lawful P s') (LogHas P) s := by
  unfold recordBest
  refine tri_bind (tri_get ?_)
  refine tri_bind (tri_world (E := LogHas P) ?_ fun w => h.log)
  rw [wlp_reading]
  intro v _
  refine tri_ite (fun _ => tri_modify ?_) (fun _ => tri_pure h)
  refine ⟨h.log, h.pop, fun b e => ?_, h.bestOfGen⟩
  simp only [Option.some.injEq] at e
  exact e ▸ hb

theorem recordWorst_lawful {c : Cfg G κ} {s : Run G κ} (h : Lawful P s) :
    tri (recordWorst c) (fun _ s' => Lawful P s') (LogHas P) s := by
  unfold recordWorst
  refine tri_bind (tri_get ?_)
  split
  · refine tri_bind (tri_world (E := LogHas P) ?_ fun w => h.log)
    rw [wlp_reading]
    intro w _
    exact tri_modify ⟨h.log, h.pop, h.bestOfRun, h.bestOfGen⟩
  · exact tri_raise h.log

theorem generation_lawful {c : Cfg G κ} {sub : SubCfg G} {m : Mode} (hc : c.Ordinary sub m)
    (hp : ∀ o ∈ sub.ops, o.Preserves P) {s : Run G κ} (ha : Alive c.size m s) (h : Lawful P s) :
    tri (generationIteration c) (fun _ s' => Lawful P s') (LogHas P) s := by
  unfold generationIteration
  refine tri_bind ?_
  have := tri_and (breed_alive hc ha) (breed_lawful hc hp ha h)
  intro r s₁ e
  have h1 := this r s₁ e
  cases r with
  | error _ => exact h1.2
  | ok _ =>
    obtain ⟨hb, h1⟩ := h1
    obtain ⟨is, hi, hn, hm⟩ := hb.alive.pop
    refine tri_bind ((evaluate_lawful hc hi hm h1).mono ?_)
    rintro b s₂ ⟨h2, hcb⟩
    refine tri_bind (tri_modify ?_)
    have h3 : Lawful P { s₂ with bestOfGen := some b } := ⟨h2.log, h2.pop, h2.bestOfRun, fun b' e => by
      simp only [Option.some.injEq] at e
      exact e ▸ hcb⟩
    exact tri_bind ((recordBest_lawful h3 hcb).mono fun _ s₃ h4 => recordWorst_lawful h4)

theorem shouldTerminate_same {c : Cfg G κ} {s : Run G κ} (gen : Nat) (r : Except Err Bool) (s' : Run G κ)
    (e : shouldTerminate c gen s = (r, s')) : ∃ ks, s' = { s with checkers := ks } := by
  unfold shouldTerminate at e
  split at e
  · simp only [Prod.mk.injEq] at e
    exact ⟨s.checkers, e.2.symm⟩
  · split at e
    · simp only [Prod.mk.injEq] at e
      exact ⟨_, e.2.symm⟩
    · simp only [Prod.mk.injEq] at e
      exact ⟨s.checkers, e.2.symm⟩
  · split at e
    · simp only [Prod.mk.injEq] at e
      exact ⟨_, e.2.symm⟩
    · simp only [Prod.mk.injEq] at e
      exact ⟨_, e.2.symm⟩

theorem shouldTerminate_lawful {c : Cfg G κ} {s : Run G κ} (h : Lawful P s) (gen : Nat) :
    tri (shouldTerminate c gen) (fun _ s' => Lawful P s') (LogHas P) s := by
  intro r s' e
  obtain ⟨ks, rfl⟩ := shouldTerminate_same gen r s' e
  cases r with
  | ok _ => exact ⟨h.log, h.pop, h.bestOfRun, h.bestOfGen⟩
  | error _ => exact h.log

theorem updateGen_lawful {s : Run G κ} (h : Lawful P s) {is : List Nat} (hi : s.inds = [some is]) (gen : Nat) :
    tri (updateGen gen) (fun _ s' => Lawful P s') (LogHas P) s := by
  unfold updateGen
  refine tri_bind (tri_get ?_)
  rw [hi]
  unfold forL
  refine tri_bind (tri_world (E := LogHas P) ?_ fun w => h.log)
  refine (wlp_forL (I := fun _ (w : World G) => ∀ r, genomeAt w r = genomeAt s.w r) (fun _ => rfl) ?_).mono
    fun _ w hw => ?_
  · rintro pre a post w _ hw
    rw [wlp_update]
    intro r
    rw [← hw r]
    unfold genomeAt
    simp only [List.getElem?_modify]
    cases w.heap[r]? with
    | none => rfl
    | some i => by_cases ha : a = r <;> simp [ha]
  · unfold forL
    exact tri_pure (h.world fun r _ => hw r)

theorem mainLoop_lawful {c : Cfg G κ} {sub : SubCfg G} {m : Mode} (hc : c.Ordinary sub m)
    (hp : ∀ o ∈ sub.ops, o.Preserves P) (n gen : Nat) {s : Run G κ} (ha : Alive c.size m s) (h : Lawful P s) :
    tri (mainLoop c n gen) (fun _ s' => Lawful P s') (LogHas P) s := by
  induction n generalizing gen s with
  | zero => exact tri_pure h
  | succ n ih =>
    unfold mainLoop
    refine tri_bind (tri_modify ?_)
    have ha0 : Alive c.size m { s with genNum := gen } := ⟨ha.log, ha.best, ha.pop⟩
    have h0 : Lawful P { s with genNum := gen } := ⟨h.log, h.pop, h.bestOfRun, h.bestOfGen⟩
    obtain ⟨is, hi, -⟩ := ha0.pop
    refine tri_bind ?_
    intro r s₁ e
    have g1 := tri_and (updateGen_alive ha0 gen) (updateGen_lawful h0 hi gen) r s₁ e
    cases r with
    | error _ => exact g1.2
    | ok _ =>
    obtain ⟨ha1, h1⟩ := g1
    refine tri_bind (tri_get ?_)
    refine tri_bind (tri_modify ?_)
    refine tri_bind (tri_modify ?_)
    refine tri_bind ?_
    have ha1' : Alive c.size m { s₁ with w := { s₁.w with tape := c.stream (nextSeed s₁.genSeed) }, genSeed := nextSeed s₁.genSeed } :=
      ⟨ha1.log, ha1.best, ha1.pop⟩
    have h1' : Lawful P { s₁ with w := { s₁.w with tape := c.stream (nextSeed s₁.genSeed) }, genSeed := nextSeed s₁.genSeed } :=
      ⟨h1.log, h1.pop, h1.bestOfRun, h1.bestOfGen⟩
    intro r s₂ e
    have g2 := tri_and (generation_alive hc ha1') (generation_lawful hc hp ha1' h1') r s₂ e
    cases r with
    | error _ => exact g2.2
    | ok _ =>
    obtain ⟨ha2, h2⟩ := g2
    refine tri_bind ?_
    intro r s₃ e
    have g3 := tri_and (shouldTerminate_alive ha2 gen) (shouldTerminate_lawful h2 gen) r s₃ e
    cases r with
    | error _ => exact g3.2
    | ok stop =>
    obtain ⟨ha3, h3⟩ := g3
    refine tri_ite (fun _ => ?_) (fun _ => ?_)
    · refine tri_bind (tri_modify (tri_publish ?_))
      exact Lawful.push (s := { s₃ with finalGen := some gen }) ⟨h3.log, h3.pop, h3.bestOfRun, h3.bestOfGen⟩ _ _
    · exact tri_bind (tri_publish (ih _ (ha3.push (by simp)) (h3.push _ _)))

theorem createSub_carry {sub : SubCfg G} (hcr : ∀ create ∈ sub.creators, CreatorMakes P create)
    {w : World G} (o : Option (List Nat)) (ho : ∀ is, o = some is → Carry P w.heap is) :
    wlp (createSub sub o) (fun res w' => ∀ is, res = some is → Carry P w'.heap is) w := by
  unfold createSub
  cases o with
  | some is => rw [wlp_pure]; exact ho
  | none =>
    dsimp only
    rw [wlp_bind, wlp_rand]
    intro k t _
    cases hk : sub.creators[k]? with
    | none => simp
    | some create =>
      dsimp only
      rw [wlp_bind]
      refine (hcr create (List.mem_of_getElem? hk) _ _ _).mono fun is w' h => ?_
      rw [wlp_pure]
      rintro is' e
      simp only [Option.some.injEq] at e
      exact e ▸ h

theorem initRun_lawful {c : Cfg G κ} {sub : SubCfg G} {m : Mode} (hc : c.Ordinary sub m)
    (hcr : ∀ create ∈ sub.creators, CreatorMakes P create) {s : Run G κ}
    (hr : s.Ready m) (hf : s.Starts P) :
    tri (initRun c) (fun _ s' => Lawful P s') (LogHas P) s := by
  have hempty : LogHas P s := by intro e he; rw [hf.log] at he; simp at he
  unfold initRun
  refine tri_bind (tri_get ?_)
  refine tri_bind (tri_modify ?_)
  refine tri_bind ?_
  unfold createPopulation
  refine tri_bind (tri_get ?_)
  refine tri_bind (tri_world (E := LogHas P) ?_ fun w => hempty)
  obtain ⟨o, ho, hgood⟩ : ∃ o, s.inds = [o] ∧ ∀ is, o = some is → is.Nodup ∧ ∀ r ∈ is, modeAt s.w r = some m := by
    rcases hr with h | ⟨is, h, h1, h2⟩
    · exact ⟨none, h, by simp⟩
    · exact ⟨some is, h, by rintro is' h'; cases h'; exact ⟨h1, h2⟩⟩
  rw [hc.subs]
  dsimp only
  rw [ho]
  show wlp (mapL _ [(sub, o)]) _ _
  unfold mapL
  rw [wlp_bind]
  refine ((createSub_ready hc.dir hc.creators o (w := { s.w with tape := c.stream s.randomSeed }) hgood).and
    (createSub_carry hcr o (w := { s.w with tape := c.stream s.randomSeed })
      fun is e => hf.pop is (by rw [ho, e]; simp))).mono ?_
  rintro res w ⟨⟨is, rfl, hn, hm⟩, hcar⟩
  unfold mapL
  rw [wlp_bind, wlp_pure, wlp_pure]
  refine tri_modify ?_
  have h1 : Lawful P { s with w := w, inds := [some is] } := by
    refine ⟨hempty, ?_, fun b e => ?_, fun b e => ?_⟩
    · intro is' hi'
      simp only [List.mem_singleton, Option.some.injEq] at hi'
      exact hi' ▸ hcar is rfl
    · have : s.bestOfRun = some b := e
      rw [hf.bestOfRun] at this; simp at this
    · have : s.bestOfGen = some b := e
      rw [hf.bestOfGen] at this; simp at this
  refine tri_bind ((evaluate_lawful hc (is := is) rfl hm h1).mono ?_)
  rintro b s₂ ⟨h2, hcb⟩
  refine tri_bind (tri_modify (tri_publish ?_))
  refine Lawful.push (s := { s₂ with bestOfRun := some b }) ⟨h2.log, h2.pop, fun b' e => ?_, h2.bestOfGen⟩ _ _
  simp only [Option.some.injEq] at e
  exact e ▸ hcb

theorem evolve_lawful {c : Cfg G κ} {sub : SubCfg G} {m : Mode} (hc : c.Ordinary sub m)
    (hcr : ∀ create ∈ sub.creators, CreatorMakes P create) (hp : ∀ o ∈ sub.ops, o.Preserves P)
    {s : Run G κ} (hr : s.Ready m) (hf : s.Starts P) :
    tri (evolve c) (fun _ s' => Lawful P s') (LogHas P) s := by
  unfold evolve
  refine tri_bind ?_
  intro r s₁ e
  have g1 := tri_and (initRun_alive hc hr hf.log) (initRun_lawful hc hcr hr hf) r s₁ e
  cases r with
  | error _ => exact g1.2
  | ok _ =>
  obtain ⟨ha1, h1⟩ := g1
  refine tri_bind (tri.mono (Q := fun _ s₂ => Lawful P s₂) ?_ fun _ s₂ h2 => ?_)
  · unfold afterInit
    refine tri_bind (tri_get (tri_bind ?_))
    intro r s₃ e
    have g3 := tri_and (shouldTerminate_alive ha1 s₁.genNum) (shouldTerminate_lawful h1 s₁.genNum) r s₃ e
    cases r with
    | error _ => exact g3.2
    | ok v =>
    obtain ⟨ha3, h3⟩ := g3
    refine tri_ite (fun _ => tri_bind (tri_modify (tri_publish ?_)))
      (fun _ => mainLoop_lawful hc hp _ _ ha3 h3)
    exact Lawful.push (s := { s₃ with finalGen := some 0 }) ⟨h3.log, h3.pop, h3.bestOfRun, h3.bestOfGen⟩ _ _
  · refine tri_bind (tri_publish (tri_modify ?_))
    have := h2.push "algorithm" "evolution_finished"
    exact ⟨this.log, this.pop, this.bestOfRun, this.bestOfGen⟩

/-! ## Creators -/

theorem createIndividuals_makes (empty : G) {genome : Rand G} (fit : Bool → Fit) (up : Bool)
    (hg : Post genome P) : CreatorMakes P (createIndividuals empty genome fit up) := by
  intro n hib s
  unfold createIndividuals
  rw [wlp_bind]
  refine (newInds_wp empty (fit hib) up n s).wlp.mono ?_
  rintro res s₁ ⟨h1, -⟩
  rw [wlp_bind]
  refine (wlp_forL (f := fun r => do
      let g ← rand genome
      update r fun i => { i with genome := g }) (xs := res) (s := s₁)
    (I := fun ys (s' : World G) => s'.heap.length = s₁.heap.length ∧ Carry P s'.heap ys) ⟨rfl, by simp [Carry]⟩ ?_).mono ?_
  · rintro pre r post s₂ hx ⟨hl, hc⟩
    rw [wlp_bind, wlp_rand]
    refine (hg.wlp _).mono fun g t hP => ?_
    rw [wlp_update]
    refine ⟨by simpa using hl, carry_append (carry_modify hc fun _ _ => hP) ?_⟩
    intro r' hr'
    simp only [List.mem_singleton] at hr'
    subst hr'
    have hlt : r' < s₂.heap.length := by
      rw [hl]; exact (h1.new r' (by rw [hx]; simp)).2.1
    refine ⟨{ s₂.heap[r'] with genome := g }, ?_, hP⟩
    simp [List.getElem?_eq_getElem hlt]
  · rintro _ s₂ ⟨-, h⟩
    rw [wlp_pure]
    exact h

theorem makes_and {m : Mode} {create : Nat → Bool → WM G (List Nat)} (hg : CreatorGood m create)
    (hm : CreatorMakes P create) (n : Nat) (s : World G) :
    wlp (create n m.hib) (fun res s' => NewInds m s s' res ∧ Carry P s'.heap res) s :=
  (creatorGood_iff.1 hg n s).and (hm n m.hib s)

end Verif.Evo
