import Verif.Lemmas.Lineage

/-! # The informational attributes throughout a run -/

namespace Verif.Evo
open PyM
variable {G κ : Type} {c : Cfg G κ}

/-! ## Logs -/

theorem split_unique {α : Type} {P : α → Bool} {pre mid pre' mid' : List α} {p e : α}
    (h : pre ++ p :: mid = pre' ++ e :: mid') (hp : P p = true) (he : P e = true)
    (hm : ∀ x ∈ mid, P x = false) (hm' : ∀ x ∈ mid', P x = false) : pre = pre' ∧ p = e ∧ mid = mid' := by
  rcases List.append_eq_append_iff.1 h with ⟨a, h1, h2⟩ | ⟨a, h1, h2⟩
  · cases a with
    | nil => simp only [List.append_nil, List.nil_append, List.cons.injEq] at h1 h2; exact ⟨h1.symm, h2⟩
    | cons x a =>
      simp only [List.cons_append, List.cons.injEq] at h2
      have := hm e (by rw [h2.2]; simp)
      rw [he] at this
      exact absurd this (by simp)
  · cases a with
    | nil => simp only [List.append_nil, List.nil_append, List.cons.injEq] at h1 h2; exact ⟨h1, h2.1.symm, h2.2.symm⟩
    | cons x a =>
      simp only [List.cons_append, List.cons.injEq] at h2
      have := hm' p (by rw [h2.2]; simp)
      rw [hp] at this
      exact absurd this (by simp)

theorem snoc_split {α : Type} {log pre post : List α} {x q : α} (h : log ++ [x] = pre ++ q :: post) :
    (post = [] ∧ x = q ∧ log = pre) ∨ ∃ post', post = post' ++ [x] ∧ log = pre ++ q :: post' := by
  rcases List.eq_nil_or_concat post with rfl | ⟨post', y, rfl⟩
  · have := List.append_inj_right' h rfl
    have h2 := List.append_inj_left' h rfl
    simp only [List.cons.injEq, and_true] at this
    exact .inl ⟨rfl, this, h2⟩
  · rw [List.concat_eq_append, ← List.cons_append, ← List.append_assoc] at h
    have h1 := List.append_inj_right' h rfl
    have h2 := List.append_inj_left' h rfl
    simp only [List.cons.injEq, and_true] at h1
    subst h1
    exact .inr ⟨post', by simp, h2⟩

variable {ops : List (Op G) → Prop} {A : Snapshot G → Prop} {led : List (List (Op G) × Op G)}

theorem Lineage.snoc_other {log : List (Event G)} (h : Lineage ops log) {x : Event G} (hx : x.isPoint = false) :
    Lineage ops (log ++ [x]) := by
  intro pre p mid q post he hp hq hm
  have he' : log ++ [x] = (pre ++ p :: mid) ++ q :: post := by rw [he]; simp
  rcases snoc_split he' with ⟨-, rfl, -⟩ | ⟨post', rfl, h2⟩
  · rw [hq] at hx; exact absurd hx (by simp)
  · exact h pre p mid q post' (by rw [h2]; simp) hp hq hm

theorem Opening.snoc_other {log : List (Event G)} (h : Opening A log) {x : Event G} (hx : x.isPoint = false) :
    Opening A (log ++ [x]) := by
  intro pre q post he hq hm
  rcases snoc_split he with ⟨-, rfl, -⟩ | ⟨post', rfl, h2⟩
  · rw [hq] at hx; exact absurd hx (by simp)
  · exact h pre q post' h2 hq hm

/-- `e` is the last point of the log; `n` breeding steps have ended since. -/
structure Since (ops : List (Op G) → Prop) (A : Snapshot G → Prop) (e : Event G) (n : Nat) (log : List (Event G)) : Prop where
  lineage : Lineage ops log
  opening : Opening A log
  point : e.isPoint = true
  tail : ∃ pre mid, log = pre ++ e :: mid ∧ (∀ x ∈ mid, x.isPoint = false) ∧ (mid.map Event.tag).count bredTag = n

theorem Since.other {e : Event G} {n : Nat} {log : List (Event G)} (h : Since ops A e n log) {x : Event G}
    (hx : x.isPoint = false) : Since ops A e (n + if x.tag = bredTag then 1 else 0) (log ++ [x]) := by
  obtain ⟨h1, h2, h3, pre, mid, h4, h5, h6⟩ := h
  refine ⟨h1.snoc_other hx, h2.snoc_other hx, h3, pre, mid ++ [x], by rw [h4]; simp, ?_, ?_⟩
  · intro y hy
    rcases List.mem_append.1 hy with hy | hy
    · exact h5 y hy
    · rw [List.mem_singleton.1 hy]; exact hx
  · rw [List.map_append, List.count_append, h6, List.map_cons, List.map_nil, List.count_singleton]
    simp only [beq_iff_eq]

/-- A point with one breeding step since the last. -/
theorem Since.next {e : Event G} {log : List (Event G)} (h : Since ops A e 1 log) {q : Event G}
    (hq : q.isPoint = true) (hg : Generation ops e.snap q.snap) : Since ops A q 0 (log ++ [q]) := by
  obtain ⟨h1, h2, h3, pre, mid, h4, h5, h6⟩ := h
  refine ⟨?_, ?_, hq, log, [], rfl, by simp, rfl⟩
  · intro pre' p' mid' q' post' he hp' hq' hm'
    have he' : log ++ [q] = (pre' ++ p' :: mid') ++ q' :: post' := by rw [he]; simp
    rcases snoc_split he' with ⟨-, rfl, hl⟩ | ⟨post'', rfl, hl⟩
    · obtain ⟨-, rfl, rfl⟩ := split_unique (P := Event.isPoint) (hl.symm.trans h4) hp' h3 hm' h5
      exact .inr ⟨h6, hg⟩
    · exact h1 pre' p' mid' q' post'' (by rw [hl]; simp) hp' hq' hm'
  · intro pre' q' post' he hq' hm'
    rcases snoc_split he with ⟨-, rfl, hl⟩ | ⟨post'', rfl, hl⟩
    · have := hm' e (by rw [← hl, h4]; simp)
      rw [h3] at this
      exact absurd this (by simp)
    · exact h2 pre' q' post'' hl hq' hm'

/-- A point right after another one, with the same view. -/
theorem Since.again {e : Event G} {log : List (Event G)} (h1 : Lineage ops (log ++ [e])) (h2 : Opening A (log ++ [e]))
    (h3 : e.isPoint = true) {q : Event G}
    (hq : q.isPoint = true) (hs : q.snap = e.snap) : Since ops A q 0 (log ++ [e] ++ [q]) := by
  refine ⟨?_, ?_, hq, log ++ [e], [], rfl, by simp, rfl⟩
  · intro pre' p' mid' q' post' he hp' hq' hm'
    have he' : log ++ [e] ++ [q] = (pre' ++ p' :: mid') ++ q' :: post' := by rw [he]; simp
    rcases snoc_split he' with ⟨-, rfl, hl⟩ | ⟨post'', rfl, hl⟩
    · obtain ⟨-, rfl, rfl⟩ := split_unique (P := Event.isPoint) hl.symm hp' h3 hm' (by simp)
      exact .inl ⟨rfl, hs⟩
    · exact h1 pre' p' mid' q' post'' (by rw [hl]; simp) hp' hq' hm'
  · intro pre' q' post' he hq' hm'
    rcases snoc_split he with ⟨-, rfl, hl⟩ | ⟨post'', rfl, hl⟩
    · have := hm' e (by rw [← hl]; simp)
      rw [h3] at this
      exact absurd this (by simp)
    · exact h2 pre' q' post'' hl hq' hm'

/-! ## One generation -/

/-- What is recorded is in order, whatever happened then. -/
structure Chronicle (ops : List (Op G) → Prop) (A : Snapshot G → Prop) (s : Run G κ) : Prop where
  lineage : Lineage ops s.log
  opening : Opening A s.log

theorem Since.chronicle {e : Event G} {n : Nat} {s : Run G κ} (h : Since ops A e n s.log) : Chronicle ops A s :=
  ⟨h.lineage, h.opening⟩

/-- The population consists of children of `is`. -/
def Offspring (ops : List (Op G) → Prop) (w : World G) (is : List Nat) (s' : Run G κ) : Prop :=
  ∃ res, s'.inds = [some res] ∧ res.length = is.length ∧ ∀ k r, res[k]? = some r →
    ∃ src ∈ is, ∃ j i, w.heap[src]? = some j ∧ s'.w.heap[r]? = some i ∧
      Child ops (res.map (idAt s'.w.heap)) k j i ∧ i.gen = j.gen ∧ w.nextId ≤ i.id

theorem Child.congr {ids : List Nat} {k : Nat} {j i i' : Ind G} (h : Child ops ids k j i) (e : i'.papers = i.papers) :
    Child ops ids k j i' := by
  obtain ⟨h1, h2, h3, h4⟩ := h
  have e1 : i'.clonedFrom = i.clonedFrom := congrArg Papers.clonedFrom e
  have e2 : i'.updateParents = i.updateParents := congrArg Papers.updateParents e
  have e3 : i'.selectedBy = i.selectedBy := congrArg Papers.selectedBy e
  have e4 : i'.appliedOps = i.appliedOps := congrArg Papers.appliedOps e
  have e5 : i'.parents = i.parents := congrArg Papers.parents e
  exact ⟨e1.trans h1, e2.trans h2, by rw [e3]; exact h3, by rw [e4, e5]; exact h4⟩

theorem Offspring.congr {w : World G} {is : List Nat} {s s' : Run G κ} (h : Offspring ops w is s)
    (hi : s'.inds = s.inds) (hp : s'.w.heap.map Ind.papers = s.w.heap.map Ind.papers) : Offspring ops w is s' := by
  obtain ⟨res, h1, h2, h3⟩ := h
  refine ⟨res, hi.trans h1, h2, fun k r hk => ?_⟩
  obtain ⟨src, hs, j, i, hj, hri, hc, hg, hn⟩ := h3 k r hk
  have hpr := papersAt_eq hp r
  unfold papersAt at hpr
  rw [hri, Option.map_some] at hpr
  obtain ⟨i', hi', he⟩ := Option.map_eq_some_iff.1 hpr
  have hids : res.map (idAt s'.w.heap) = res.map (idAt s.w.heap) :=
    List.map_congr_left fun r _ => idAt_eq (papersAt_eq hp r)
  refine ⟨src, hs, j, i', hj, hi', ?_, (congrArg Papers.gen he).trans hg, ?_⟩
  · rw [hids]; exact hc.congr he
  · have : i'.id = i.id := congrArg Papers.id he
    omega

variable {sub : SubCfg G} {m : Mode}

theorem evaluateBody_papers (hc : c.Ordinary sub m) {s : Run G κ} {is : List Nat} (hi : s.inds = [some is])
    (hm : ∀ r ∈ is, modeAt s.w r = some m) {E : Run G κ → Prop} (hE : ∀ w, E { s with w := w }) :
    tri (evaluateBody c) (fun _ s' => ∃ w, s' = { s with w := w } ∧ w.heap.map Ind.papers = s.w.heap.map Ind.papers ∧
      (s.w.WF → w.WF)) E s := by
  intro r s' e
  have g1 := evaluateBody_wlp hc hi hm hE r s' e
  have g2 : tri (evaluateBody c) (fun _ s' => ∃ w, s' = { s with w := w } ∧ w.heap.map Ind.papers = s.w.heap.map Ind.papers) (fun _ => True) s := by
    unfold evaluateBody
    refine tri_bind (tri_get ?_)
    rw [hc.subs, hi]
    dsimp only
    refine tri_ite (fun _ => tri_raise trivial) fun _ => tri_world ?_ fun _ => trivial
    rw [hc.map]
    simp only [Bool.false_eq_true, if_false]
    exact (evaluateMap_papers _ _ _ _ _).mono fun b w h => ⟨w, by rw [hi], h⟩
  have g3 := g2 r s' e
  cases r with
  | error _ => exact g1
  | ok b =>
    obtain ⟨w, rfl, hx, -⟩ := g1
    obtain ⟨w', he, hp⟩ := g3
    have : w = w' := congrArg Run.w he
    subst this
    exact ⟨w, rfl, hp, hx.wf⟩

theorem generation_lineage (hc : c.Ordinary sub m) (hl : led.map Prod.snd = sub.ops) (hd : ∀ x ∈ led, x.2.Discloses x.1) {s : Run G κ} {e : Event G}
    {is : List Nat} (hi : s.inds = [some is]) (hm : ∀ r ∈ is, modeAt s.w r = some m)
    (hs : Since (Applied led) A e 0 s.log) :
    tri (generationIteration c) (fun _ s' => Since (Applied led) A e 1 s'.log ∧ s'.genNum = s.genNum ∧
      (s.w.WF → s'.w.WF) ∧ Offspring (Applied led) s.w is s') (Chronicle (Applied led) A) s := by
  unfold generationIteration
  refine tri_bind ?_
  unfold breed act
  refine tri_bind (tri_publish ?_)
  have hs1 : Since (Applied led) A e 0 (s.push "breeder" "before_operator").log := by
    have := hs.other (x := ⟨"breeder", "before_operator", s.snapshot⟩) (by simp [Event.isPoint, Event.tag])
    simp [Event.tag, bredTag] at this
    exact this
  have hi1 : (s.push "breeder" "before_operator").inds = [some is] := hi
  have hw1 : (s.push "breeder" "before_operator").w = s.w := rfl
  have hn1 : (s.push "breeder" "before_operator").genNum = s.genNum := rfl
  generalize s.push "breeder" "before_operator" = s₁ at hs1 hi1 hw1 hn1
  refine tri_bind ?_
  unfold breedBody
  refine tri_bind (tri_get ?_)
  refine tri_bind (tri_world (E := Chronicle (Applied led) A) ?_ fun w => ⟨hs1.lineage, hs1.opening⟩)
  rw [hc.subs, hi1, hw1]
  show wlp (breedAll c.size [(sub, some is)]) _ _
  unfold breedAll
  rw [wlp_bind]
  refine ((breedSub_wlp hc.sels hc.ops hm).and (breedSub_papers (size := c.size) hc.sels hl hd hm)).mono fun res w ⟨hb, hpap⟩ => ?_
  unfold breedAll
  rw [wlp_bind, wlp_pure, wlp_pure]
  refine tri_modify ?_
  refine tri_bind (tri_publish ?_)
  refine tri_pure ?_
  have hs2 : Since (Applied led) A e 1 (({ s₁ with w := w, inds := [some res] } : Run G κ).push "breeder" "after_operator").log := by
    have := hs1.other (x := ⟨"breeder", "after_operator", ({ s₁ with w := w, inds := [some res] } : Run G κ).snapshot⟩)
      (by simp [Event.isPoint, Event.tag])
    simp [Event.tag, bredTag] at this
    exact this
  have hoff : Offspring (Applied led) s.w is (({ s₁ with w := w, inds := [some res] } : Run G κ).push "breeder" "after_operator") :=
    ⟨res, rfl, hb.length, hpap⟩
  have hi2 : (({ s₁ with w := w, inds := [some res] } : Run G κ).push "breeder" "after_operator").inds = [some res] := rfl
  have hm2 : ∀ r ∈ res, modeAt (({ s₁ with w := w, inds := [some res] } : Run G κ).push "breeder" "after_operator").w r = some m := hb.mode
  have hn2 : (({ s₁ with w := w, inds := [some res] } : Run G κ).push "breeder" "after_operator").genNum = s.genNum := hn1
  have hf2 : s.w.WF → (({ s₁ with w := w, inds := [some res] } : Run G κ).push "breeder" "after_operator").w.WF := hb.ext.wf
  generalize ({ s₁ with w := w, inds := [some res] } : Run G κ).push "breeder" "after_operator" = s₂ at hs2 hoff hi2 hm2 hn2 hf2
  refine tri_bind ?_
  unfold evaluatePopulation act
  refine tri_bind (tri_publish ?_)
  have hs3 : Since (Applied led) A e 1 (s₂.push "population_evaluator" "before_operator").log := by
    have := hs2.other (x := ⟨"population_evaluator", "before_operator", s₂.snapshot⟩) (by simp [Event.isPoint, Event.tag])
    simp [Event.tag, bredTag] at this
    exact this
  refine tri_bind ((evaluateBody_papers (s := s₂.push "population_evaluator" "before_operator") hc hi2 hm2
    (E := Chronicle (Applied led) A) (fun w => ⟨hs3.lineage, hs3.opening⟩)).mono ?_)
  rintro b _ ⟨w', rfl, hp', hf'⟩
  refine tri_bind (tri_publish (tri_pure ?_))
  have hs4 : Since (Applied led) A e 1 (({ s₂.push "population_evaluator" "before_operator" with w := w' } : Run G κ).push "population_evaluator" "after_operator").log := by
    have := hs3.other (x := ⟨"population_evaluator", "after_operator", ({ s₂.push "population_evaluator" "before_operator" with w := w' } : Run G κ).snapshot⟩)
      (by simp [Event.isPoint, Event.tag])
    simp [Event.tag, bredTag] at this
    exact this
  have hoff4 : Offspring (Applied led) s.w is (({ s₂.push "population_evaluator" "before_operator" with w := w' } : Run G κ).push "population_evaluator" "after_operator") :=
    hoff.congr rfl hp'
  have hn4 : (({ s₂.push "population_evaluator" "before_operator" with w := w' } : Run G κ).push "population_evaluator" "after_operator").genNum = s.genNum := hn2
  have hf4 : s.w.WF → (({ s₂.push "population_evaluator" "before_operator" with w := w' } : Run G κ).push "population_evaluator" "after_operator").w.WF :=
    fun h => hf' (hf2 h)
  generalize ({ s₂.push "population_evaluator" "before_operator" with w := w' } : Run G κ).push "population_evaluator" "after_operator" = s₃ at hs4 hoff4 hn4 hf4
  refine tri_bind (tri_modify ?_)
  refine tri_bind ?_
  unfold recordBest
  refine tri_bind (tri_get ?_)
  refine tri_bind (tri_world (E := Chronicle (Applied led) A) ?_ fun w => ⟨hs4.lineage, hs4.opening⟩)
  rw [wlp_reading]
  intro v _
  have last : ∀ s₅ : Run G κ, s₅.log = s₃.log → s₅.w = s₃.w → s₅.inds = s₃.inds → s₅.genNum = s₃.genNum →
      tri (recordWorst c) (fun _ s' => Since (Applied led) A e 1 s'.log ∧ s'.genNum = s.genNum ∧
        (s.w.WF → s'.w.WF) ∧ Offspring (Applied led) s.w is s') (Chronicle (Applied led) A) s₅ := by
    intro s₅ e1 e2 e3 e4
    have hc5 : Chronicle (Applied led) A s₅ := ⟨e1 ▸ hs4.lineage, e1 ▸ hs4.opening⟩
    unfold recordWorst
    refine tri_bind (tri_get ?_)
    split
    · refine tri_bind (tri_world (E := Chronicle (Applied led) A) ?_ fun w => ⟨hc5.lineage, hc5.opening⟩)
      rw [wlp_reading]
      intro x _
      refine tri_modify ⟨?_, ?_, ?_, hoff4.congr e3 (by rw [show ({ s₅ with w := s₅.w, worstOfGen := some x } : Run G κ).w = s₃.w from e2])⟩
      · show Since (Applied led) A e 1 s₅.log
        rw [e1]; exact hs4
      · exact e4.trans hn4
      · intro h
        show s₅.w.WF
        rw [e2]; exact hf4 h
    · exact tri_raise hc5
  refine tri_ite (fun _ => tri_modify (last _ rfl rfl rfl rfl)) (fun _ => tri_pure (last _ rfl rfl rfl rfl))

theorem updateGen_wlp {s : Run G κ} {is : List Nat} (hi : s.inds = [some is]) (gen : Nat) {E : Run G κ → Prop}
    (hE : ∀ w, E { s with w := w }) :
    tri (updateGen gen) (fun _ s' => ∃ w, s' = { s with w := w } ∧ w.nextId = s.w.nextId ∧ Ext (· ∈ is) s.w w ∧
      ∀ r, w.heap[r]? = (s.w.heap[r]?).map fun i => if r ∈ is then { i with gen := gen } else i) E s := by
  unfold updateGen
  refine tri_bind (tri_get ?_)
  rw [hi]
  unfold forL
  refine tri_bind (tri_world (E := E) ?_ hE)
  refine ((setGen_papers gen is s.w).and (updates_ext (fun r : Nat => r) (fun _ i => { i with gen := gen })
    (fun _ _ => rfl) is s.w)).mono ?_
  rintro _ w ⟨⟨h1, -, h2⟩, h3, -⟩
  unfold forL
  exact tri_pure ⟨w, by rw [hi], h1, h3.mono (by rintro r - ⟨a, ha, rfl⟩; exact ha), h2⟩

theorem shouldTerminate_checkers (c : Cfg G κ) (gen : Nat) (s : Run G κ) {r : Except Err Bool} {s' : Run G κ}
    (e : shouldTerminate c gen s = (r, s')) : ∃ ks, s' = { s with checkers := ks } := by
  unfold shouldTerminate at e
  split at e
  · simp only [Prod.mk.injEq] at e
    exact ⟨s.checkers, e.2.symm⟩
  · split at e
    · simp only [Prod.mk.injEq] at e
      exact ⟨_, e.2.symm⟩
    · simp only [Prod.mk.injEq] at e
      exact ⟨s.checkers, e.2.symm⟩
  · split at e <;> simp only [Prod.mk.injEq] at e <;> exact ⟨_, e.2.symm⟩

/-- What is seen at the end of a generation. -/
theorem offspring_generation {s s₁ s₂ : Run G κ} {e : Event G} {is : List Nat} {gen : Nat}
    (hi : s.inds = [some is]) (hei : e.snap.inds = s.inds) (heh : e.snap.heap = s.w.heap) (hwf : s.w.WF)
    (hn : s₁.w.nextId = s.w.nextId)
    (hw : ∀ r, s₁.w.heap[r]? = (s.w.heap[r]?).map fun i => if r ∈ is then { i with gen := gen } else i)
    (h : Offspring ops s₁.w is s₂) (hg : s₂.genNum = gen) : Generation ops e.snap s₂.snapshot := by
  obtain ⟨res, h1, h2, h3⟩ := h
  refine ⟨is, res, hei.trans hi, h1, h2, fun k r hk => ?_⟩
  obtain ⟨src, hs, j, i, hj, hri, hc, hgen, hid⟩ := h3 k r hk
  rw [hw src] at hj
  obtain ⟨j₀, hj₀, rfl⟩ := Option.map_eq_some_iff.1 hj
  rw [if_pos hs] at hc hgen
  refine ⟨src, hs, j₀, i, by rw [heh]; exact hj₀, hri, ⟨hc.clonedFrom, hc.updateParents, hc.selectedBy, hc.applied⟩, ?_, fun x hx => ?_⟩
  · rw [hgen]; exact hg.symm
  · rw [heh] at hx
    have := hwf.below x hx
    omega

theorem mainLoop_lineage (hc : c.Ordinary sub m) (hl : led.map Prod.snd = sub.ops) (hd : ∀ x ∈ led, x.2.Discloses x.1) (n gen : Nat) {s : Run G κ}
    {e : Event G} {is : List Nat} (hi : s.inds = [some is]) (hm : ∀ r ∈ is, modeAt s.w r = some m)
    (ha : Alive c.size m s) (hwf : s.w.WF)
    (hei : e.snap.inds = s.inds) (heh : e.snap.heap = s.w.heap) (hs : Since (Applied led) A e 0 s.log) :
    tri (mainLoop c n gen) (fun _ s' => Chronicle (Applied led) A s') (Chronicle (Applied led) A) s := by
  induction n generalizing gen s e is with
  | zero => exact tri_pure hs.chronicle
  | succ n ih =>
    unfold mainLoop
    refine tri_bind (tri_modify ?_)
    have h0 : Alive c.size m { s with genNum := gen } := ⟨ha.log, ha.best, ha.pop⟩
    refine tri_bind ?_
    intro r s₁ er
    have g1 := updateGen_alive h0 gen r s₁ er
    have g2 := updateGen_wlp (s := { s with genNum := gen }) hi gen (E := Chronicle (Applied led) A) (fun w => ⟨hs.lineage, hs.opening⟩) r s₁ er
    cases r with
    | error _ => exact g2
    | ok _ =>
    obtain ⟨w, rfl, hnext, hext, hheap⟩ := g2
    refine tri_bind (tri_get ?_)
    refine tri_bind (tri_modify ?_)
    refine tri_bind (tri_modify ?_)
    refine tri_bind ?_
    have hal : Alive c.size m ({ s with genNum := gen, w := { w with tape := c.stream (nextSeed s.genSeed) }, genSeed := nextSeed s.genSeed } : Run G κ) :=
      ⟨g1.log, g1.best, g1.pop⟩
    have hm1 : ∀ r ∈ is, modeAt { w with tape := c.stream (nextSeed s.genSeed) } r = some m := by
      intro r hr
      have := modeAt_ext hext (modeAt_lt (hm r hr))
      exact this.trans (hm r hr)
    intro r s₂ er
    have g3 := generation_alive hc hal r s₂ er
    have g4 := generation_lineage (s := { s with genNum := gen, w := { w with tape := c.stream (nextSeed s.genSeed) }, genSeed := nextSeed s.genSeed }) hc hl hd hi hm1 hs r s₂ er
    cases r with
    | error _ => exact g4
    | ok _ =>
    obtain ⟨hs2, hg2, hf2, hoff⟩ := g4
    have hwf2 : s₂.w.WF := hf2 (by
      have := hext.wf hwf
      exact ⟨this.sorted, this.below⟩)
    have hgen : Generation (Applied led) e.snap s₂.snapshot :=
      offspring_generation (s₁ := { s with genNum := gen, w := { w with tape := c.stream (nextSeed s.genSeed) }, genSeed := nextSeed s.genSeed })
        hi hei heh hwf hnext hheap hoff hg2
    refine tri_bind ?_
    intro r s₃ er
    obtain ⟨ks, rfl⟩ := shouldTerminate_checkers c gen s₂ er
    cases r with
    | error _ => exact ⟨hs2.lineage, hs2.opening⟩
    | ok stop =>
    refine tri_ite (fun _ => ?_) (fun _ => ?_)
    · refine tri_bind (tri_modify (tri_publish ?_))
      have := hs2.next (q := ⟨"algorithm", "after_generation", ({ s₂ with checkers := ks, finalGen := some gen } : Run G κ).snapshot⟩)
        (by simp [Event.isPoint, Event.tag]) hgen
      exact ⟨this.lineage, this.opening⟩
    · refine tri_bind (tri_publish ?_)
      have hs3 := hs2.next (q := ⟨"algorithm", "after_generation", ({ s₂ with checkers := ks } : Run G κ).snapshot⟩)
        (by simp [Event.isPoint, Event.tag]) hgen
      have ha3 : Alive c.size m (({ s₂ with checkers := ks } : Run G κ).push "algorithm" "after_generation") :=
        Alive.push (s := { s₂ with checkers := ks }) ⟨g3.log, g3.best, g3.pop⟩ (by simp)
      obtain ⟨is3, hi3, -, hm3⟩ := ha3.pop
      exact ih (gen + 1) (s := ({ s₂ with checkers := ks } : Run G κ).push "algorithm" "after_generation") hi3 hm3 ha3 hwf2 rfl rfl hs3

/-! ## The initialisation -/

theorem createSub_wf {w : World G} (hd : m.hib = sub.hib) (hcr : ∀ create ∈ sub.creators, CreatorGood m create)
    (o : Option (List Nat)) : wlp (createSub sub o) (fun _ w' => w.WF → w'.WF) w := by
  unfold createSub
  cases o with
  | some is => rw [wlp_pure]; exact id
  | none =>
    dsimp only
    rw [wlp_bind, wlp_rand]
    intro k t _
    cases hk : sub.creators[k]? with
    | none => simp
    | some create =>
      dsimp only
      rw [wlp_bind, ← hd]
      refine (hcr create (List.mem_of_getElem? hk) _ _).mono ?_
      rintro is w' ⟨hx, -⟩
      rw [wlp_pure]
      exact fun h => hx.wf ⟨h.sorted, h.below⟩

theorem createSub_files {w : World G} {up : Bool} (hcr : ∀ create ∈ sub.creators, CreatorFiles up create) :
    wlp (createSub sub none) (fun res w' => ∀ is, res = some is → ∀ r ∈ is, ∃ id, papersAt w'.heap r =
      some ⟨id, 0, -1, [], [], up, []⟩) w := by
  unfold createSub
  dsimp only
  rw [wlp_bind, wlp_rand]
  intro k t _
  cases hk : sub.creators[k]? with
  | none => simp
  | some create =>
    dsimp only
    rw [wlp_bind]
    refine (hcr create (List.mem_of_getElem? hk) _ _ _).mono ?_
    intro is w' h
    rw [wlp_pure]
    rintro is' h'
    simp only [Option.some.injEq] at h'
    subst h'
    exact h

/-- The `init` event is the last one, and shows the present state. -/
structure Opened (ops : List (Op G) → Prop) (A : Snapshot G → Prop) (s : Run G κ) : Prop where
  wf : s.w.WF
  log : ∃ pre e, s.log = pre ++ [e] ∧ e.tag = ("algorithm", "init") ∧ e.snap = s.snapshot ∧ Since ops A e 0 s.log

theorem initRun_lineage (hc : c.Ordinary sub m) {s : Run G κ} (hr : s.Ready m) (hwf : s.w.WF) (hlog : s.log = [])
    (hA : ∀ s₁ : Run G κ, (s.inds = [none] → ∀ up, (∀ create ∈ sub.creators, CreatorFiles up create) →
      Newborns up s₁.snapshot) → A s₁.snapshot) :
    tri (initRun c) (fun _ s' => Opened (Applied led) A s') (Chronicle (Applied led) A) s := by
  have h0 : Chronicle (Applied led) A s := by
    constructor
    · intro pre p mid q post h; rw [hlog] at h; simp at h
    · intro pre q post h; rw [hlog] at h; simp at h
  unfold initRun
  refine tri_bind (tri_get (tri_bind (tri_modify ?_)))
  refine tri_bind ?_
  unfold createPopulation
  refine tri_bind (tri_get ?_)
  refine tri_bind (tri_world (E := Chronicle (Applied led) A) ?_ fun w => ⟨h0.lineage, h0.opening⟩)
  obtain ⟨o, ho, hgood⟩ : ∃ o, s.inds = [o] ∧ ∀ is, o = some is → is.Nodup ∧ ∀ r ∈ is, modeAt s.w r = some m := by
    rcases hr with h | ⟨is, h, h1, h2⟩
    · exact ⟨none, h, by simp⟩
    · exact ⟨some is, h, by rintro is' h'; cases h'; exact ⟨h1, h2⟩⟩
  rw [hc.subs]
  dsimp only
  rw [ho]
  show wlp (mapL _ [(sub, o)]) _ _
  unfold mapL
  rw [wlp_bind]
  have hfiles : wlp (createSub sub o) (fun res w' => o = none → ∀ up, (∀ create ∈ sub.creators, CreatorFiles up create) →
      ∀ is, res = some is → ∀ r ∈ is, ∃ id, papersAt w'.heap r = some ⟨id, 0, -1, [], [], up, []⟩)
      ({ s.w with tape := c.stream s.randomSeed } : World G) := by
    cases o with
    | some is => exact (wlp_true _ _).mono fun _ _ _ h => absurd h (by simp)
    | none =>
      intro res w' e _ up hcr
      exact createSub_files hcr res w' e
  refine (((createSub_ready hc.dir hc.creators o (w := { s.w with tape := c.stream s.randomSeed }) hgood).and
    (createSub_wf hc.dir hc.creators o)).and hfiles).mono ?_
  rintro res w ⟨⟨⟨is, rfl, hn, hm⟩, hwf'⟩, hfil⟩
  unfold mapL
  rw [wlp_bind, wlp_pure, wlp_pure]
  refine tri_modify ?_
  refine tri_bind ?_
  unfold evaluatePopulation act
  refine tri_bind (tri_publish ?_)
  have snoc : ∀ {s₁ s₂ : Run G κ} (x : Event G), Chronicle (Applied led) A s₁ → x.isPoint = false → s₂.log = s₁.log ++ [x] → Chronicle (Applied led) A s₂ := by
    intro s₁ s₂ x h hx hl
    exact ⟨hl ▸ h.lineage.snoc_other hx, hl ▸ h.opening.snoc_other hx⟩
  have h1 : ∀ w', Chronicle (Applied led) A ({ (({ s with w := w, inds := [some is] } : Run G κ).push "population_evaluator" "before_operator") with w := w' } : Run G κ) :=
    fun w' => snoc ⟨"population_evaluator", "before_operator", _⟩ h0 (by simp [Event.isPoint, Event.tag]) rfl
  refine tri_bind ((evaluateBody_papers (s := ({ s with w := w, inds := [some is] } : Run G κ).push "population_evaluator" "before_operator")
    hc (is := is) rfl hm (E := Chronicle (Applied led) A) h1).mono ?_)
  rintro b _ ⟨w', rfl, hp', hf'⟩
  refine tri_bind (tri_publish (tri_pure ?_))
  refine tri_bind (tri_modify (tri_publish ?_))
  have hwf2 : w'.WF := hf' (hwf' ⟨hwf.sorted, hwf.below⟩)
  set s₁ : Run G κ := ({ (({ s with w := w, inds := [some is] } : Run G κ).push "population_evaluator" "before_operator") with w := w' } : Run G κ).push
    "population_evaluator" "after_operator" with hs₁
  have h2 : Chronicle (Applied led) A s₁ := snoc ⟨"population_evaluator", "after_operator", _⟩ (h1 w') (by simp [Event.isPoint, Event.tag]) rfl
  have hl1 : s₁.log = [⟨"population_evaluator", "before_operator", ({ s with w := w, inds := [some is] } : Run G κ).snapshot⟩,
      ⟨"population_evaluator", "after_operator", ({ (({ s with w := w, inds := [some is] } : Run G κ).push "population_evaluator" "before_operator") with w := w' } : Run G κ).snapshot⟩] := by
    show s.log ++ [_] ++ [_] = _
    rw [hlog]; rfl
  have hpt : (⟨"algorithm", "init", ({ s₁ with bestOfRun := some b } : Run G κ).snapshot⟩ : Event G).isPoint = true := by
    simp [Event.isPoint, Event.tag]
  refine ⟨hwf2, s₁.log, ⟨"algorithm", "init", ({ s₁ with bestOfRun := some b } : Run G κ).snapshot⟩, rfl, rfl, rfl, ?_, ?_, hpt, s₁.log, [], rfl, by simp, rfl⟩
  · intro pre' p' mid' q' post' he hp hq hmid
    exfalso
    have he' : s₁.log ++ [⟨"algorithm", "init", ({ s₁ with bestOfRun := some b } : Run G κ).snapshot⟩] = pre' ++ p' :: (mid' ++ q' :: post') := he
    rcases snoc_split he' with ⟨h, -, -⟩ | ⟨post'', h3, h4⟩
    · simp at h
    · have : p' ∈ s₁.log := by rw [h4]; simp
      rw [hl1] at this
      simp only [List.mem_cons, List.not_mem_nil, or_false] at this
      rcases this with rfl | rfl <;> simp [Event.isPoint, Event.tag] at hp
  · intro pre' q' post' he hq hpre
    have he' : s₁.log ++ [⟨"algorithm", "init", ({ s₁ with bestOfRun := some b } : Run G κ).snapshot⟩] = pre' ++ q' :: post' := he
    rcases snoc_split he' with ⟨rfl, rfl, hl⟩ | ⟨post'', h3, h4⟩
    · refine ⟨rfl, ?_, hA _ ?_⟩
      · rw [← hl, hl1]; simp [Event.tag, bredTag]
      · intro hnone up hcr is' his' r hr
        have hoo : o = none := by rw [ho] at hnone; simpa using hnone
        simp only [Run.snapshot] at his' ⊢
        have : some is' ∈ [some is] := his'
        simp only [List.mem_singleton, Option.some.injEq] at this
        subst this
        obtain ⟨id, hid⟩ := hfil hoo up hcr is' rfl r hr
        exact ⟨id, (papersAt_eq hp' r).trans hid⟩
    · have : q' ∈ s₁.log := by rw [h4]; simp
      rw [hl1] at this
      simp only [List.mem_cons, List.not_mem_nil, or_false] at this
      rcases this with rfl | rfl <;> simp [Event.isPoint, Event.tag] at hq

/-- Everything a run records is in order. -/
theorem evolve_lineage (hc : c.Ordinary sub m) (ht : led.map Prod.snd = sub.ops) (hd : ∀ x ∈ led, x.2.Discloses x.1) {s : Run G κ} (hr : s.Ready m)
    (hwf : s.w.WF) (hlog : s.log = [])
    (hA : ∀ s₁ : Run G κ, (s.inds = [none] → ∀ up, (∀ create ∈ sub.creators, CreatorFiles up create) →
      Newborns up s₁.snapshot) → A s₁.snapshot) :
    tri (evolve c) (fun _ s' => Chronicle (Applied led) A s') (Chronicle (Applied led) A) s := by
  unfold evolve
  refine tri_bind ?_
  intro r s₁ er
  have g1 := initRun_alive hc hr hlog r s₁ er
  have g2 := initRun_lineage (A := A) (led := led) hc hr hwf hlog hA r s₁ er
  cases r with
  | error _ => exact g2
  | ok _ =>
  obtain ⟨hwf1, pre, e, hl, htag, hsnap, hsince⟩ := g2
  refine tri_bind ?_
  refine tri.mono (Q := fun _ s' => Chronicle (Applied led) A s') ?_ ?_
  · unfold afterInit
    refine tri_bind (tri_get (tri_bind ?_))
    intro r s₂ er
    obtain ⟨ks, rfl⟩ := shouldTerminate_checkers c _ s₁ er
    cases r with
    | error _ => exact ⟨hsince.lineage, hsince.opening⟩
    | ok stop =>
    refine tri_ite (fun _ => ?_) (fun _ => ?_)
    · refine tri_bind (tri_modify (tri_publish ?_))
      have := Since.again (q := ⟨"algorithm", "after_generation", ({ s₁ with checkers := ks, finalGen := some 0 } : Run G κ).snapshot⟩)
        (hl ▸ hsince.lineage) (hl ▸ hsince.opening) hsince.point (by simp [Event.isPoint, Event.tag]) hsnap.symm
      rw [← hl] at this
      exact ⟨this.lineage, this.opening⟩
    · obtain ⟨is, hi, -, hm⟩ := g1.pop
      exact mainLoop_lineage hc ht hd c.maxGen 1 (s := { s₁ with checkers := ks }) hi hm ⟨g1.log, g1.best, g1.pop⟩ hwf1
        (by rw [hsnap]; rfl) (by rw [hsnap]; rfl) hsince
  · intro _ s₃ h3
    refine tri_bind (tri_publish (tri_modify ?_))
    exact ⟨h3.lineage.snoc_other (by simp [Event.isPoint, Event.tag]), h3.opening.snoc_other (by simp [Event.isPoint, Event.tag])⟩

end Verif.Evo
