import Verif.Lemmas.LineageRun
import Verif.Spec.Library
import Verif.Props.Run
import Verif.Props.History

/-! # C45, C92, C93, C94: what `gen`, `selected_by`, `applied_operators`, `parents` and `cloned_from` tell -/

namespace Verif.Evo
open PyM
variable {G κ : Type} {c : Cfg G κ} {s s' : Run G κ} {sub : SubCfg G} {m : Mode}

/-! ## Creators file their individuals properly -/

theorem papersAt_append {h l : List (Ind G)} {r : Nat} {p : Papers} (hr : papersAt h r = some p) :
    papersAt (h ++ l) r = some p := by
  unfold papersAt at *
  obtain ⟨i, hi, he⟩ := Option.map_eq_some_iff.1 hr
  rw [List.getElem?_append_left (List.getElem?_eq_some_iff.1 hi).1, hi, Option.map_some, he]

theorem createIndividuals_files (empty : G) (genome : Rand G) (fit : Bool → Fit) (up : Bool) :
    CreatorFiles up (createIndividuals empty genome fit up) := by
  intro n h s
  unfold createIndividuals
  rw [wlp_bind]
  refine (wlp_mapL (I := fun _ res (s' : World G) => ∀ r ∈ res, ∃ id, papersAt s'.heap r =
    some ⟨id, 0, -1, [], [], up, []⟩) (by simp) ?_).mono ?_
  · intro pre x post ys s₁ _ hI
    rw [wlp_newInd]
    intro r hr
    rcases List.mem_append.1 hr with hr | hr
    · exact (hI r hr).imp fun id h => papersAt_append h
    · rw [List.mem_singleton] at hr
      subst hr
      exact ⟨s₁.nextId, by simp [papersAt, freshInd, Ind.papers]⟩
  · intro res s₁ h1
    rw [wlp_bind]
    refine (wlp_forL (I := fun _ (s' : World G) => s'.heap.map Ind.papers = s₁.heap.map Ind.papers) rfl ?_).mono ?_
    · intro pre r post s₂ _ h2
      rw [wlp_bind, wlp_rand]
      intro g t _
      rw [wlp_update]
      refine Eq.trans ?_ h2
      exact map_modify_eq (φ := Ind.papers) (by exact fun _ => rfl) s₂.heap r
    · intro _ s₂ h2
      rw [wlp_pure]
      exact fun r hr => (h1 r hr).imp fun id h => (papersAt_eq h2 r).trans h

/-- A creator that modifies no existing individual. -/
def CreatorSafe (create : Nat → Bool → WM G (List Nat)) : Prop :=
  ∀ n h s, wlp (create n h) (fun _ s' => Ext (fun _ => False) s s') s

theorem createIndividuals_safe (empty : G) (genome : Rand G) (fit : Bool → Fit) (up : Bool) :
    CreatorSafe (createIndividuals empty genome fit up) := fun n h s =>
  (createIndividuals_wlp empty genome fit up n h s).mono fun _ _ h => h.1.ext

theorem Ext.papers {w w' : World G} (h : Ext (fun _ => False) w w') {r : Nat} {p : Papers}
    (hp : papersAt w.heap r = some p) : papersAt w'.heap r = some p := by
  unfold papersAt at *
  obtain ⟨i, hi, he⟩ := Option.map_eq_some_iff.1 hp
  rw [h.getElem? (fun h => h) hi, Option.map_some, he]

theorem halfGroups_files {up : Bool} {grow full : Nat → Nat → Bool → WM G (List Nat)}
    (hg : ∀ d, CreatorFiles up (grow d)) (hf : ∀ d, CreatorFiles up (full d))
    (sg : ∀ d, CreatorSafe (grow d)) (sf : ∀ d, CreatorSafe (full d)) (k : Nat) (h : Bool) (ds : List Nat) (s : World G) :
    wlp (halfGroups grow full k h ds) (fun res s' => (∀ r ∈ res, ∃ id, papersAt s'.heap r =
      some ⟨id, 0, -1, [], [], up, []⟩) ∧ Ext (fun _ => False) s s') s := by
  induction ds generalizing s with
  | nil => unfold halfGroups; rw [wlp_pure]; exact ⟨by simp, Ext.refl _ _⟩
  | cons d ds ih =>
    unfold halfGroups
    rw [wlp_bind]
    refine ((hg d k h s).and (sg d k h s)).mono fun a s₁ ⟨h1, x1⟩ => ?_
    rw [wlp_bind]
    refine ((hf d k h s₁).and (sf d k h s₁)).mono fun b s₂ ⟨h2, x2⟩ => ?_
    rw [wlp_bind]
    refine (ih s₂).mono fun rest s₃ ⟨h3, x3⟩ => ?_
    rw [wlp_pure]
    refine ⟨fun r hr => ?_, ((x1.trans x2).trans x3).mono (by simp)⟩
    simp only [List.mem_append] at hr
    rcases hr with (hr | hr) | hr
    · exact (h1 r hr).imp fun id h => x3.papers (x2.papers h)
    · exact (h2 r hr).imp fun id h => x3.papers h
    · exact h3 r hr

theorem halfCreate_files {up : Bool} {grow full : Nat → Nat → Bool → WM G (List Nat)}
    (hg : ∀ d, CreatorFiles up (grow d)) (hf : ∀ d, CreatorFiles up (full d))
    (sg : ∀ d, CreatorSafe (grow d)) (sf : ∀ d, CreatorSafe (full d)) (minDepth depths : Nat) :
    CreatorFiles up (halfCreate grow full minDepth depths) := by
  intro n h s
  unfold halfCreate
  rw [wlp_ite]
  refine ⟨fun _ => by simp, fun _ => ?_⟩
  rw [wlp_bind]
  refine (halfGroups_files hg hf sg sf _ h _ s).mono fun inds s₁ ⟨h1, _⟩ => ?_
  rw [wlp_ite]
  refine ⟨fun _ => ?_, fun _ => by rw [wlp_pure]; exact h1⟩
  rw [wlp_bind]
  refine ((hf _ _ h s₁).and (sf _ _ h s₁)).mono fun more s₂ ⟨h2, x2⟩ => ?_
  rw [wlp_pure]
  intro r hr
  rcases List.mem_append.1 hr with hr | hr
  · exact (h1 r hr).imp fun id h => x2.papers h
  · exact h2 r hr

/-! ## One operator -/

/-- C45 for operators that may hand over to another one: when the operator fires, every participant ends up with
unevaluated fitness; `applied_operators` is extended by the operator's name, with before it the name of the
operator it handed over to if that one fired, and `parents`, if tracked, by the participants' ids as many
times; nothing else about it (except the genome) changes. -/
theorem C45_handed_over {w : World G} {refs : List Nat} {name name' : String} {p p' u : ℚ} {arity : Nat} {t : Tape}
    {f : List G → Rand (Bool × List G)} {f' : List G → Rand (Option (List G))}
    (hu : Rand.random w.tape = (.ok u, t)) (hp : u ≤ p) (hnd : refs.Nodup) :
    wlp (applyOperator (Op.withFallback name p arity f (Op.inPlace name' p' arity f')) refs) (fun res w' => res = refs ∧
      ∃ names, (names = [name] ∨ names = [name', name]) ∧
        ∀ r i, w.heap[r]? = some i → ∃ j, w'.heap[r]? = some j ∧
          (r ∉ refs → j.papers = i.papers ∧ j.fit = i.fit) ∧
          (r ∈ refs → j.fit.evaluated = false ∧ j.fit.getPure = .error .valueError ∧
            j.appliedOps = i.appliedOps ++ names ∧
            j.parents = (if i.updateParents then i.parents ++ names.flatMap fun _ => refs.map (idAt w.heap) else i.parents) ∧
            j.id = i.id ∧ j.gen = i.gen ∧ j.clonedFrom = i.clonedFrom ∧ j.selectedBy = i.selectedBy)) w := by
  intro res w' hrun
  have hd := Op.withFallback_discloses name p f (Op.inPlace_discreet name' p' arity f')
  obtain ⟨h1, h, hh, h2⟩ := applyOperator_signs hd hnd (s := w) hu hp res w' hrun
  obtain ⟨-, -, h3⟩ := applyOperator_fired (.withFallback name name' p p' arity arity f f') hu hp hrun
  refine ⟨h1, (h ++ [Op.withFallback name p arity f (Op.inPlace name' p' arity f')]).map Op.name, ?_, fun r i hi => ?_⟩
  · rcases List.sublist_singleton.1 hh with rfl | rfl
    · exact .inl rfl
    · exact .inr rfl
  · have g2 := h2 r
    have g3 := h3 r
    unfold papersAt at g2
    rw [hi, Option.map_some] at g3
    rw [hi, Option.map_some, Option.map_some] at g2
    obtain ⟨j, hj, e3⟩ := Option.map_eq_some_iff.1 g3
    rw [hj, Option.map_some, Option.some.injEq] at g2
    have efit : j.fit = if r ∈ refs then i.fit.setNotEvaluated else i.fit := congrArg Prod.snd e3
    refine ⟨j, hj, fun hr => ?_, fun hr => ?_⟩
    · rw [if_neg hr] at g2 efit
      exact ⟨g2, efit⟩
    · rw [if_pos hr] at g2 efit
      refine ⟨by rw [efit]; rfl, by rw [efit]; rfl, congrArg Papers.appliedOps g2, ?_, congrArg Papers.id g2,
        congrArg Papers.gen g2, congrArg Papers.clonedFrom g2, congrArg Papers.selectedBy g2⟩
      refine (congrArg Papers.parents g2).trans ?_
      simp [Papers.signed, Ind.papers, List.flatMap_map]

example := @C45_handed_over Nat ⟨[⟨0, 0, 7, exFit (.num 3), -1, [], [], true, []⟩], 1, exTape⟩ [0] "Gauss" "Uniform" 1 1 _ 1 _
  (fun gs => pure (false, gs)) exIncr rfl (by decide +kernel) (by simp)

/-- All attempts fail in this application: the individual gets both names, and its own id twice. -/
example : ((applyOperator (Op.withFallback "Gauss" 1 1 (fun gs => pure (false, gs)) (Op.inPlace "Uniform" 1 1 exIncr)) [0]
    (⟨[⟨0, 0, 7, exFit (.num 3), -1, [], [], true, []⟩], 1, exTape⟩ : World Nat)).2.heap.map fun i => (i.genome, i.appliedOps, i.parents)) =
    [(8, ["Uniform", "Gauss"], [0, 0])] := by decide +kernel

/-! ## From generation to generation -/

/-- The ledger of operators none of which hands over to another one. -/
theorem ledger_discreet {ops : List (Op G)} (h : ∀ o ∈ ops, o.Discreet) :
    (ops.map fun o => (([] : List (Op G)), o)).map Prod.snd = ops ∧
      ∀ x ∈ ops.map (fun o => (([] : List (Op G)), o)), x.2.Discloses x.1 := by
  refine ⟨by simp [Function.comp_def], fun x hx => ?_⟩
  obtain ⟨o, ho, rfl⟩ := List.mem_map.1 hx
  exact (h o ho).discloses

/-- C92, C93: in a run that starts without events, also if it ends with an exception, the population at every
point is the next generation of the one at the point before (`Lineage`): every individual is a clone of one
of the previous population, signed by one selection method, and its list of operators is extended by those
that were applied to it in this generation, in the order of the configuration. -/
theorem C92_generation_partial (hc : c.Ordinary sub m) {led : List (List (Op G) × Op G)} (ht : led.map Prod.snd = sub.ops)
    (hd : ∀ x ∈ led, x.2.Discloses x.1) (hr : s.Ready m)
    (hwf : s.w.WF) (hlog : s.log = []) {r : Except Err Unit} (h : evolve c s = (r, s')) :
    Lineage (Applied led) s'.log ∧ Opening (fun _ => True) s'.log := by
  have := evolve_lineage (A := fun _ => True) hc ht hd hr hwf hlog (fun _ _ => trivial) r s' h
  cases r with
  | ok _ => exact ⟨this.lineage, this.opening⟩
  | error _ => exact ⟨this.lineage, this.opening⟩

theorem last_split {α : Type} (P : α → Bool) (l : List α) :
    (∀ x ∈ l, P x = false) ∨ ∃ pre p mid, l = pre ++ p :: mid ∧ P p = true ∧ ∀ x ∈ mid, P x = false := by
  induction l with
  | nil => exact .inl (by simp)
  | cons a l ih =>
    rcases ih with ih | ⟨pre, p, mid, rfl, hp, hm⟩
    · by_cases ha : P a = true
      · exact .inr ⟨[], a, l, rfl, ha, ih⟩
      · refine .inl fun x hx => ?_
        rcases List.mem_cons.1 hx with rfl | hx
        · simpa using ha
        · exact ih x hx
    · exact .inr ⟨a :: pre, p, mid, rfl, hp, hm⟩

/-- Induction along the points of a log. -/
theorem point_induction {ops : List (Op G) → Prop} {A : Snapshot G → Prop} {log : List (Event G)} (h : Lineage ops log)
    (ho : Opening A log) {P : Nat → Event G → Prop}
    (h0 : ∀ q, q ∈ log → q.tag = ("algorithm", "init") → A q.snap → P 0 q)
    (h1 : ∀ n p q, q ∈ log → p.isPoint = true → q.isPoint = true → P n p → q.snap = p.snap → P n q)
    (h2 : ∀ n p q, q ∈ log → p.isPoint = true → q.isPoint = true → P n p → Generation ops p.snap q.snap → P (n + 1) q)
    {pre post : List (Event G)} {q : Event G} (hl : log = pre ++ q :: post) (hq : q.isPoint = true) :
    P ((pre.map Event.tag).count bredTag) q := by
  suffices ∀ n, ∀ pre : List (Event G), pre.length ≤ n → ∀ q post, log = pre ++ q :: post → q.isPoint = true →
      P ((pre.map Event.tag).count bredTag) q from this pre.length pre (le_refl _) q post hl hq
  intro n
  induction n with
  | zero =>
    intro pre hn q post hl hq
    have : pre = [] := List.length_eq_zero_iff.1 (by omega)
    subst this
    obtain ⟨g1, g2, g3⟩ := ho [] q post hl hq (by simp)
    exact h0 q (by rw [hl]; simp) g1 g3
  | succ n ih =>
    intro pre hn q post hl hq
    rcases last_split Event.isPoint pre with hnone | ⟨pre', p, mid, rfl, hp, hm⟩
    · obtain ⟨g1, g2, g3⟩ := ho pre q post hl hq hnone
      rw [g2]
      exact h0 q (by rw [hl]; simp) g1 g3
    · have hl' : log = pre' ++ p :: (mid ++ q :: post) := by rw [hl]; simp
      have hlen : pre'.length ≤ n := by simp at hn; omega
      have hprev := ih pre' hlen p (mid ++ q :: post) hl' hp
      have hqm : q ∈ log := by rw [hl]; simp
      have hnb : p.tag ≠ bredTag := by
        intro he
        simp [Event.isPoint, he, bredTag] at hp
      have hcount : ((pre' ++ p :: mid).map Event.tag).count bredTag =
          (pre'.map Event.tag).count bredTag + (mid.map Event.tag).count bredTag := by
        rw [List.map_append, List.count_append, List.map_cons, List.count_cons_of_ne hnb]
      rw [hcount]
      rcases h pre' p mid q post hl' hp hq hm with ⟨rfl, hs⟩ | ⟨hc1, hg⟩
      · simpa using h1 _ p q hqm hp hq hprev hs
      · rw [hc1]
        exact h2 _ p q hqm hp hq hprev hg

/-- The individual's attributes after `n` generations: its number of generation, one selection method per
generation, and the names of the operators applied to it in each of the generations. -/
structure Record (ops : List (Op G) → Prop) (up : Bool) (n : Nat) (e : Snapshot G) (i : Ind G) : Prop where
  updateParents : i.updateParents = up
  gen : i.gen = if n = 0 then 0 else e.genNum
  clonedFrom : n = 0 → i.clonedFrom = -1
  selectedBy : i.selectedBy.length = n
  applied : ∃ ls : List (List (Op G)), ls.length = n ∧ (∀ l ∈ ls, ops l) ∧
    i.appliedOps = (ls.map fun l => l.map (·.name)).flatten

/-- C92: in a run that creates its population, whenever the algorithm ends the initialisation or a
generation, every individual of the population carries the complete record of its ancestry: after `n` breeding
steps `n` entries in `selected_by`, and in `applied_operators` what was applied in each of the `n` generations;
`gen` is the current generation number. -/
theorem C92_record_partial (hc : c.Ordinary sub m) {led : List (List (Op G) × Op G)} (ht : led.map Prod.snd = sub.ops)
    (hd : ∀ x ∈ led, x.2.Discloses x.1) {up : Bool}
    (hf : ∀ create ∈ sub.creators, CreatorFiles up create) (hr : s.inds = [none])
    (hwf : s.w.WF) (hlog : s.log = []) {r : Except Err Unit} (h : evolve c s = (r, s'))
    {pre post : List (Event G)} {q : Event G} (hl : s'.log = pre ++ q :: post) (hq : q.isPoint = true)
    {is : List Nat} (his : some is ∈ q.snap.inds) {a : Nat} (ha : a ∈ is) :
    ∃ i, q.snap.heap[a]? = some i ∧ Record (Applied led) up ((pre.map Event.tag).count bredTag) q.snap i := by
  have hch : Chronicle (Applied led) (Newborns up) s' := by
    have := evolve_lineage (A := Newborns up) hc ht hd (.inl hr) hwf hlog (fun _ h => h hr up hf) r s' h
    cases r with
    | ok _ => exact this
    | error _ => exact this
  refine point_induction (P := fun n q => ∀ is : List Nat, some is ∈ q.snap.inds → ∀ a ∈ is,
    ∃ i, q.snap.heap[a]? = some i ∧ Record (Applied led) up n q.snap i) hch.lineage hch.opening ?_ ?_ ?_ hl hq is his a ha
  · intro q _ _ hA is his a ha
    obtain ⟨id, hid⟩ := hA is his a ha
    unfold papersAt at hid
    obtain ⟨i, hi, he⟩ := Option.map_eq_some_iff.1 hid
    refine ⟨i, hi, congrArg Papers.updateParents he, congrArg Papers.gen he, fun _ => congrArg Papers.clonedFrom he, ?_, [], rfl, by simp, ?_⟩
    · have : i.selectedBy = [] := congrArg Papers.selectedBy he
      rw [this]; rfl
    · exact congrArg Papers.appliedOps he
  · intro n p q _ _ _ hp hs is his a ha
    rw [hs] at his ⊢
    exact hp is his a ha
  · rintro n p q _ _ _ hp ⟨old, res, hi1, hi2, -, hgen⟩ is his a ha
    rw [hi2] at his
    simp only [List.mem_singleton, Option.some.injEq] at his
    subst his
    obtain ⟨k, hk⟩ := List.mem_iff_getElem?.1 ha
    obtain ⟨src, hsrc, j, i, hj, hi, hch, hg, -⟩ := hgen k a hk
    obtain ⟨j', hj', hrec⟩ := hp old (by rw [hi1]; simp) src hsrc
    rw [hj] at hj'
    cases hj'
    obtain ⟨name, hname⟩ := hch.selectedBy
    obtain ⟨l, hl, happ, -⟩ := hch.applied
    obtain ⟨ls, hlen, hsub, hops⟩ := hrec.applied
    refine ⟨i, hi, hch.updateParents.trans hrec.updateParents, by simp [hg], by simp, ?_, ls ++ [l], by simp [hlen], ?_, ?_⟩
    · rw [hname]; simp [hrec.selectedBy]
    · intro x hx
      rcases List.mem_append.1 hx with hx | hx
      · exact hsub x hx
      · rw [List.mem_singleton.1 hx]; exact hl
    · rw [happ, hops]; simp

/-- C94: in a run that starts without events, also if it ends with an exception, `cloned_from` leads from every
individual of every population back to the initial population, in exactly as many steps as there were
breeding steps: at each step it is the id of an individual that could be seen in a population before. -/
theorem C94_ancestry (hc : c.Ordinary sub m) {led : List (List (Op G) × Op G)} (ht : led.map Prod.snd = sub.ops)
    (hd : ∀ x ∈ led, x.2.Discloses x.1) (hr : s.Ready m)
    (hwf : s.w.WF) (hlog : s.log = []) {r : Except Err Unit} (h : evolve c s = (r, s'))
    {pre post : List (Event G)} {q : Event G} (hl : s'.log = pre ++ q :: post) (hq : q.isPoint = true)
    {is : List Nat} (his : some is ∈ q.snap.inds) {a : Nat} (ha : a ∈ is) {i : Ind G}
    (hi : q.snap.heap[a]? = some i) : Traces s'.log ((pre.map Event.tag).count bredTag) i.id := by
  obtain ⟨h1, h2⟩ := C92_generation_partial hc ht hd hr hwf hlog h
  refine point_induction (P := fun n q => ∀ is : List Nat, some is ∈ q.snap.inds → ∀ a ∈ is, ∀ i,
    q.snap.heap[a]? = some i → Traces s'.log n i.id) h1 h2 ?_ ?_ ?_ hl hq is his a ha i hi
  · intro q hq htag _ is his a ha i hi
    exact .first q is a i hq htag his ha hi
  · intro n p q _ _ _ hp hs is his a ha i hi
    rw [hs] at his hi
    exact hp is his a ha i hi
  · rintro n p q hql _ hqp hp ⟨old, res, hi1, hi2, -, hgen⟩ is his a ha i hi
    have his' := his
    rw [hi2] at his'
    simp only [List.mem_singleton, Option.some.injEq] at his'
    subst his'
    obtain ⟨k, hk⟩ := List.mem_iff_getElem?.1 ha
    obtain ⟨src, hsrc, j, i', hj, hi', hch, hg, -⟩ := hgen k a hk
    rw [hi] at hi'
    cases hi'
    refine .next q is a i n hql hqp his ha hi ?_
    rw [hch.clonedFrom]
    exact hp old (by rw [hi1]; simp) src hsrc j hj

/-! ## Parents -/

theorem mem_group_ids {h : List (Ind G)} {res : List Nat} {a k x : Nat} (hx : x ∈ group a k (res.map (idAt h))) :
    ∃ r ∈ res, idAt h r = x := by
  rw [group_map] at hx
  obtain ⟨r, hr, rfl⟩ := List.mem_map.1 hx
  exact ⟨r, List.mem_of_mem_drop (List.mem_of_mem_take hr), rfl⟩

/-- C93: what `parents` contains after a generation, if it is recorded: ids of individuals of *the same*
population, all of them larger than every id that existed when the generation began — never an individual of
the previous population. -/
theorem C93_parents_partial (hc : c.Ordinary sub m) {led : List (List (Op G) × Op G)} (ht : led.map Prod.snd = sub.ops)
    (hd : ∀ x ∈ led, x.2.Discloses x.1) (hr : s.Ready m)
    (hwf : s.w.WF) (hlog : s.log = []) {r : Except Err Unit} (h : evolve c s = (r, s'))
    {pre mid post : List (Event G)} {p q : Event G} (hl : s'.log = pre ++ p :: (mid ++ q :: post))
    (hp : p.isPoint = true) (hq : q.isPoint = true) (hm : ∀ x ∈ mid, x.isPoint = false) (hne : mid ≠ [])
    {is : List Nat} (his : some is ∈ q.snap.inds) {a : Nat} (ha : a ∈ is) {i : Ind G}
    (hi : q.snap.heap[a]? = some i) (hup : i.updateParents = true) {x : Nat} (hx : x ∈ i.parents) :
    (∃ b ∈ is, idAt q.snap.heap b = x) ∧ ∀ y ∈ p.snap.heap, y.id < x := by
  obtain ⟨h1, -⟩ := C92_generation_partial hc ht hd hr hwf hlog h
  rcases h1 pre p mid q post hl hp hq hm with ⟨h, -⟩ | ⟨-, old, res, hi1, hi2, -, hgen⟩
  · exact absurd h hne
  rw [hi2] at his
  simp only [List.mem_singleton, Option.some.injEq] at his
  subst his
  obtain ⟨k, hk⟩ := List.mem_iff_getElem?.1 ha
  obtain ⟨src, hsrc, j, i', hj, hi', hch, -⟩ := hgen k a hk
  rw [hi] at hi'
  cases hi'
  obtain ⟨l, -, -, hpar⟩ := hch.applied
  rw [← hch.updateParents, hup, if_pos rfl] at hpar
  rw [hpar] at hx
  obtain ⟨o, -, ho⟩ := List.mem_flatMap.1 hx
  obtain ⟨b, hb, rfl⟩ := mem_group_ids ho
  refine ⟨⟨b, hb, rfl⟩, fun y hy => ?_⟩
  obtain ⟨k', hk'⟩ := List.mem_iff_getElem?.1 hb
  obtain ⟨-, -, -, i', -, hi', -, -, hlt⟩ := hgen k' b hk'
  have : idAt q.snap.heap b = i'.id := by simp [idAt, hi']
  rw [this]
  exact hlt y hy

/-- C93: exactly the members of the individual's own group, the individual included, once for each operator
that was applied. -/
theorem C93_groups_partial (hc : c.Ordinary sub m) {led : List (List (Op G) × Op G)} (ht : led.map Prod.snd = sub.ops)
    (hd : ∀ x ∈ led, x.2.Discloses x.1) (hr : s.Ready m)
    (hwf : s.w.WF) (hlog : s.log = []) {r : Except Err Unit} (h : evolve c s = (r, s'))
    {pre mid post : List (Event G)} {p q : Event G} (hl : s'.log = pre ++ p :: (mid ++ q :: post))
    (hp : p.isPoint = true) (hq : q.isPoint = true) (hm : ∀ x ∈ mid, x.isPoint = false) (hne : mid ≠ [])
    {is : List Nat} (his : some is ∈ q.snap.inds) {k a : Nat} (hk : is[k]? = some a) {i : Ind G}
    (hi : q.snap.heap[a]? = some i) (hup : i.updateParents = true) :
    ∃ l : List (Op G), Applied led l ∧ (l.map (·.name)).IsSuffix i.appliedOps ∧
      i.parents = l.flatMap fun o => group o.arity k (is.map (idAt q.snap.heap)) := by
  obtain ⟨h1, -⟩ := C92_generation_partial hc ht hd hr hwf hlog h
  rcases h1 pre p mid q post hl hp hq hm with ⟨h, -⟩ | ⟨-, old, res, hi1, hi2, -, hgen⟩
  · exact absurd h hne
  rw [hi2] at his
  simp only [List.mem_singleton, Option.some.injEq] at his
  subst his
  obtain ⟨src, hsrc, j, i', hj, hi', hch, -⟩ := hgen k a hk
  rw [hi] at hi'
  cases hi'
  obtain ⟨l, hl, happ, hpar⟩ := hch.applied
  rw [← hch.updateParents, hup, if_pos rfl] at hpar
  exact ⟨l, hl, ⟨j.appliedOps, happ.symm⟩, hpar⟩

/-! ## The documented meaning, and instances -/

/-- C92 as documented: at the end of every generation, `selected_by` and `applied_operators` hold what selected
the individual and was applied to it *in the last generation*. -/
def C92_statement : Prop :=
  ∀ (c : Cfg Nat Nat) (sub : SubCfg Nat) (m : Mode) (s s' : Run Nat Nat), c.Ordinary sub m →
    (∀ o ∈ sub.ops, o.Discreet) → s.inds = [none] → s.w.WF → s.log = [] → evolve c s = (.ok (), s') →
    ∀ q ∈ s'.log, q.tag = ("algorithm", "after_generation") → 0 < q.snap.genNum →
      ∀ is, some is ∈ q.snap.inds → ∀ r ∈ is, ∀ i, q.snap.heap[r]? = some i →
        i.selectedBy.length = 1 ∧ ∃ l : List (Op Nat), l.Sublist sub.ops ∧ i.appliedOps = l.map (·.name)

/-- C93 as documented: the parents of an individual are individuals of the population it was bred from. -/
def C93_statement : Prop :=
  ∀ (c : Cfg Nat Nat) (sub : SubCfg Nat) (m : Mode) (s s' : Run Nat Nat), c.Ordinary sub m →
    (∀ o ∈ sub.ops, o.Discreet) → s.inds = [none] → s.w.WF → s.log = [] → evolve c s = (.ok (), s') →
    ∀ pre p mid q post, s'.log = pre ++ p :: (mid ++ q :: post) → p.isPoint = true → q.isPoint = true →
      (∀ x ∈ mid, x.isPoint = false) → mid ≠ [] → ∀ is, some is ∈ q.snap.inds → ∀ r ∈ is, ∀ i,
      q.snap.heap[r]? = some i → i.updateParents = true → ∀ x ∈ i.parents, ∃ y ∈ p.snap.heap, y.id = x

theorem exCfg_discreet : ∀ o ∈ exSubCfg.ops, o.Discreet := by
  intro o ho
  simp only [exSubCfg, exSub, List.mem_singleton] at ho
  subst ho
  exact Op.inPlace_discreet _ _ _ _

theorem exCfg_ledger : (exSubCfg.ops.map fun o => (([] : List (Op Nat)), o)).map Prod.snd = exSubCfg.ops ∧
    ∀ x ∈ exSubCfg.ops.map (fun o => (([] : List (Op Nat)), o)), x.2.Discloses x.1 :=
  ledger_discreet exCfg_discreet

theorem exCfg_files : ∀ create ∈ exSubCfg.creators, CreatorFiles true create := by
  intro create h
  simp only [exSubCfg, List.mem_singleton] at h
  subst h
  exact createIndividuals_files _ _ _ _

theorem exRun_wf : exRun.w.WF := ⟨by simp [exRun], by simp [exRun]⟩

example := C92_generation_partial exCfg_ordinary exCfg_ledger.1 exCfg_ledger.2 (.inl rfl) exRun_wf (s := exRun) rfl (s' := (evolve exCfg exRun).2)
  (ran exRun_ends.1)

example := @C92_record_partial _ _ exCfg exRun (evolve exCfg exRun).2 exSubCfg _ exCfg_ordinary _ exCfg_ledger.1 exCfg_ledger.2 _ exCfg_files rfl
  exRun_wf rfl _ (ran exRun_ends.1)

/-- What somebody looking at the attributes of the individuals of a log finds. -/
def findInd (f : Ind G → Bool) (q : Event G) : Bool :=
  q.snap.inds.any fun o => match o with
    | none => false
    | some is => is.any fun r => match q.snap.heap[r]? with
      | none => false
      | some i => f i

theorem findInd_spec {f : Ind G → Bool} {q : Event G} (h : findInd f q = true) :
    ∃ is, some is ∈ q.snap.inds ∧ ∃ r ∈ is, ∃ i, q.snap.heap[r]? = some i ∧ f i = true := by
  unfold findInd at h
  rw [List.any_eq_true] at h
  obtain ⟨o, ho, h⟩ := h
  cases o with
  | none => simp at h
  | some is =>
    dsimp only at h
    rw [List.any_eq_true] at h
    obtain ⟨r, hr, h⟩ := h
    cases hi : q.snap.heap[r]? with
    | none => simp [hi] at h
    | some i => exact ⟨is, ho, r, hr, i, hi, by simpa [hi] using h⟩

/-- C92 is false as documented: after two generations, there are two entries. -/
theorem C92_refuted : ¬ C92_statement := by
  intro h
  have hrun := h exCfg exSubCfg _ exRun _ exCfg_ordinary exCfg_discreet rfl exRun_wf rfl (ran exRun_ends.1)
  have hfind : (evolve exCfg exRun).2.log.any (fun q => decide (q.tag = ("algorithm", "after_generation")) &&
      (decide (0 < q.snap.genNum) && findInd (fun i => decide (i.selectedBy.length ≠ 1)) q)) = true := by decide +kernel
  rw [List.any_eq_true] at hfind
  obtain ⟨q, hq, hf⟩ := hfind
  simp only [Bool.and_eq_true, decide_eq_true_eq] at hf
  obtain ⟨h1, h2, h3⟩ := hf
  obtain ⟨is, his, r, hr, i, hi, hne⟩ := findInd_spec h3
  exact (of_decide_eq_true hne) (hrun q hq h1 h2 is his r hr i hi).1

/-- C93 is false as documented. -/
theorem C93_refuted : ¬ C93_statement := by
  intro h
  have hrun := h exCfg exSubCfg _ exRun _ exCfg_ordinary exCfg_discreet rfl exRun_wf rfl (ran exRun_ends.1)
  have hpart := @C93_parents_partial _ _ exCfg exRun (evolve exCfg exRun).2 exSubCfg _ exCfg_ordinary _ exCfg_ledger.1 exCfg_ledger.2 (.inl rfl)
    exRun_wf rfl _ (ran exRun_ends.1)
  have hlast : (evolve exCfg exRun).2.log.map Event.tag = initTags ++ genTags ++ genTags ++ [("algorithm", "evolution_finished")] := by
    decide +kernel
  have hfind : ((evolve exCfg exRun).2.log[7]?).any (fun q => findInd (fun i => i.updateParents && !i.parents.isEmpty) q) = true := by
    decide +kernel
  generalize (evolve exCfg exRun).2.log = log at hrun hpart hlast hfind
  have hlen : log.length = 14 := by
    have := congrArg List.length hlast
    simpa [initTags, genTags] using this
  match log, hlen with
  | [a0, a1, a2, a3, a4, a5, a6, a7, a8, a9, a10, a11, a12, a13], _ =>
    simp only [List.map_cons, List.map_nil, initTags, genTags, List.cons_append, List.nil_append, List.cons.injEq, and_true] at hlast
    obtain ⟨t0, t1, t2, t3, t4, t5, t6, t7, -⟩ := hlast
    have hf : findInd (fun i => i.updateParents && !i.parents.isEmpty) a7 = true := by simpa using hfind
    obtain ⟨is, his, r, hr, i, hi, hne⟩ := findInd_spec hf
    simp only [Bool.and_eq_true, Bool.not_eq_true', List.isEmpty_eq_false_iff] at hne
    obtain ⟨x, hx⟩ := List.exists_mem_of_ne_nil _ hne.2
    have hp : a2.isPoint = true := by simp [Event.isPoint, t2]
    have hq : a7.isPoint = true := by simp [Event.isPoint, t7]
    have hmid : ∀ x ∈ [a3, a4, a5, a6], x.isPoint = false := by
      intro x hx
      simp only [List.mem_cons, List.not_mem_nil, or_false] at hx
      rcases hx with rfl | rfl | rfl | rfl <;> simp [Event.isPoint, *]
    obtain ⟨y, hy, hyx⟩ := hrun [a0, a1] a2 [a3, a4, a5, a6] a7 [a8, a9, a10, a11, a12, a13] rfl hp hq hmid (by simp)
      is his r hr i hi hne.1 x hx
    have := (hpart (pre := [a0, a1]) (p := a2) (mid := [a3, a4, a5, a6]) (q := a7) (post := [a8, a9, a10, a11, a12, a13]) rfl hp hq hmid
      (by simp) his hr hi hne.1 hx).2 y hy
    omega

example := @C94_ancestry _ _ exCfg exRun (evolve exCfg exRun).2 exSubCfg _ exCfg_ordinary _ exCfg_ledger.1 exCfg_ledger.2 (.inl rfl)
  exRun_wf rfl _ (ran exRun_ends.1)

/-- In the example some individual at the end has two entries in each of its lists. -/
example : (evolve exCfg exRun).2.log.any (fun q => q.isPoint && findInd (fun i => i.selectedBy.length == 2 && i.appliedOps == ["Incr", "Incr"]) q) = true := by
  decide +kernel

end Verif.Evo

/-! ## The library's operators and creators meet the contracts -/

namespace Verif.GP
open Verif.Evo

theorem LibOp.discreet {o : Op GP.Ind} (h : LibOp o) : o.Discreet := by
  cases h <;> exact Op.inPlace_discreet _ _ _ _

theorem LibOp.discloses {o : Op GP.Ind} (h : LibOp o) : o.Discloses [] := h.discreet.discloses

theorem fullCreator_files (cfg : GP.Cfg) (maxDepth : Nat) (fit : Bool → Fit) (up : Bool) :
    CreatorFiles up (fullCreator cfg maxDepth fit up) := createIndividuals_files _ _ _ _

theorem growCreator_files (cfg : GP.Cfg) (pPrune : ℚ) (minDepth maxDepth : Nat) (fit : Bool → Fit) (up : Bool) :
    CreatorFiles up (growCreator cfg pPrune minDepth maxDepth fit up) := createIndividuals_files _ _ _ _

theorem halfCreator_files (cfg : GP.Cfg) (pPrune : ℚ) (minDepth maxDepth : Nat) (fit : Bool → Fit) (up : Bool) :
    CreatorFiles up (halfCreator cfg pPrune minDepth maxDepth fit up) :=
  halfCreate_files (fun _ => createIndividuals_files _ _ _ _) (fun _ => createIndividuals_files _ _ _ _)
    (fun _ => createIndividuals_safe _ _ _ _) (fun _ => createIndividuals_safe _ _ _ _) _ _

end Verif.GP

namespace Verif.GA
open Verif.Evo

/-- What a vector mutation hands over to: nothing, but for the Gaussian mutations, which end up with the uniform
mutation of the same probability and arity if all attempts fail. -/
def MutationClass.handsOver (c : MutationClass) (p : ℚ) (arity : Nat) : List (Op Vec) :=
  match c with
  | .floatGaussOne _ _ _ => [MutationClass.floatUniformOne.asOp p arity]
  | .floatGaussN n _ _ _ => [(MutationClass.floatUniformN n).asOp p arity]
  | _ => []

theorem MutationClass.discloses (c : MutationClass) (p : ℚ) (arity : Nat) :
    (c.asOp p arity).Discloses (c.handsOver p arity) := by
  cases c with
  | floatGaussOne mu sigma a =>
    exact Op.withFallback_discloses _ _ _ (inner := MutationClass.floatUniformOne.asOp p arity) (Op.inPlace_discreet _ _ _ _)
  | floatGaussN n mu sigma a =>
    exact Op.withFallback_discloses _ _ _ (inner := (MutationClass.floatUniformN n).asOp p arity) (Op.inPlace_discreet _ _ _ _)
  | _ => exact (Op.inPlace_discreet _ _ _ _).discloses

/-- The library's operators for vectors: what they hand over to is of the library, too. -/
theorem LibOp.discloses {kind : Kind} {length : Nat} {o : Op Vec} (h : LibOp kind length o) :
    ∃ hs, o.Discloses hs ∧ ∀ x ∈ hs, LibOp kind length x := by
  cases h with
  | crossover => exact ⟨[], (Op.inPlace_discreet _ _ _ _).discloses, by simp⟩
  | mutation c p arity hc hn =>
    refine ⟨_, c.discloses p arity, ?_⟩
    cases c with
    | floatGaussOne mu sigma a =>
      simp only [MutationClass.handsOver, List.mem_singleton, forall_eq]
      exact .mutation .floatUniformOne p arity hc hn
    | floatGaussN n mu sigma a =>
      simp only [MutationClass.handsOver, List.mem_singleton, forall_eq]
      exact .mutation (.floatUniformN n) p arity hc hn
    | _ => simp [MutationClass.handsOver]

theorem vectorCreator_files (kind : Kind) (length : Nat) (bounds : Bounds) (fit : Bool → Fit) (up : Bool) :
    CreatorFiles up (vectorCreator kind length bounds fit up) := by
  intro n h s
  unfold vectorCreator
  rw [PyM.wlp_ite]
  exact ⟨fun _ => by simp, fun _ => createIndividuals_files _ _ _ _ n h s⟩

end Verif.GA
