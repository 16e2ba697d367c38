import Verif.Model.Identity
import Verif.Props.Objective
import Verif.Props.Breeder

/-! # C108: progress -/

namespace Verif.Evo
open PyM
variable {G κ : Type} {c : Cfg G κ} {sub : SubCfg G} {m : Mode} {s s' : Run G κ} {f : G → Except Err ℚ} {size : G → Nat}
  {P : G → Prop}

/-! ## What survives breeding -/

/-- Some individual of the list has a genome satisfying `P`. -/
def Has (P : G → Prop) (heap : List (Ind G)) (refs : List Nat) : Prop := ∃ r ∈ refs, ∃ i, heap[r]? = some i ∧ P i.genome

/-- The operator keeps `P`: if an individual it is given satisfies `P`, one of those it returns does. -/
def Op.Retains (o : Op G) (P : G → Prop) : Prop :=
  ∀ refs s, Valid s refs → Has P s.heap refs → wlp (o.apply refs) (fun res s' => ∀ l, res = some l → Has P s'.heap l) s

theorem identity_retains (p : ℚ) : (identityOp p : Op G).Retains P := by
  intro refs s _ h
  show wlp (pure (some refs)) _ s
  rw [wlp_pure]
  rintro l hl
  simp only [Option.some.injEq] at hl
  exact hl ▸ h

theorem identity_good (p : ℚ) : (identityOp p : Op G).Good := by
  intro refs s hv
  show wlp (pure (some refs)) _ s
  rw [wlp_pure]
  refine ⟨Ext.refl _ _, ?_⟩
  rintro l hl
  simp only [Option.some.injEq] at hl
  subst hl
  exact ⟨rfl, hv, fun r hr => .inl hr, id, fun m h => h⟩

/-- Updates that leave the genomes alone. -/
theorem updates_genomes {α : Type} (f : α → Nat) (g : α → Ind G → Ind G) (xs : List α) (hg : ∀ a i, (g a i).genome = i.genome)
    (s : World G) : wlp (forL (fun a => update (f a) (g a)) xs) (fun _ s' => ∀ refs, Has P s.heap refs → Has P s'.heap refs) s := by
  refine wlp_forL (I := fun _ (s' : World G) => ∀ refs, Has P s.heap refs → Has P s'.heap refs) (fun _ h => h) ?_
  rintro pre a post s₁ hx h
  rw [wlp_update]
  intro refs hr
  obtain ⟨r, h1, i, h2, h3⟩ := h refs hr
  refine ⟨r, h1, ?_⟩
  rw [List.getElem?_modify, h2]
  by_cases hrx : f a = r
  · exact ⟨g a i, by simp [hrx], by rw [hg]; exact h3⟩
  · exact ⟨i, by simp [hrx], h3⟩

theorem applyOperator_has {o : Op G} (ho : o.Retains P) {inds : List Nat} {s : World G} (hv : Valid s inds)
    (hc : Has P s.heap inds) : wlp (applyOperator o inds) (fun l s' => Has P s'.heap l) s := by
  unfold applyOperator
  rw [wlp_bind, wlp_rand]
  refine (wlp_true _ _).mono fun u t _ => ?_
  rw [wlp_ite]
  refine ⟨fun _ => ?_, fun _ => by rw [wlp_pure]; exact hc⟩
  rw [wlp_bind]
  have hlen : wlp (forL setNotEvaluated inds) (fun _ s' => s'.heap.length = s.heap.length) { s with tape := t } := by
    refine wlp_forL (I := fun _ (s' : World G) => s'.heap.length = s.heap.length) rfl ?_
    rintro pre a post s₁ _ h
    unfold setNotEvaluated
    rw [wlp_update]
    simpa using h
  refine ((updates_genomes (P := P) (fun r : Nat => r) (fun _ i => { i with fit := i.fit.setNotEvaluated })
    inds (fun _ _ => rfl) { s with tape := t }).and hlen).mono fun _ s₁ h1 => ?_
  rw [wlp_bind]
  refine (ho inds s₁ (fun r hr => by rw [h1.2]; exact hv r hr) (h1.1 inds hc)).mono fun res s₂ h2 => ?_
  cases res with
  | none => simp
  | some l =>
    simp only
    rw [wlp_bind]
    refine (ids_wlp inds s₂).mono ?_
    rintro ids _ ⟨rfl, -⟩
    rename_i s₂
    rw [wlp_bind]
    refine (updates_genomes (P := P) (fun r : Nat => r) (fun _ => record o.name ids) l (fun _ _ => rfl) s₂).mono
      fun _ s₃ h3 => ?_
    rw [wlp_pure]
    exact h3 l (h2 l rfl)

theorem applyChunks_has {base : World G} {n : Nat} {o : Op G} (ho : o.Good) (hp : o.Retains P) (is : List Nat)
    {s : World G} {inds : List Nat} (hb : Brood base n m s inds) (hc : Has P s.heap inds) :
    wlp (applyChunks o is inds) (fun res s' => Has P s'.heap res) s := by
  induction is generalizing s inds with
  | nil => unfold applyChunks; rw [wlp_pure]; exact hc
  | cons i is ih =>
    unfold applyChunks
    rw [wlp_bind]
    obtain ⟨A, C, hsplit, hset⟩ := slice_split inds i ((i + o.arity : Nat) : Int)
    have hsub : ∀ r ∈ Py.slice inds i ((i + o.arity : Nat) : Int), r ∈ inds := fun r hr => by
      rw [hsplit]; exact List.mem_append.2 (.inl (List.mem_append.2 (.inr hr)))
    have hv : Valid s (Py.slice inds i ((i + o.arity : Nat) : Int)) := fun r hr => hb.valid r (hsub r hr)
    have hnd := hb.nodup
    rw [hsplit, List.nodup_append, List.nodup_append] at hnd
    obtain ⟨⟨-, -, hAsl⟩, -, hAC⟩ := hnd
    obtain ⟨r, hr, j, hj, hpj⟩ := hc
    by_cases hin : r ∈ Py.slice inds i ((i + o.arity : Nat) : Int)
    · refine (((applyOperator_brood ho hb _ _).and (applyOperator_good ho hv)).and
        (applyOperator_has hp hv ⟨r, hin, j, hj, hpj⟩)).mono ?_
      rintro res s' ⟨⟨hb', e, -⟩, r', hr', hc'⟩
      refine ih hb' ?_
      rw [hset]
      exact ⟨r', by simp [hr'], hc'⟩
    · refine ((applyOperator_brood ho hb _ _).and (applyOperator_good ho hv)).mono ?_
      rintro res s' ⟨hb', e, -⟩
      refine ih hb' ?_
      rw [hset]
      refine ⟨r, ?_, j, e.getElem? hin hj, hpj⟩
      rw [hsplit] at hr
      simp only [List.mem_append] at hr ⊢
      tauto

theorem applyOperators_has {base : World G} {n : Nat} (os : List (Op G)) (ho : ∀ o ∈ os, o.Good) (hp : ∀ o ∈ os, o.Retains P)
    {s : World G} {inds : List Nat} (hb : Brood base n m s inds) (hc : Has P s.heap inds) :
    wlp (applyOperators os inds) (fun res s' => Has P s'.heap res) s := by
  induction os generalizing s inds with
  | nil => unfold applyOperators; rw [wlp_pure]; exact hc
  | cons o os ih =>
    unfold applyOperators
    rw [wlp_ite]
    refine ⟨fun _ => by simp, fun _ => ?_⟩
    rw [wlp_bind]
    exact ((applyChunks_brood (ho o (by simp)) _ hb).and
      (applyChunks_has (ho o (by simp)) (hp o (by simp)) _ hb hc)).mono fun res s' h =>
      ih (fun o h => ho o (by simp [h])) (fun o h => hp o (by simp [h])) h.1 h.2

/-- With elites, what the best individuals satisfy is kept. -/
theorem breedSub_has (hs : ∃ sel rest, sub.sels = sel :: rest ∧ sel.Good ∧ sel.Fills)
    (ho : ∀ o ∈ sub.ops, o.Good) (hp : ∀ o ∈ sub.ops, o.Retains P) (hpos : 0 < sub.nElite) {w : World G} {is : List Nat}
    (hm : ∀ r ∈ is, modeAt w r = some m) (he : Evaluated size sub.hib w is) (hc : Has P w.heap is)
    (hup : ∀ a ∈ is, ∀ b ∈ is, ∀ i j, w.heap[a]? = some i → w.heap[b]? = some j → ¬ Beats size sub.hib w a b → P i.genome → P j.genome) :
    wlp (breedSub size sub is) (fun res w' => Has P w'.heap res) w := by
  obtain ⟨sel, rest, h1, h2, h3⟩ := hs
  unfold breedSub
  rw [wlp_bind]
  refine (checkArities_wlp sub.popSize _).mono ?_
  rintro _ _ ⟨rfl, -⟩
  rename_i w
  rw [wlp_bind]
  have hv : Valid w is := fun r hr => modeAt_lt (hm r hr)
  refine ((select_brood h1 h2 h3 hv hm).and (C32_selected_partial h1 h2 hpos he)).mono ?_
  rintro res s₂ ⟨⟨hb, -⟩, taken, left, new, more, hperm, hlen, -, hbest, rfl, hf⟩
  refine applyOperators_has sub.ops ho hp hb ?_
  obtain ⟨r, hr, i, hi, hPi⟩ := hc
  -- an elite satisfies `P`
  have helite : ∃ t ∈ taken, ∃ j, w.heap[t]? = some j ∧ P j.genome := by
    rcases List.mem_append.1 (hperm.mem_iff.2 hr) with ht | hl
    · exact ⟨r, ht, i, hi, hPi⟩
    · have hne : taken ≠ [] := by
        intro e
        rw [e] at hlen
        have : 0 < is.length := List.length_pos_of_mem hr
        simp only [List.length_nil] at hlen
        omega
      obtain ⟨t, ts, rfl⟩ := List.exists_cons_of_ne_nil hne
      have htis : t ∈ is := hperm.mem_iff.1 (by simp)
      refine ⟨t, by simp, _, List.getElem?_eq_getElem (hv t htis), ?_⟩
      exact hup r hr t htis i _ hi (List.getElem?_eq_getElem (hv t htis)) (hbest t (by simp) r hl) hPi
  obtain ⟨t, ht, j, hj, hPj⟩ := helite
  obtain ⟨k, hk, rfl⟩ := List.getElem_of_mem ht
  have hk' : k < new.length := by rw [← hf.length_eq]; exact hk
  have hc' : CopyOf w s₂ taken[k] new[k] := hf.get hk hk'
  have hg := hc'.genome
  unfold genomeAt at hg
  rw [hj] at hg
  cases hx : s₂.heap[new[k]]? with
  | none => rw [hx] at hg; simp at hg
  | some x =>
    rw [hx] at hg
    simp only [Option.map_some, Option.some.injEq] at hg
    exact ⟨new[k], by simp, x, hx, hg ▸ hPj⟩

/-! ## Runs -/

/-- The genome is at least as good as the score `x`. -/
def Level (size : G → Nat) (f : G → Except Err ℚ) (m : Mode) (x : ℚ) (g : G) : Prop :=
  ∃ q, f g = .ok q ∧ ¬ Preferred m.hib x (score m.hib m.bloat q (size g))

/-- At the end of every evaluation the population contains an individual that is at least as good as any individual was
at the end of any earlier evaluation. -/
def KeepsUp (size : G → Nat) (d : Bool) (log : List (Event G)) : Prop :=
  ∀ past e future, log = past ++ e :: future → e.IsEval → ∀ e' ∈ past, e'.IsEval → ∀ r x, e'.Shows r →
    HasScore size d (ofHeap e'.snap.heap) r x →
    ∃ r' x', e.Shows r' ∧ HasScore size d (ofHeap e.snap.heap) r' x' ∧ ¬ Preferred d x x'

theorem keepsUp_snoc {d : Bool} {log : List (Event G)} {e : Event G} (h : KeepsUp size d log)
    (he : e.IsEval → ∀ e' ∈ log, e'.IsEval → ∀ r x, e'.Shows r → HasScore size d (ofHeap e'.snap.heap) r x →
      ∃ r' x', e.Shows r' ∧ HasScore size d (ofHeap e.snap.heap) r' x' ∧ ¬ Preferred d x x') : KeepsUp size d (log ++ [e]) := by
  intro past e₁ future hl
  rcases List.eq_nil_or_concat future with rfl | ⟨fs, x, rfl⟩
  · have := List.append_inj' hl rfl
    simp only [List.cons.injEq, and_true] at this
    obtain ⟨rfl, rfl⟩ := this
    exact he
  · have hl' : log ++ [e] = (past ++ e₁ :: fs) ++ [x] := by rw [hl]; simp
    have := List.append_inj' hl' rfl
    exact h past e₁ fs this.1

/-- The individuals hold the values of their genomes. -/
def PopValued (f : G → Except Err ℚ) (m : Mode) (heap : List (Ind G)) (is : List Nat) : Prop :=
  ∀ r ∈ is, ∃ i q, heap[r]? = some i ∧ f i.genome = .ok q ∧ i.fit.value = .num q ∧ i.fit.evaluated = true ∧ i.mode = m

theorem PopValued.scored {heap : List (Ind G)} {is : List Nat} (h : PopValued f m heap is) {r : Nat} (hr : r ∈ is) :
    ∃ i q, heap[r]? = some i ∧ f i.genome = .ok q ∧ ∀ w : World G, w.heap = heap →
      HasScore size m.hib w r (score m.hib m.bloat q (size i.genome)) := by
  obtain ⟨i, q, h1, h2, h3, h4, rfl⟩ := h r hr
  exact ⟨i, q, h1, h2, fun w hw => ⟨i, _, q, by rw [hw]; exact h1, ⟨h3, h4, rfl, rfl⟩, rfl⟩⟩

/-- A score is determined. -/
theorem PopValued.unique {heap : List (Ind G)} {is : List Nat} (h : PopValued f m heap is) {r : Nat} (hr : r ∈ is) {x : ℚ}
    (hx : HasScore size m.hib (ofHeap heap) r x) :
    ∃ i q, heap[r]? = some i ∧ f i.genome = .ok q ∧ x = score m.hib m.bloat q (size i.genome) := by
  obtain ⟨i, q, h1, h2, h3, h4, rfl⟩ := h r hr
  obtain ⟨j, b, q', h5, h6, rfl⟩ := hx
  have h5' : heap[r]? = some j := h5
  rw [h1] at h5'
  cases h5'
  have hq := h6.value
  rw [h3] at hq
  cases hq
  exact ⟨i, q, h1, h2, by rw [← h6.bloat]; rfl⟩

theorem not_preferred_self {d : Bool} {a : ℚ} : ¬ Preferred d a a := by
  cases d <;> simp [Preferred]

/-- Between the steps of a run with elites. -/
structure Rising (size : G → Nat) (f : G → Except Err ℚ) (m : Mode) (s : Run G κ) : Prop where
  log : KeepsUp size m.hib s.log
  pop : ∀ is, s.inds = [some is] → ∀ e ∈ s.log, e.IsEval → ∀ r x, e.Shows r → HasScore size m.hib (ofHeap e.snap.heap) r x →
    Has (Level size f m x) s.w.heap is

theorem Rising.push {p n : String} (h : Rising size f m s) (hn : ¬ (p = "population_evaluator" ∧ n = "after_operator")) :
    Rising size f m (s.push p n) where
  log := keepsUp_snoc h.log fun he => absurd he hn
  pop is hi e he hev := by
    simp only [Run.push, List.mem_append, List.mem_singleton] at he
    rcases he with he | rfl
    · exact h.pop is hi e he hev
    · exact absurd hev hn

theorem Rising.same {s t : Run G κ} (h : Rising size f m s) (hl : t.log = s.log) (hi : t.inds = s.inds)
    (hg : ∀ r, genomeAt t.w r = genomeAt s.w r) : Rising size f m t where
  log := by rw [hl]; exact h.log
  pop is his e he hev r x hs hx := by
    rw [hl] at he
    rw [hi] at his
    obtain ⟨r', hr', i, h1, h2⟩ := h.pop is his e he hev r x hs hx
    have := hg r'
    unfold genomeAt at this
    rw [h1] at this
    cases hj : t.w.heap[r']? with
    | none => rw [hj] at this; simp at this
    | some j =>
      rw [hj] at this
      simp only [Option.map_some, Option.some.injEq] at this
      exact ⟨r', hr', j, hj, this ▸ h2⟩

/-- The condition on the operators: they keep the quality of the best individual they are given. -/
def SubCfg.Careful (sub : SubCfg G) (size : G → Nat) (f : G → Except Err ℚ) (m : Mode) : Prop :=
  ∀ o ∈ sub.ops, ∀ x, o.Retains (Level size f m x)

theorem breed_rising (hc : c.Ordinary sub m) (hk : sub.Careful c.size f m) (hpos : 0 < sub.nElite) (ha : Alive c.size m s)
    (h : Rising c.size f m s) (hv : ∀ is, s.inds = [some is] → PopValued f m s.w.heap is) :
    tri (breed c) (fun _ s' => Rising c.size f m s') (fun _ => True) s := by
  unfold breed act
  refine tri_bind (tri_publish ?_)
  have h1 := h.push (p := "breeder") (n := "before_operator") (by simp)
  have ha1 := ha.push (p := "breeder") (n := "before_operator") (by simp)
  have hv1 : ∀ is, (s.push "breeder" "before_operator").inds = [some is] → PopValued f m (s.push "breeder" "before_operator").w.heap is := hv
  generalize s.push "breeder" "before_operator" = s₁ at h1 ha1 hv1
  refine tri_bind ?_
  unfold breedBody
  refine tri_bind (tri_get ?_)
  obtain ⟨is, hi, hn, hm⟩ := ha1.pop
  have hval := hv1 is hi
  refine tri_bind (tri_world (E := fun _ => True) ?_ fun w => trivial)
  rw [hc.subs, hi]
  show wlp (breedAll c.size [(sub, some is)]) _ _
  unfold breedAll
  rw [wlp_bind]
  have hev : Evaluated c.size sub.hib s₁.w is := by
    intro r hr
    obtain ⟨i, q, -, -, h3⟩ := hval.scored (size := c.size) hr
    exact ⟨_, hc.dir ▸ h3 s₁.w rfl⟩
  have hwlp : wlp (breedSub c.size sub is) (fun res w => ∀ e ∈ s₁.log, e.IsEval → ∀ r x, e.Shows r →
      HasScore c.size m.hib (ofHeap e.snap.heap) r x → Has (Level c.size f m x) w.heap res) s₁.w := by
    intro res w hrun e he hev' r x hs hx
    refine breedSub_has hc.sels hc.ops (fun o ho => hk o ho x) hpos hm hev (h1.pop is hi e he hev' r x hs hx) ?_ res w hrun
    intro a ha' b hb i j hai hbj hnb hli
    obtain ⟨i', qa, h2, h3, h4⟩ := hval.scored (size := c.size) ha'
    obtain ⟨j', qb, h5, h6, h7⟩ := hval.scored (size := c.size) hb
    rw [hai] at h2
    rw [hbj] at h5
    cases h2
    cases h5
    obtain ⟨q, hq, hnp⟩ := hli
    rw [h3] at hq
    cases hq
    refine ⟨qb, h6, not_preferred_trans hnp fun hp => hnb ?_⟩
    rw [← hc.dir]
    exact ⟨_, _, h4 s₁.w rfl, h7 s₁.w rfl, hp⟩
  refine hwlp.mono fun res w hw => ?_
  unfold breedAll
  rw [wlp_bind, wlp_pure, wlp_pure]
  refine tri_modify ?_
  refine tri_bind (tri_publish (tri_pure ?_))
  refine Rising.push (s := { s₁ with w := w, inds := [some res] }) ⟨h1.log, ?_⟩ (by simp)
  intro is' hi' e he hev' r x hs hx
  simp only [List.cons.injEq, Option.some.injEq, and_true] at hi'
  exact hi' ▸ hw e he hev' r x hs hx

/-- After an evaluation. -/
structure Risen (size : G → Nat) (f : G → Except Err ℚ) (m : Mode) (s : Run G κ) : Prop where
  rising : Rising size f m s
  valued : ∀ is, s.inds = [some is] → PopValued f m s.w.heap is

theorem evaluate_risen (hc : c.Ordinary sub m) (hd : sub.Computes f) {is : List Nat} (hi : s.inds = [some is])
    (hm : ∀ r ∈ is, modeAt s.w r = some m) (h : Rising c.size f m s) :
    tri (evaluatePopulation c) (fun _ s' => Risen c.size f m s') (fun _ => True) s := by
  unfold evaluatePopulation act
  refine tri_bind (tri_publish ?_)
  have h1 := h.push (p := "population_evaluator") (n := "before_operator") (by simp)
  have hi1 : (s.push "population_evaluator" "before_operator").inds = [some is] := hi
  have hm1 : ∀ r ∈ is, modeAt (s.push "population_evaluator" "before_operator").w r = some m := hm
  generalize s.push "population_evaluator" "before_operator" = s₁ at h1 hi1 hm1
  refine tri_bind ?_
  intro r s₂ e
  have h2 := evaluateBody_wlp hc hi1 hm1 (E := fun _ => True) (fun _ => trivial) r s₂ e
  cases r with
  | error _ => trivial
  | ok b =>
  have hval := (valued_prop hc hd).body s₁ is hi1 hm1 b s₂ e ⟨rfl, rfl⟩
  obtain ⟨w, rfl, -, hg, -⟩ := h2
  have hpv : PopValued f m w.heap is := fun r hr => hval r ⟨is, by show some is ∈ s₁.inds; rw [hi1]; simp, hr⟩
  have h3 : Rising c.size f m { s₁ with w := w } := h1.same rfl rfl hg
  refine tri_bind (tri_publish (tri_pure ?_))
  refine ⟨⟨keepsUp_snoc h3.log ?_, ?_⟩, ?_⟩
  · intro _ e' he' hev' r x hs hx
    obtain ⟨r', hr', i, hi', q, hq, hnp⟩ := h3.pop is hi1 e' he' hev' r x hs hx
    obtain ⟨j, q', h4, h5, h6⟩ := hpv.scored (size := c.size) hr'
    have h4' : w.heap[r']? = some i := hi'
    rw [h4] at h4'
    cases h4'
    rw [h5] at hq
    cases hq
    exact ⟨r', _, ⟨is, by show some is ∈ s₁.inds; rw [hi1]; simp, hr'⟩, h6 (ofHeap w.heap) rfl, hnp⟩
  · intro js hj e' he' hev' r x hs hx
    have hjs : js = is := by
      have : s₁.inds = [some js] := hj
      rw [hi1] at this
      simpa using this.symm
    subst hjs
    simp only [Run.push, List.mem_append, List.mem_singleton] at he'
    rcases he' with he' | rfl
    · exact h3.pop js hj e' he' hev' r x hs hx
    · obtain ⟨ks, hks, hr⟩ := hs
      have : some ks ∈ s₁.inds := hks
      rw [hi1] at this
      simp only [List.mem_singleton, Option.some.injEq] at this
      subst this
      obtain ⟨i, q, h4, h5, rfl⟩ := hpv.unique hr hx
      exact ⟨r, hr, i, h4, q, h5, not_preferred_self⟩
  · intro js hj
    have hjs : js = is := by
      have : s₁.inds = [some js] := hj
      rw [hi1] at this
      simpa using this.symm
    exact hjs ▸ hpv

theorem Risen.same {s t : Run G κ} (h : Risen size f m s) (hl : t.log = s.log) (hi : t.inds = s.inds)
    (hg : ∀ r, essence t.w.heap r = essence s.w.heap r) : Risen size f m t where
  rising := h.rising.same hl hi fun r => by
    have := congrArg (Option.map fun p : Nat × G × Fit => p.2.1) (hg r)
    simpa [essence, genomeAt, Function.comp_def] using this
  valued is his r hr := by
    rw [hi] at his
    obtain ⟨i, q, h1, h2, h3, h4, h5⟩ := h.valued is his r hr
    have := hg r
    unfold essence at this
    rw [h1] at this
    cases hj : t.w.heap[r]? with
    | none => rw [hj] at this; simp at this
    | some j =>
      rw [hj] at this
      simp only [Option.map_some, Option.some.injEq, Prod.mk.injEq] at this
      refine ⟨j, q, rfl, by rw [this.2.1]; exact h2, by rw [this.2.2]; exact h3, by rw [this.2.2]; exact h4, ?_⟩
      unfold Ind.mode at h5 ⊢
      rw [this.2.2]
      exact h5

theorem Risen.push {p n : String} (h : Risen size f m s) (hn : ¬ (p = "population_evaluator" ∧ n = "after_operator")) :
    Risen size f m (s.push p n) := ⟨h.rising.push hn, h.valued⟩

theorem recordBest_risen {b : Nat} (h : Risen size f m s) : tri (recordBest c b) (fun _ s' => Risen size f m s') (fun _ => True) s := by
  unfold recordBest
  refine tri_bind (tri_get ?_)
  refine tri_bind (tri_world (E := fun _ => True) ?_ fun w => trivial)
  rw [wlp_reading]
  intro v _
  exact tri_ite (fun _ => tri_modify (h.same rfl rfl fun _ => rfl)) (fun _ => tri_pure h)

theorem recordWorst_risen (h : Risen size f m s) : tri (recordWorst c) (fun _ s' => Risen size f m s') (fun _ => True) s := by
  unfold recordWorst
  refine tri_bind (tri_get ?_)
  split
  · refine tri_bind (tri_world (E := fun _ => True) ?_ fun w => trivial)
    rw [wlp_reading]
    intro v _
    exact tri_modify (h.same rfl rfl fun _ => rfl)
  · exact tri_raise trivial

theorem generation_risen (hc : c.Ordinary sub m) (hd : sub.Computes f) (hk : sub.Careful c.size f m) (hpos : 0 < sub.nElite)
    (ha : Alive c.size m s) (h : Risen c.size f m s) :
    tri (generationIteration c) (fun _ s' => Risen c.size f m s') (fun _ => True) s := by
  unfold generationIteration
  refine tri_bind ?_
  intro r s₁ e
  have h1 := tri_and (breed_alive hc ha) (breed_rising hc hk hpos ha h.rising h.valued) r s₁ e
  cases r with
  | error _ => trivial
  | ok _ =>
    obtain ⟨hb, h1⟩ := h1
    obtain ⟨is, hi, hn, hm⟩ := hb.alive.pop
    refine tri_bind ((evaluate_risen hc hd hi hm h1).mono fun b s₂ h2 => tri_bind (tri_modify ?_))
    have h3 : Risen c.size f m { s₂ with bestOfGen := some b } := h2.same rfl rfl fun _ => rfl
    exact tri_bind ((recordBest_risen h3).mono fun _ s₃ h4 => recordWorst_risen h4)

theorem updateGen_risen (h : Risen size f m s) {is : List Nat} (hi : s.inds = [some is]) (gen : Nat) :
    tri (updateGen gen) (fun _ s' => Risen size f m s') (fun _ => True) s := by
  unfold updateGen
  refine tri_bind (tri_get ?_)
  rw [hi]
  unfold forL
  refine tri_bind (tri_world (E := fun _ => True) ?_ fun w => trivial)
  refine (wlp_forL (I := fun _ (w : World G) => ∀ r, essence w.heap r = essence s.w.heap r) (fun _ => rfl) ?_).mono
    fun _ w hw => ?_
  · rintro pre a post w _ hw
    rw [wlp_update]
    intro r
    rw [← hw r]
    exact essence_modify fun i => ⟨rfl, rfl, rfl⟩
  · unfold forL
    exact tri_pure (h.same rfl rfl hw)

theorem shouldTerminate_risen (h : Risen size f m s) (gen : Nat) :
    tri (shouldTerminate c gen) (fun _ s' => Risen size f m s') (fun _ => True) s := by
  intro r s' e
  obtain ⟨ks, rfl⟩ := shouldTerminate_same gen r s' e
  cases r with
  | ok _ => exact h.same rfl rfl fun _ => rfl
  | error _ => trivial

theorem mainLoop_risen (hc : c.Ordinary sub m) (hd : sub.Computes f) (hk : sub.Careful c.size f m) (hpos : 0 < sub.nElite)
    (n gen : Nat) {s : Run G κ} (ha : Alive c.size m s) (h : Risen c.size f m s) :
    tri (mainLoop c n gen) (fun _ s' => Risen c.size f m s') (fun _ => True) s := by
  induction n generalizing gen s with
  | zero => exact tri_pure h
  | succ n ih =>
    unfold mainLoop
    refine tri_bind (tri_modify ?_)
    have ha0 : Alive c.size m { s with genNum := gen } := ⟨ha.log, ha.best, ha.pop⟩
    have h0 : Risen c.size f m { s with genNum := gen } := h.same rfl rfl fun _ => rfl
    obtain ⟨is, hi, -⟩ := ha0.pop
    refine tri_bind ?_
    intro r s₁ e
    have g1 := tri_and (updateGen_alive ha0 gen) (updateGen_risen h0 hi gen) r s₁ e
    cases r with
    | error _ => trivial
    | ok _ =>
    obtain ⟨ha1, h1⟩ := g1
    refine tri_bind (tri_get ?_)
    refine tri_bind (tri_modify ?_)
    refine tri_bind (tri_modify ?_)
    refine tri_bind ?_
    have ha1' : Alive c.size m { s₁ with w := { s₁.w with tape := c.stream (nextSeed s₁.genSeed) }, genSeed := nextSeed s₁.genSeed } :=
      ⟨ha1.log, ha1.best, ha1.pop⟩
    have h1' : Risen c.size f m { s₁ with w := { s₁.w with tape := c.stream (nextSeed s₁.genSeed) }, genSeed := nextSeed s₁.genSeed } :=
      h1.same rfl rfl fun _ => rfl
    intro r s₂ e
    have g2 := tri_and (generation_alive hc ha1') (generation_risen hc hd hk hpos ha1' h1') r s₂ e
    cases r with
    | error _ => trivial
    | ok _ =>
    obtain ⟨ha2, h2⟩ := g2
    refine tri_bind ?_
    intro r s₃ e
    have g3 := tri_and (shouldTerminate_alive ha2 gen) (shouldTerminate_risen h2 gen) r s₃ e
    cases r with
    | error _ => trivial
    | ok stop =>
    obtain ⟨ha3, h3⟩ := g3
    refine tri_ite (fun _ => ?_) (fun _ => ?_)
    · refine tri_bind (tri_modify (tri_publish ?_))
      exact Risen.push (s := { s₃ with finalGen := some gen }) (h3.same rfl rfl fun _ => rfl) (by simp)
    · exact tri_bind (tri_publish (ih _ (ha3.push (by simp)) (h3.push (by simp))))

theorem initRun_risen (hc : c.Ordinary sub m) (hd : sub.Computes f) (hr : s.Ready m) (hlog : s.log = []) :
    tri (initRun c) (fun _ s' => Risen c.size f m s') (fun _ => True) s := by
  unfold initRun
  refine tri_bind (tri_get ?_)
  refine tri_bind (tri_modify ?_)
  refine tri_bind ?_
  unfold createPopulation
  refine tri_bind (tri_get ?_)
  refine tri_bind (tri_world (E := fun _ => True) ?_ fun w => trivial)
  obtain ⟨o, ho, hgood⟩ : ∃ o, s.inds = [o] ∧ ∀ is, o = some is → is.Nodup ∧ ∀ r ∈ is, modeAt s.w r = some m := by
    rcases hr with h | ⟨is, h, h1, h2⟩
    · exact ⟨none, h, by simp⟩
    · exact ⟨some is, h, by rintro is' h'; cases h'; exact ⟨h1, h2⟩⟩
  rw [hc.subs]
  dsimp only
  rw [ho]
  show wlp (mapL _ [(sub, o)]) _ _
  unfold mapL
  rw [wlp_bind]
  refine (createSub_ready hc.dir hc.creators o (w := { s.w with tape := c.stream s.randomSeed }) hgood).mono ?_
  rintro res w ⟨is, rfl, hn, hm⟩
  unfold mapL
  rw [wlp_bind, wlp_pure, wlp_pure]
  refine tri_modify ?_
  have h1 : Rising c.size f m { s with w := w, inds := [some is] } := by
    refine ⟨?_, ?_⟩
    · intro past e future hl
      have hl' : s.log = past ++ e :: future := hl
      rw [hlog] at hl'
      simp at hl'
    · intro _ _ e he
      have he' : e ∈ s.log := he
      rw [hlog] at he'
      simp at he'
  refine tri_bind ((evaluate_risen hc hd (is := is) rfl hm h1).mono fun b s₂ h2 => ?_)
  refine tri_bind (tri_modify (tri_publish ?_))
  exact Risen.push (s := { s₂ with bestOfRun := some b }) (h2.same rfl rfl fun _ => rfl) (by simp)

/-- C108: the best individual reported by `best_of_run_` never becomes worse: whenever the algorithm publishes an event
(also in runs that raise afterwards), the individual that was `best_of_run_` at an earlier one does not beat the current. -/
theorem C108_best_of_run (hc : c.Ordinary sub m) (hr : s.Ready m) (hlog : s.log = []) (r : Except Err Unit)
    (h : evolve c s = (r, s')) {past mid future : List (Event G)} {e₁ e₂ : Event G}
    (hl : s'.log = past ++ e₁ :: mid ++ e₂ :: future) (h1 : e₁.publisher = "algorithm") (h2 : e₂.publisher = "algorithm") :
    ∃ b₁ b₂, e₁.snap.bestOfRun = some b₁ ∧ e₂.snap.bestOfRun = some b₂ ∧ ¬ Beats c.size m.hib (ofHeap e₂.snap.heap) b₁ b₂ := by
  have ha := C35_always hc hr hlog h
  obtain ⟨b₁, hb1, ⟨e, he, hev, hsh⟩, -⟩ := ha past e₁ (mid ++ e₂ :: future) (by rw [hl]; simp) h1
  obtain ⟨b₂, hb2, -, hall⟩ := ha (past ++ e₁ :: mid) e₂ future hl h2
  exact ⟨b₁, b₂, hb1, hb2, (hall e (by simp [he]) hev b₁ hsh).2.2⟩

/-- C108, as the property says it, for populations: with at least one elite and a deterministic evaluator, every generation
contains an individual at least as good as every individual of every earlier generation. -/
def C108_statement : Prop :=
  ∀ (c : Cfg Nat Unit) (sub : SubCfg Nat) (m : Mode) (f : Nat → Except Err ℚ) (s s' : Run Nat Unit), c.Ordinary sub m →
    sub.Computes f → 0 < sub.nElite → s.Ready m → s.log = [] → evolve c s = (.ok (), s') → KeepsUp c.size m.hib s'.log

/-- **C108 (partial)**: that holds if every operator keeps the quality of the best individual it is given: one of the
individuals it returns is at least as good.  (`IdentityTransformation` is such an operator; crossovers and mutations are
not, and they are applied to the elites as to everybody else.) -/
theorem C108_careful_partial (hc : c.Ordinary sub m) (hd : sub.Computes f) (hk : sub.Careful c.size f m) (hpos : 0 < sub.nElite)
    (hr : s.Ready m) (hlog : s.log = []) (h : evolve c s = (.ok (), s')) : KeepsUp c.size m.hib s'.log := by
  have key : tri (evolve c) (fun _ s' => Risen c.size f m s') (fun _ => True) s := by
    unfold evolve
    refine tri_bind ?_
    intro r s₁ e
    have g1 := tri_and (initRun_alive hc hr hlog) (initRun_risen hc hd hr hlog) r s₁ e
    cases r with
    | error _ => trivial
    | ok _ =>
    obtain ⟨ha1, h1⟩ := g1
    refine tri_bind (tri.mono (Q := fun _ s₂ => Risen c.size f m s₂) ?_ fun _ s₂ h2 => ?_)
    · unfold afterInit
      refine tri_bind (tri_get (tri_bind ?_))
      intro r s₃ e
      have g3 := tri_and (shouldTerminate_alive ha1 s₁.genNum) (shouldTerminate_risen h1 s₁.genNum) r s₃ e
      cases r with
      | error _ => trivial
      | ok v =>
      obtain ⟨ha3, h3⟩ := g3
      refine tri_ite (fun _ => tri_bind (tri_modify (tri_publish ?_)))
        (fun _ => mainLoop_risen hc hd hk hpos _ _ ha3 h3)
      exact Risen.push (s := { s₃ with finalGen := some 0 }) (h3.same rfl rfl fun _ => rfl) (by simp)
    · refine tri_bind (tri_publish (tri_modify ?_))
      have := h2.push (p := "algorithm") (n := "evolution_finished") (by simp)
      exact this.same rfl rfl fun _ => rfl
  exact (key _ s' h).rising.log

theorem identity_careful {p : ℚ} (ho : ∀ o ∈ sub.ops, o = identityOp p) : sub.Careful size f m := by
  intro o hm x
  rw [ho o hm]
  exact identity_retains p

/-! ## Examples -/

/-- Two individuals, one elite, fitness = genome; the operator is given. -/
def progSub (o : Op Nat) : SubCfg Nat where
  creators := []
  pick := pure 0
  ops := [o]
  sels := [tournament (fun _ => 1) 2 false]
  popSize := 2
  nElite := 1
  hib := true
  evaluate := fun g => pure g

def progCfg (o : Op Nat) : Cfg Nat Unit where
  size := fun _ => 1
  subs := [progSub o]
  stream := fun seed n => seed + n * n
  maxGen := 2
  checker := .none
  sched := fun _ n => List.range n
  submit := false

def progInd (id g : Nat) : Ind Nat := ⟨id, 0, g, ⟨.none, false, true, false, false, none⟩, 0, [], [], true, []⟩

def progRun : Run Nat Unit :=
  ⟨⟨[progInd 1 5, progInd 2 8], 3, fun n => n⟩, [some [0, 1]], none, none, none, 0, 42, 42, none, [], false, []⟩

theorem progCfg_ordinary {o : Op Nat} (ho : o.Good) : (progCfg o).Ordinary (progSub o) ⟨true, none⟩ where
  subs := rfl
  dir := rfl
  creators := by simp [progSub]
  sels := ⟨_, _, rfl, tournament_good _ _, tournament_fills _ _⟩
  ops := by simpa [progSub] using ho
  sched := fun _ _ => List.Perm.refl _
  map := rfl

theorem progRun_ready : progRun.Ready ⟨true, none⟩ := by
  refine .inr ⟨[0, 1], rfl, by decide, ?_⟩
  intro r hr
  simp only [List.mem_cons, List.not_mem_nil, or_false] at hr
  rcases hr with rfl | rfl <;> rfl

theorem prog_identity_ends : (evolve (progCfg (identityOp 1)) progRun).1 = .ok () ∧
    (evolve (progCfg (identityOp 1)) progRun).2.genNum = 2 := by decide +kernel

example := C108_careful_partial (c := progCfg (identityOp 1)) (sub := progSub (identityOp 1)) (progCfg_ordinary (identity_good 1)) (f := fun g => .ok (g : ℚ)) (fun _ _ => rfl)
  (identity_careful (sub := progSub (identityOp 1)) (p := 1) (by simp [progSub])) (by decide) progRun_ready rfl
  (ran prog_identity_ends.1)

example := fun past mid future e₁ e₂ => C108_best_of_run (past := past) (mid := mid) (future := future) (e₁ := e₁) (e₂ := e₂)
  (progCfg_ordinary (identity_good 1)) progRun_ready rfl _ (ran prog_identity_ends.1)

/-- An operator that halves. -/
def halve : Op Nat := Op.inPlace "halve" 1 1 fun gs => pure (some (gs.map (· / 2)))

theorem prog_halve_ends : (evolve (progCfg halve) progRun).1 = .ok () := by decide +kernel


theorem halve_good : halve.Good := by
  unfold halve
  exact Op.inPlace_good _ _ _ _

/-- An evaluation has ended with this population, whose members have at most (at least) the score `q`. -/
def endsWith (cmp : ℚ → ℚ → Bool) (is : List Nat) (q : ℚ) (e : Event Nat) : Bool :=
  e.publisher == "population_evaluator" && (e.name == "after_operator") && decide (e.snap.inds = [some is]) &&
    is.all fun r => match e.snap.heap[r]? with
      | some i => i.fit.evaluated && i.fit.hib && i.fit.bloat.isNone &&
          match i.fit.value with
          | .num x => cmp x q
          | _ => false
      | none => false

theorem prog_halve_first : ((evolve (progCfg halve) progRun).2.log[1]?).any (endsWith (fun a b => decide (b ≤ a)) [0, 1] 5) = true := by
  decide +kernel

theorem prog_halve_second : ((evolve (progCfg halve) progRun).2.log[6]?).any (endsWith (fun a b => decide (a ≤ b)) [2, 3] 4) = true := by
  decide +kernel

theorem endsWith_spec {cmp : ℚ → ℚ → Bool} {is : List Nat} {q : ℚ} {e : Event Nat} (h : endsWith cmp is q e = true) :
    e.IsEval ∧ (∀ r, e.Shows r ↔ r ∈ is) ∧ ∀ r ∈ is, ∃ x, cmp x q = true ∧
      (∃ i, e.snap.heap[r]? = some i ∧ i.fit.value = .num x ∧ i.fit.evaluated = true) ∧
      ∀ y, HasScore (fun _ => 1) true (ofHeap e.snap.heap) r y ↔ y = x := by
  simp only [endsWith, Bool.and_eq_true, beq_iff_eq, decide_eq_true_eq, List.all_eq_true] at h
  obtain ⟨⟨⟨h1, h2⟩, h3⟩, h4⟩ := h
  refine ⟨⟨h1, h2⟩, ?_, ?_⟩
  · intro r
    simp [Event.Shows, h3]
  · intro r hr
    have := h4 r hr
    cases hi : e.snap.heap[r]? with
    | none => rw [hi] at this; simp at this
    | some i =>
      rw [hi] at this
      simp only [Bool.and_eq_true, Option.isNone_iff_eq_none] at this
      obtain ⟨⟨⟨g1, g2⟩, g3⟩, g4⟩ := this
      cases hv : i.fit.value with
      | none => rw [hv] at g4; simp at g4
      | obj _ => rw [hv] at g4; simp at g4
      | num x =>
        rw [hv] at g4
        refine ⟨x, g4, ⟨i, rfl, hv, g1⟩, fun y => ⟨?_, ?_⟩⟩
        · rintro ⟨j, b, q', hj, hh, rfl⟩
          simp only [ofHeap] at hj
          rw [hi, Option.some.injEq] at hj
          subst hj
          have e1 := hh.value
          rw [hv, FVal.num.injEq] at e1
          have e2 := hh.bloat
          rw [g3] at e2
          subst e1 e2
          rfl
        · rintro rfl
          exact ⟨i, none, y, hi, ⟨hv, g1, g2, g3⟩, rfl⟩

/-- **C108, refuted**: the elite 8 is copied into the next generation and then halved like everybody else, so that nobody
in the next generation is better than 4, while everybody had at least 5 before. -/
theorem C108_refuted : ¬ C108_statement := by
  intro h
  have hk := h (progCfg halve) (progSub halve) ⟨true, none⟩ (fun g => .ok (g : ℚ)) progRun _ (progCfg_ordinary halve_good)
    (fun _ _ => rfl) (by decide) progRun_ready rfl (ran prog_halve_ends)
  have h1 := prog_halve_first
  have h2 := prog_halve_second
  generalize (evolve (progCfg halve) progRun).2.log = L at hk h1 h2
  rw [Option.any_eq_true] at h1 h2
  obtain ⟨e₁, he1, h1⟩ := h1
  obtain ⟨e₂, he2, h2⟩ := h2
  obtain ⟨a1, b1, c1⟩ := endsWith_spec h1
  obtain ⟨a2, b2, c2⟩ := endsWith_spec h2
  obtain ⟨l2, e2⟩ := List.getElem?_eq_some_iff.1 he2
  have hsplit : L = L.take 6 ++ e₂ :: L.drop 7 := by
    rw [← e2, ← List.drop_eq_getElem_cons, List.take_append_drop]
  have hmem : e₁ ∈ L.take 6 := by
    refine List.mem_of_getElem? (i := 1) ?_
    rw [List.getElem?_take_of_lt (by decide)]
    exact he1
  obtain ⟨x, hx, -, hs⟩ := c1 0 (by simp)
  obtain ⟨r', x', hsh, hsc, hp⟩ := hk _ _ _ hsplit a2 e₁ hmem a1 0 x ((b1 0).2 (by simp)) ((hs x).2 rfl)
  obtain ⟨y, hy, -, ht⟩ := c2 r' ((b2 r').1 hsh)
  obtain rfl : x' = y := (ht x').1 hsc
  simp only [decide_eq_true_eq] at hx hy
  simp only [Preferred, if_true, not_lt] at hp
  linarith

end Verif.Evo
