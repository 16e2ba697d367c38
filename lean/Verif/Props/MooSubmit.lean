import Verif.Model.MooSubmit
import Verif.Props.MooTotal
import Verif.Lemmas.MooProgress

/-! # C149 — NSGA-II with `executor_method="submit"` -/

namespace Verif.Evo
open PyM

/-- Tasks run in any order, with an invariant that depends on the positions done. -/
theorem executorMap_wlp_upto {σ α : Type} {s : σ} {order refs : List Nat} {task : Nat → PyM σ α}
    (I : List Nat → σ → Prop) (h0 : I [] s)
    (ht : ∀ pre i post r s, order = pre ++ i :: post → refs[i]? = some r → I pre s →
      wlp (task r) (fun _ s' => I (pre ++ [i]) s') s) :
    wlp (executorMap order task refs) (fun vs s' => vs.length = refs.length ∧ I order s') s := by
  unfold executorMap
  rw [wlp_bind]
  have h1 : wlp (mapL (runTask task refs) order) (fun _ s' => I order s') s := by
    refine wlp_mapL (I := fun is _ s' => I is s') h0 ?_
    intro pre i post ys s₁ hsplit hI₁
    unfold runTask
    cases hr : refs[i]? with
    | none => simp
    | some r =>
      dsimp only
      rw [wlp_bind]
      exact (ht pre i post r s₁ hsplit hr hI₁).mono fun v s₂ h => by rw [wlp_pure]; exact h
  refine h1.mono fun rs s₁ hI₁ => ?_
  have h2 : wlp (mapL (lookupResult rs) (List.range refs.length)) (fun vs s' =>
      vs.length = (List.range refs.length).length ∧ I order s') s₁ := by
    refine wlp_mapL (I := fun is vs s' => vs.length = is.length ∧ I order s') ⟨rfl, hI₁⟩ ?_
    rintro pre i post ys s₂ _ ⟨hl, hI₂⟩
    unfold lookupResult
    split
    · rw [wlp_pure]; exact ⟨by simp [hl], hI₂⟩
    · simp
  exact h2.mono fun vs s₂ h => ⟨by simpa using h.1, h.2⟩

/-- The same for tasks that do not raise. -/
theorem executorMap_wp_upto {σ α : Type} {s : σ} {order refs : List Nat}
    (hp : order.Perm (List.range refs.length)) {task : Nat → PyM σ α}
    (I : List Nat → σ → Prop) (h0 : I [] s)
    (ht : ∀ pre i post r s, order = pre ++ i :: post → refs[i]? = some r → I pre s →
      wp (task r) (fun _ s' => I (pre ++ [i]) s') s) :
    wp (executorMap order task refs) (fun vs s' => vs.length = refs.length ∧ I order s') s := by
  suffices wp (executorMap order task refs) (fun _ _ => True) s from
    (this.and (executorMap_wlp_upto I h0 fun pre i post r s h1 h2 h3 => (ht pre i post r s h1 h2 h3).wlp)).mono
      fun _ _ h => h.2
  unfold executorMap
  rw [wp_bind]
  have h1 : wp (mapL (runTask task refs) order) (fun rs s' => rs.map Prod.fst = order ∧ I order s') s := by
    refine wp_mapL (I := fun is rs s' => rs.map Prod.fst = is ∧ I is s') ⟨rfl, h0⟩ ?_
    rintro pre i post rs s₁ horder ⟨h, hI₁⟩
    have hlt : i < refs.length := by simpa using hp.subset (a := i) (by simp [horder])
    unfold runTask
    rw [List.getElem?_eq_getElem hlt]
    dsimp only
    rw [wp_bind]
    refine (ht pre i post _ s₁ horder (List.getElem?_eq_getElem hlt) hI₁).mono fun v s₂ hI₂ => ?_
    rw [wp_pure]
    exact ⟨by rw [List.map_append, h]; rfl, hI₂⟩
  refine h1.mono ?_
  rintro rs s₁ ⟨hrs, -⟩
  refine (wp_mapL (I := fun _ _ _ => True) trivial ?_).mono fun _ _ _ => trivial
  rintro pre i post vs s₂ hi -
  have hmem : i ∈ rs.map Prod.fst := by
    rw [hrs]
    exact hp.symm.subset (by rw [hi]; simp)
  obtain ⟨p, hp1, rfl⟩ := List.mem_map.1 hmem
  unfold lookupResult
  cases hf : rs.find? (fun q => q.1 == p.1) with
  | none =>
    have := List.find?_eq_none.1 hf p hp1
    simp at this
  | some q => exact wp_pure.2 trivial

end Verif.Evo

namespace Verif.Moo
open PyM
variable {G : Type} {c : MSub G} {order inds : List Nat} {w : MWorld G}

/-- Whoever has been evaluated by `evaluate` has a fitness. -/
theorem submit_marks (c : MSub G) (order inds : List Nat) (w : MWorld G) :
    wlp (Evo.executorMap order (evaluateOneM c) inds) (fun vs w' => vs.length = inds.length ∧
      ∀ i ∈ order, ∀ r, inds[i]? = some r → (w'.fits r).objs ≠ none) w := by
  refine Evo.executorMap_wlp_upto
    (I := fun done (w' : MWorld G) => ∀ i ∈ done, ∀ r, inds[i]? = some r → (w'.fits r).objs ≠ none) (by simp) ?_
  rintro pre i post r w₁ - hr hI
  unfold evaluateOneM runEvalM assign setFit
  rw [wlp_bind, wlp_bind, wlp_get, wlp_mrand]
  refine (wlp_true _ _).mono fun v t _ => ?_
  rw [wlp_bind, wlp_bind, wlp_get, wlp_bind, wlp_ofExcept]
  intro f hf
  rw [wlp_modify]
  refine wlp_pure.2 ?_
  intro j hj x hx
  dsimp only
  by_cases hxr : x = r
  · rw [if_pos hxr]
    unfold Fit.set at hf
    split at hf
    · cases hf
    · cases hf; simp
  · rw [if_neg hxr]
    rcases List.mem_append.1 hj with hj | hj
    · exact hI j hj x hx
    · obtain rfl := List.mem_singleton.1 hj
      rw [hr] at hx
      exact absurd (Option.some.inj hx).symm hxr

/-- The evaluation of a population never returns. -/
theorem evaluateSubmitM_error (hp : order.Perm (List.range inds.length)) (b : Nat) (w' : MWorld G) :
    evaluateSubmitM c order inds w ≠ (.ok b, w') := by
  suffices wlp (evaluateSubmitM c order inds) (fun _ _ => False) w from fun h => this b w' h
  unfold evaluateSubmitM
  rw [wlp_bind]
  refine (submit_marks c order inds w).mono ?_
  rintro vs w₁ ⟨hl, hm⟩
  rw [wlp_bind]
  cases inds with
  | nil => exact (wlp_true _ _).mono fun _ _ _ => by simp
  | cons r rest =>
    cases vs with
    | nil => simp at hl
    | cons v vs =>
      have hr : (w₁.fits r).objs ≠ none :=
        hm 0 (hp.symm.subset (by simp)) r rfl
      obtain ⟨u, hu⟩ := Option.ne_none_iff_exists'.1 hr
      rw [List.zip_cons_cons]
      unfold forL assignInd
      rw [wlp_bind, wlp_bind, wlp_get, hu]
      simp

/-- The evaluation raises `AttributeError` if the evaluator works and the individuals are distinct and not evaluated; by then all of
them have got the objective values that are theirs. -/
theorem C149_evaluates_partial {f : G → List ℚ} (hp : order.Perm (List.range inds.length)) (hnd : inds.Nodup) (hne : inds ≠ [])
    (hf : ∀ g t, (c.evaluate g t).1 = .ok (f g)) (hu : ∀ r ∈ inds, (w.fits r).objs = none) :
    ∃ w', evaluateSubmitM c order inds w = (.error .attributeError, w') ∧ w'.genome = w.genome ∧ w'.next = w.next ∧
      (∀ r ∈ inds, (w'.fits r).objs = some (f (w.genome r))) ∧
      ∀ r, r ∉ inds → w'.fits r = w.fits r := by
  have hmap : wp (Evo.executorMap order (evaluateOneM c) inds) (fun vs w' => vs.length = inds.length ∧
      (w'.genome = w.genome ∧ w'.next = w.next ∧
      (∀ i ∈ order, ∀ r, inds[i]? = some r → (w'.fits r).objs = some (f (w.genome r))) ∧
      ∀ r, (∀ i ∈ order, inds[i]? ≠ some r) → w'.fits r = w.fits r)) w := by
    refine Evo.executorMap_wp_upto hp
      (I := fun done (w' : MWorld G) => w'.genome = w.genome ∧ w'.next = w.next ∧
        (∀ i ∈ done, ∀ r, inds[i]? = some r → (w'.fits r).objs = some (f (w.genome r))) ∧
        ∀ r, (∀ i ∈ done, inds[i]? ≠ some r) → w'.fits r = w.fits r) ⟨rfl, rfl, by simp, fun _ _ => rfl⟩ ?_
    rintro pre i post r w₁ hsplit hr ⟨h1, h2, h3, h4⟩
    have hord : order.Nodup := hp.nodup_iff.2 List.nodup_range
    have hlt : i < inds.length := (List.getElem?_eq_some_iff.1 hr).1
    have hnot : ∀ j ∈ pre, inds[j]? ≠ some r := by
      intro j hj hjr
      have hlt' : j < inds.length := (List.getElem?_eq_some_iff.1 hjr).1
      have : j = i := (List.Nodup.getElem_inj_iff hnd).1 (by
        have a := (List.getElem?_eq_some_iff.1 hjr).2
        have b := (List.getElem?_eq_some_iff.1 hr).2
        rw [a, b])
      subst this
      rw [hsplit, List.nodup_append] at hord
      exact hord.2.2 j hj j (by simp) rfl
    have hfit := h4 r hnot
    have hnone : (w₁.fits r).objs = none := by rw [hfit]; exact hu r (List.mem_of_getElem? hr)
    unfold evaluateOneM runEvalM assign setFit
    rw [wp_bind, wp_bind, wp_get, wp_mrand]
    refine ⟨f (w₁.genome r), (c.evaluate (w₁.genome r) w₁.tape).2, ?_, ?_⟩
    · exact Prod.ext (hf _ _) rfl
    dsimp only
    rw [wp_bind, wp_bind, wp_get, wp_bind, wp_ofExcept]
    refine ⟨_, by unfold Fit.set; dsimp only; rw [hnone], ?_⟩
    rw [wp_modify]
    refine wp_pure.2 ⟨h1, h2, fun j hj x hx => ?_, fun x hx => ?_⟩
    · dsimp only
      by_cases hxr : x = r
      · subst hxr
        rw [if_pos rfl, h1]
      · rw [if_neg hxr]
        rcases List.mem_append.1 hj with hj | hj
        · exact h3 j hj x hx
        · obtain rfl := List.mem_singleton.1 hj
          rw [hr] at hx
          exact absurd (Option.some.inj hx).symm hxr
    · dsimp only
      have hxr : x ≠ r := fun h => hx i (by simp) (h ▸ hr)
      rw [if_neg hxr]
      exact h4 x fun j hj => hx j (List.mem_append_left _ hj)
  obtain ⟨vs, w₁, hrun, hl, h1, h2, h3, h4⟩ := hmap
  have hall : ∀ r ∈ inds, (w₁.fits r).objs = some (f (w.genome r)) := by
    intro r hr
    obtain ⟨i, hi, hri⟩ := List.getElem_of_mem hr
    exact h3 i (hp.symm.subset (by simpa using hi)) r (by rw [List.getElem?_eq_getElem hi, hri])
  refine ⟨w₁, ?_, h1, h2, hall, fun r hr => h4 r fun i _ hi => hr (List.mem_of_getElem? hi)⟩
  unfold evaluateSubmitM
  rw [bind_of_ok hrun]
  refine bind_of_error ?_
  obtain ⟨r, rest, rfl⟩ := List.exists_cons_of_ne_nil hne
  obtain ⟨v, vs, rfl⟩ : ∃ v vs', vs = v :: vs' := by
    cases vs with
    | nil => simp at hl
    | cons v vs => exact ⟨v, vs, rfl⟩
  rw [List.zip_cons_cons]
  unfold forL
  refine bind_of_error ?_
  unfold assignInd
  rw [bind_of_ok (show PyM.get _ = (.ok _, _) from rfl)]
  rw [hall r (by simp)]
  rfl

/-- The objective values of C149 are those that `executor_method="map"` would have given. -/
theorem C149_same_partial {f : G → List ℚ} (hp : order.Perm (List.range inds.length)) (hnd : inds.Nodup) (hne : inds ≠ [])
    (hf : ∀ g t, (c.evaluate g t).1 = .ok (f g)) (hu : ∀ r ∈ inds, (w.fits r).objs = none) {b : Nat} {w₁ : MWorld G}
    (hmap : evaluateM c order inds w = (.ok b, w₁)) :
    ∃ w₂, evaluateSubmitM c order inds w = (.error .attributeError, w₂) ∧ 
      ∀ r ∈ inds, (w₂.fits r).objs = (w₁.fits r).objs := by
  obtain ⟨w₂, h1, h2, -, h4, -⟩ := C149_evaluates_partial hp hnd hne hf hu
  have hc : c.Computes f := fun g t v t' h => by
    have := hf g t
    rw [h] at this
    exact Except.ok.inj this
  refine ⟨w₂, h1, fun r hr => ?_⟩
  rw [h4 r hr, evaluateM_value hc b w₁ hmap r hr]

/-- C149 as stated: a run that completes with `executor_method="map"` completes with `"submit"` as well, with the same population. -/
def C149_statement : Prop :=
  ∀ (G : Type) (c : MCfg G) (s s' : MRun G), (∀ g k, (c.sched g k).Perm (List.range k)) → mevolve c s = (.ok (), s') →
    ∃ s'', mevolveSubmit c s = (.ok (), s'') ∧ s''.inds = s'.inds

/-- C149 is false, of every configuration: a run never completes. -/
theorem C149_refuted {c : MCfg G} (hc : ∀ g k, (c.sched g k).Perm (List.range k)) (s s' : MRun G) :
    mevolveSubmit c s ≠ (.ok (), s') ∧ minitSubmit c s ≠ (.ok (), s') := by
  have h : wlp (minitSubmit c) (fun _ _ => False) s := by
    unfold minitSubmit mact
    rw [wlp_bind, wlp_get, wlp_bind]
    refine (wlp_true _ _).mono fun _ s₁ _ => ?_
    rw [wlp_bind]
    refine (wlp_true _ _).mono fun _ s₂ _ => ?_
    rw [wlp_bind, wlp_bind]
    refine (wlp_true _ _).mono fun _ s₃ _ => ?_
    rw [wlp_bind]
    refine wlp.mono (Q := fun _ _ => False) ?_ fun _ _ h => h.elim
    unfold submitBody
    rw [wlp_bind]
    refine (wlp_true _ _).mono fun is s₄ _ => ?_
    rw [wlp_bind, wlp_get]
    unfold mworld
    rw [wlp_zoom]
    exact fun b w hw => evaluateSubmitM_error (hc _ _) b w hw
  refine ⟨fun he => ?_, fun he => h () s' he⟩
  have h2 : wlp (mevolveSubmit c) (fun _ _ => False) s := by
    unfold mevolveSubmit
    rw [wlp_bind]
    exact h.mono fun _ _ h => h.elim
  exact h2 () s' he

example (s' : MRun GA.Vec) : mevolveSubmit exVector exVectorRun ≠ (.ok (), s') :=
  (C149_refuted exVector_assembled.sched _ _).1

theorem C149_statement_refuted : ¬ C149_statement := by
  intro h
  obtain ⟨s', hrun, -⟩ : ∃ s', mevolve exVector exVectorRun = (.ok (), s') ∧ MCompleted (GA.Legal .float (.tup [0, 1]) 3) 4 2 s' :=
    C82_vectors GA.exLib_proper exVector_assembled ⟨rfl, fun r hr => absurd hr (Nat.not_lt_zero r), rfl, rfl⟩
      (fun r hr => absurd hr (Nat.not_lt_zero r))
  obtain ⟨s'', h1, -⟩ := h _ exVector exVectorRun s' exVector_assembled.sched hrun
  exact (C149_refuted exVector_assembled.sched _ _).1 h1

/-- The objectives of `exVector`, of three vectors that have not been evaluated. -/
example : ∃ w', evaluateSubmitM exVector.sub [2, 0, 1] [0, 1, 2] exVectorRun.w = (.error .attributeError, w') ∧
    ∀ r ∈ [0, 1, 2], (w'.fits r).objs = some [(exVectorRun.w.genome r).vector.headD 0, (exVectorRun.w.genome r).vector.tail.headD 0] := by
  obtain ⟨w', h1, -, -, h2, -⟩ := C149_evaluates_partial (c := exVector.sub) (w := exVectorRun.w) (order := [2, 0, 1])
    (inds := [0, 1, 2]) (f := fun v => [v.vector.headD 0, v.vector.tail.headD 0]) (by decide) (by decide) (by decide) (fun _ _ => rfl) (fun _ _ => rfl)
  exact ⟨w', h1, h2⟩

end Verif.Moo
