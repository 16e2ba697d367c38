import Verif.Lemmas.History

/-! # C25, C30, C45: fitness validity, identity and bookkeeping in all histories -/

namespace Verif.Evo
open PyM
variable {G : Type}

theorem newInd_run {s s' : World G} {g : G} {fit : Fit} {up : Bool} {r : Nat}
    (h : newInd g fit up s = (.ok r, s')) :
    r = s.heap.length ∧
      s' = { s with nextId := s.nextId + 1, heap := s.heap ++ [freshInd s.nextId g fit up] } := by
  have : wlp (newInd g fit up) (fun r s' => r = s.heap.length ∧
      s' = { s with nextId := s.nextId + 1, heap := s.heap ++ [freshInd s.nextId g fit up] }) s := by
    rw [wlp_newInd]; exact ⟨rfl, rfl⟩
  exact this r s' h

theorem clone_run {s s' : World G} {src dst : Nat} (h : clone src s = (.ok dst, s')) :
    ∃ i, s.heap[src]? = some i ∧ dst = s.heap.length ∧
      s' = { s with nextId := s.nextId + 1, heap := s.heap ++ [i.copy s.nextId] } := by
  have : wlp (clone src) (fun dst s' => ∃ i, s.heap[src]? = some i ∧ dst = s.heap.length ∧
      s' = { s with nextId := s.nextId + 1, heap := s.heap ++ [i.copy s.nextId] }) s := by
    rw [wlp_clone]; exact fun i hi => ⟨i, hi, rfl, rfl⟩
  exact this dst s' h

theorem update_run {s s' : World G} {r : Nat} {f : Ind G → Ind G} (h : update r f s = (.ok (), s')) :
    s' = { s with heap := s.heap.modify r f } := by
  have : update r f s = (.ok (), { s with heap := s.heap.modify r f }) := rfl
  rw [this] at h
  simp only [Prod.mk.injEq, true_and] at h
  exact h.symm

/-- Agreement of a fitness object with the specification. -/
structure Agrees (os : List Obs) (r : Nat) (f : Fit) : Prop where
  evaluated : f.evaluated = (lastValue os r).isSome
  value : ∀ v, lastValue os r = some v → f.value = v
  cache : f.cache = keepsOnClone os r

theorem hist_agrees {os : List Obs} {s : World G} (h : Hist os s) :
    ∀ r i, s.heap[r]? = some i → Agrees os r i.fit := by
  induction h with
  | start n t => intro r i hi; simp at hi
  | @step os s s' o hh hs ih =>
    have hlen : ∀ r i, s.heap[r]? = some i → r < s.heap.length := fun r i h =>
      (List.getElem?_eq_some_iff.1 h).1
    intro r i hi
    cases hs with
    | @created _ g v hib cache relative up bloat fit r' hf hn =>
      obtain ⟨rfl, rfl⟩ := newInd_run hn
      rw [List.getElem?_append] at hi
      by_cases hr : r < s.heap.length
      · simp only [hr, if_true] at hi
        have := ih r i hi
        have hne : r ≠ s.heap.length := by omega
        exact ⟨by simpa [lastValue, hne] using this.1, by simpa [lastValue, hne] using this.2,
          by simpa [keepsOnClone, hne] using this.3⟩
      · simp only [hr, if_false] at hi
        have hr' : r = s.heap.length := by
          have := (List.getElem?_eq_some_iff.1 hi).1
          simp at this; omega
        subst hr'
        simp only [Nat.sub_self, List.getElem?_cons_zero, Option.some.injEq] at hi
        subst hi
        unfold newFit at hf
        split at hf
        · cases hf
        · simp only [Except.ok.injEq] at hf
          subst hf
          refine ⟨?_, ?_, ?_⟩
          · by_cases hv : v = .none <;> simp [freshInd, lastValue, hv]
          · intro w hw
            simp only [lastValue, if_true] at hw
            split at hw
            · cases hw
            · simpa [freshInd] using hw
          · cases relative <;> simp [freshInd, keepsOnClone]
    | @set _ r' v hr' hn =>
      rw [update_run hn] at hi
      simp only [List.getElem?_modify] at hi
      cases hx : s.heap[r]? with
      | none => simp [hx] at hi
      | some x =>
        have := ih r x hx
        by_cases hr : r' = r
        · subst hr
          simp only [hx, if_true, Option.map_eq_map, Option.map_some, Option.some.injEq] at hi
          subst hi
          exact ⟨by simp [Fit.setFitness, lastValue], by simp [Fit.setFitness, lastValue],
            by simpa [Fit.setFitness, keepsOnClone] using this.3⟩
        · have hne : r ≠ r' := fun h => hr h.symm
          simp only [hx, hr, if_false, Option.map_eq_map, Option.map_some, Option.some.injEq] at hi
          subst hi
          exact ⟨by simpa [lastValue, hne] using this.1, by simpa [lastValue, hne] using this.2,
            by simpa [keepsOnClone] using this.3⟩
    | @reset _ r' hr' hn =>
      rw [update_run hn] at hi
      simp only [List.getElem?_modify] at hi
      cases hx : s.heap[r]? with
      | none => simp [hx] at hi
      | some x =>
        have := ih r x hx
        by_cases hr : r' = r
        · subst hr
          simp only [hx, if_true, Option.map_eq_map, Option.map_some, Option.some.injEq] at hi
          subst hi
          exact ⟨by simp [Fit.setNotEvaluated, lastValue], by simp [lastValue],
            by simpa [Fit.setNotEvaluated, keepsOnClone] using this.3⟩
        · have hne : r ≠ r' := fun h => hr h.symm
          simp only [hx, hr, if_false, Option.map_eq_map, Option.map_some, Option.some.injEq] at hi
          subst hi
          exact ⟨by simpa [lastValue, hne] using this.1, by simpa [lastValue, hne] using this.2,
            by simpa [keepsOnClone] using this.3⟩
    | @cloned _ src dst hn =>
      obtain ⟨x, hx, rfl, rfl⟩ := clone_run hn
      rw [List.getElem?_append] at hi
      by_cases hr : r < s.heap.length
      · simp only [hr, if_true] at hi
        have := ih r i hi
        have hne : r ≠ s.heap.length := by omega
        exact ⟨by simpa [lastValue, hne] using this.1, by simpa [lastValue, hne] using this.2,
          by simpa [keepsOnClone, hne] using this.3⟩
      · simp only [hr, if_false] at hi
        have hr' : r = s.heap.length := by
          have := (List.getElem?_eq_some_iff.1 hi).1
          simp at this; omega
        subst hr'
        simp only [Nat.sub_self, List.getElem?_cons_zero, Option.some.injEq] at hi
        subst hi
        have := ih src x hx
        unfold Ind.copy Fit.getstate
        cases hc : x.fit.cache with
        | true =>
          have hk := this.3
          rw [hc] at hk
          simp only [if_true]
          exact ⟨by simpa [lastValue, ← hk] using this.1, by simpa [lastValue, ← hk] using this.2,
            by simpa [keepsOnClone] using this.3⟩
        | false =>
          have hk := this.3
          rw [hc] at hk
          exact ⟨by simp [lastValue, ← hk], by simp [lastValue, ← hk], by simp [keepsOnClone, ← hk]⟩
    | @fired _ refs o u t res ho hu hp hn =>
      obtain ⟨-, -, hcol⟩ := applyOperator_fired ho hu hp hn
      have hc := hcol r
      rw [hi] at hc
      cases hx : s.heap[r]? with
      | none => simp [hx] at hc
      | some x =>
        have := ih r x hx
        simp only [hx, Option.map_some, Option.some.injEq, Prod.mk.injEq] at hc
        rw [hc.2]
        by_cases hr : r ∈ refs
        · simp only [hr, if_true]
          exact ⟨by simp [lastValue, hr, Fit.setNotEvaluated], by simp [lastValue, hr],
            by simpa [keepsOnClone, Fit.setNotEvaluated] using this.3⟩
        · simp only [hr, if_false]
          exact ⟨by simpa [lastValue, hr] using this.1, by simpa [lastValue, hr] using this.2,
            by simpa [keepsOnClone] using this.3⟩
    | @skipped _ refs o u t res _ hu hp hn =>
      obtain ⟨-, rfl⟩ := applyOperator_skipped hu hp hn
      have := ih r i hi
      exact ⟨by simpa [lastValue] using this.1, by simpa [lastValue] using this.2,
            by simpa [keepsOnClone] using this.3⟩
    | @mutated _ r' f hn =>
      rw [update_run hn] at hi
      simp only [List.getElem?_modify] at hi
      cases hx : s.heap[r]? with
      | none => simp [hx] at hi
      | some x =>
        have := ih r x hx
        have hfit : i.fit = x.fit := by
          simp only [hx, Option.map_eq_map, Option.map_some, Option.some.injEq] at hi
          rw [← hi]
          by_cases hr : r' = r <;> simp [hr]
        rw [hfit]
        exact ⟨by simpa [lastValue] using this.1, by simpa [lastValue] using this.2,
            by simpa [keepsOnClone] using this.3⟩

/-- C25: `is_fitness_evaluated` tells whether there is a fitness to read; for a relative fitness it always answers yes. -/
theorem C25_evaluated_flag (f : Fit) : (f.relative = false → (f.isEvaluated = true ↔ ∃ v, f.getPure = .ok v)) ∧
    (f.relative = true → f.isEvaluated = true) := by
  unfold Fit.isEvaluated Fit.getPure
  constructor
  · intro h
    rw [h]
    cases f.evaluated <;> simp
  · intro h
    simp [h]

example := C25_evaluated_flag { value := .num 1, evaluated := true, hib := true, relative := false, cache := false, bloat := none }

/-- C25: in every history, reading the fitness of an individual gives the value most recently set since
the last reset, clone or operator application, and is a `ValueError` if there is none. -/
theorem C25_no_stale_fitness {os : List Obs} {s : World G} (h : Hist os s) {r : Nat}
    (hr : r < s.heap.length) :
    pureOf s.heap r = match lastValue os r with
      | some v => .ok v
      | none => .error .valueError := by
  have hi := List.getElem?_eq_getElem hr
  have ha := hist_agrees h r _ hi
  unfold pureOf
  rw [hi]
  simp only [Fit.getPure, ha.1]
  cases hl : lastValue os r with
  | none => rfl
  | some v => simp [ha.2 v hl]

/-! ## C30: identity -/

theorem Step.ext {s s' : World G} {o : Obs} (h : Step s o s') : s.WF → s'.WF := by
  intro hw
  cases h with
  | created hf hn =>
    obtain ⟨rfl, rfl⟩ := newInd_run hn
    exact (Ext.push s (freshInd s.nextId _ _ _) rfl fun _ => False).wf hw
  | @set _ r v hr hn =>
    rw [update_run hn]
    exact (Ext.update s r (fun i => { i with fit := i.fit.setFitness v }) fun _ => rfl).wf hw
  | @reset _ r hr hn =>
    rw [update_run hn]
    exact (Ext.update s r (fun i => { i with fit := i.fit.setNotEvaluated }) fun _ => rfl).wf hw
  | cloned hn =>
    obtain ⟨x, hx, rfl, rfl⟩ := clone_run hn
    exact (Ext.push s (x.copy s.nextId) rfl fun _ => False).wf hw
  | @fired _ refs o u t res ho hu hp hn =>
    obtain ⟨h1, h2, hcol⟩ := applyOperator_fired ho hu hp hn
    have hids : s'.heap.map (·.id) = s.heap.map (·.id) := by
      apply List.ext_getElem?
      intro n
      have := congrArg (Option.map Prod.fst) (hcol n)
      simp only [Option.map_map] at this
      rw [List.getElem?_map, List.getElem?_map]
      exact this
    refine ⟨by rw [hids]; exact hw.sorted, fun i hi => ?_⟩
    have : i.id ∈ s'.heap.map (·.id) := List.mem_map_of_mem hi
    rw [hids] at this
    obtain ⟨j, hj, he⟩ := List.mem_map.1 this
    rw [h1, ← he]
    exact hw.below j hj
  | skipped _ hu hp hn =>
    obtain ⟨-, rfl⟩ := applyOperator_skipped hu hp hn
    exact ⟨hw.1, hw.2⟩
  | @mutated _ r f hn =>
    rw [update_run hn]
    exact (Ext.update s r (fun i => { i with genome := f i.genome }) fun _ => rfl).wf hw

theorem Hist.wf {os : List Obs} {s : World G} (h : Hist os s) : s.WF := by
  induction h with
  | start n t => exact ⟨.nil, by simp⟩
  | step _ hs ih => exact hs.ext ih

/-- C30: in every history all individuals have pairwise different ids. -/
theorem C30_ids_unique {os : List Obs} {s : World G} (h : Hist os s) {i j : Nat} {a b : Ind G}
    (hi : s.heap[i]? = some a) (hj : s.heap[j]? = some b) (hne : i ≠ j) : a.id ≠ b.id :=
  h.wf.ids_unique hi hj hne

/-- C30: a clone is a new object with the genome of its original, which it records in `cloned_from`; its
id is the counter; no other individual changes and no random number is drawn. -/
theorem C30_clone {s s' : World G} {src dst : Nat} (h : clone src s = (.ok dst, s')) :
    ∃ i c, s.heap[src]? = some i ∧ s'.heap[dst]? = some c ∧ dst = s.heap.length ∧
      s'.heap.length = s.heap.length + 1 ∧ c.genome = i.genome ∧ c.clonedFrom = i.id ∧
      c.id = s.nextId ∧ c.gen = i.gen ∧ c.selectedBy = i.selectedBy ∧ c.appliedOps = i.appliedOps ∧
      c.parents = (if i.updateParents then [] else i.parents) ∧
      (∀ r, r < s.heap.length → s'.heap[r]? = s.heap[r]?) ∧ s'.tape = s.tape := by
  obtain ⟨i, hi, rfl, rfl⟩ := clone_run h
  refine ⟨i, i.copy s.nextId, hi, by simp, rfl, by simp, rfl, rfl, rfl, rfl, rfl, rfl, rfl, ?_, rfl⟩
  intro r hr
  simp [List.getElem?_append_left hr]

/-- Cloning an existing individual never fails. -/
theorem C30_clone_total {s : World G} {src : Nat} (h : src < s.heap.length) :
    ∃ dst s', clone src s = (.ok dst, s') := by
  have : wp (clone src) (fun _ _ => True) s := by
    rw [wp_clone]; exact ⟨_, List.getElem?_eq_getElem h, trivial⟩
  obtain ⟨a, s', e, -⟩ := this
  exact ⟨a, s', e⟩

theorem Keeps.bind_dep {σ τ α β : Type} {φ : σ → τ} {m : PyM σ α} {f : α → PyM σ β} (hm : Keeps φ m)
    (hf : ∀ a s s', m s = (.ok a, s') → Keeps φ (f a)) : Keeps φ (m >>= f) := by
  intro s
  have h := hm s
  rcases hms : m s with ⟨r, s'⟩
  rw [hms] at h
  cases r with
  | error e => rw [bind_of_error hms]; exact h
  | ok a => rw [bind_of_ok hms, hf a s s' hms s']; exact h

theorem Keeps.forL_mem {σ τ α : Type} {φ : σ → τ} {f : α → PyM σ Unit} (xs : List α)
    (hf : ∀ a ∈ xs, Keeps φ (f a)) : Keeps φ (forL f xs) := by
  induction xs with
  | nil => exact Keeps.pure _
  | cons x xs ih =>
    exact (hf x (by simp)).bind fun _ => ih fun a ha => hf a (by simp [ha])

theorem keeps_other {r x : Nat} (hne : x ≠ r) (f : Ind G → Ind G) :
    Keeps (fun s : World G => s.heap[x]?) (update r f) := by
  intro s
  change (s.heap.modify r f)[x]? = _
  have : ¬ r = x := fun h => hne h.symm
  simp [this]

theorem keeps_inPlace_other (name : String) (p : ℚ) (arity : Nat) (f : List G → Rand (Option (List G)))
    {refs : List Nat} {x : Nat} (hx : x ∉ refs) :
    Keeps (fun s : World G => s.heap[x]?) (applyOperator (Op.inPlace name p arity f) refs) := by
  have hd : ∀ r, Keeps (fun s : World G => s.heap[x]?) (deref r) := by
    intro r s
    unfold deref
    rw [bind_of_ok (show PyM.get s = (.ok s, s) from rfl)]
    cases s.heap[r]? <;> rfl
  have hrand : ∀ {α : Type} (m : Rand α), Keeps (fun s : World G => s.heap[x]?) (rand m) :=
    fun m s => rfl
  refine (hrand _).bind fun u => Keeps.ite ?_ (Keeps.pure _)
  refine Keeps.bind (Keeps.forL_mem refs fun r hr => keeps_other (by rintro rfl; exact hx hr) _) fun _ => ?_
  have happ : Keeps (fun s : World G => s.heap[x]?) ((Op.inPlace name p arity f).apply refs) := by
    refine Keeps.bind (Keeps.mapL (fun r => (hd r).bind fun i => Keeps.pure _) refs) fun gs => ?_
    refine (hrand _).bind fun r => ?_
    cases r with
    | none => exact Keeps.pure _
    | some gs' =>
      refine Keeps.bind (Keeps.forL_mem _ fun q hq => keeps_other ?_ _) fun _ => Keeps.pure _
      rintro rfl
      exact hx (List.of_mem_zip hq).1
  have hret : ∀ s : World G, wlp ((Op.inPlace name p arity f).apply refs)
      (fun l _ => ∀ l', l = some l' → l' = refs) s := by
    intro s
    unfold Op.inPlace
    simp only [wlp_bind]
    refine (wlp_true _ _).mono fun gs _ _ => (wlp_true _ _).mono fun r s _ => ?_
    cases r with
    | none => simp
    | some gs' =>
      simp only [wlp_bind, wlp_pure]
      refine (wlp_true _ _).mono fun _ _ _ l' hl => ?_
      simpa using hl.symm
  refine Keeps.bind_dep happ fun a s s' ha => ?_
  cases a with
  | none => exact Keeps.raise _
  | some l =>
    have hl : l = refs := hret s _ _ ha l rfl
    subst hl
    refine Keeps.bind (Keeps.mapL (fun r => (hd r).bind fun i => Keeps.pure _) l) fun ids => ?_
    exact Keeps.bind (Keeps.forL_mem l fun r hr => keeps_other (by rintro rfl; exact hx hr) _)
      fun _ => Keeps.pure _

theorem applyOperator_inPlace_returns (name : String) (p : ℚ) (arity : Nat) (f : List G → Rand (Option (List G)))
    (refs : List Nat) (s : World G) :
    wlp (applyOperator (Op.inPlace name p arity f) refs) (fun l _ => l = refs) s := by
  unfold applyOperator Op.inPlace
  rw [wlp_bind]
  refine (wlp_true _ _).mono fun u s _ => ?_
  rw [wlp_ite]
  refine ⟨fun _ => ?_, fun _ => by rw [wlp_pure]⟩
  simp only [wlp_bind]
  refine (wlp_true _ _).mono fun _ s _ => (wlp_true _ _).mono fun gs s _ => (wlp_true _ _).mono fun r s _ => ?_
  cases r with
  | none => simp
  | some gs' =>
    simp only [wlp_bind, wlp_pure]
    refine (wlp_true _ _).mono fun _ _ _ => (wlp_true _ _).mono fun _ _ _ => (wlp_true _ _).mono fun _ _ _ => trivial

theorem keeps_plain_other {o : Op G} (ho : o.Plain) {refs : List Nat} {x : Nat} (hx : x ∉ refs) :
    Keeps (fun s : World G => s.heap[x]?) (applyOperator o refs) := by
  cases ho with
  | inPlace name p arity f => exact keeps_inPlace_other name p arity f hx
  | withFallback name name' p p' arity arity' f f' =>
    have hd : ∀ r, Keeps (fun s : World G => s.heap[x]?) (deref r) := by
      intro r s
      unfold deref
      rw [bind_of_ok (show PyM.get s = (.ok s, s) from rfl)]
      cases s.heap[r]? <;> rfl
    have hrand : ∀ {α : Type} (m : Rand α), Keeps (fun s : World G => s.heap[x]?) (rand m) :=
      fun m s => rfl
    refine (hrand _).bind fun u => Keeps.ite ?_ (Keeps.pure _)
    refine Keeps.bind (Keeps.forL_mem refs fun r hr => keeps_other (by rintro rfl; exact hx hr) _) fun _ => ?_
    have happ : Keeps (fun s : World G => s.heap[x]?)
        ((Op.withFallback name p arity f (Op.inPlace name' p' arity' f')).apply refs) := by
      refine Keeps.bind (Keeps.mapL (fun r => (hd r).bind fun i => Keeps.pure _) refs) fun gs => ?_
      refine (hrand _).bind fun r => ?_
      refine Keeps.bind (Keeps.forL_mem _ fun q hq => keeps_other ?_ _) fun _ => Keeps.ite (Keeps.pure _) ?_
      · rintro rfl
        exact hx (List.of_mem_zip hq).1
      · exact (keeps_inPlace_other name' p' arity' f' hx).bind fun _ => Keeps.pure _
    have hret : ∀ s : World G, wlp ((Op.withFallback name p arity f (Op.inPlace name' p' arity' f')).apply refs)
        (fun l _ => ∀ l', l = some l' → l' = refs) s := by
      intro s
      unfold Op.withFallback
      simp only [wlp_bind]
      refine (wlp_true _ _).mono fun gs _ _ => (wlp_true _ _).mono fun r s _ => (wlp_true _ _).mono fun _ s _ => ?_
      rw [wlp_ite]
      refine ⟨fun _ => ?_, fun _ => ?_⟩
      · rw [wlp_pure]; intro l' hl; simpa using hl.symm
      · rw [wlp_bind]
        refine (applyOperator_inPlace_returns name' p' arity' f' refs s).mono fun l _ hl => ?_
        rw [wlp_pure]; intro l' hl'; subst hl; simpa using hl'.symm
    refine Keeps.bind_dep happ fun a s s' ha => ?_
    cases a with
    | none => exact Keeps.raise _
    | some l =>
      have hl : l = refs := hret s _ _ ha l rfl
      subst hl
      refine Keeps.bind (Keeps.mapL (fun r => (hd r).bind fun i => Keeps.pure _) l) fun ids => ?_
      exact Keeps.bind (Keeps.forL_mem l fun r hr => keeps_other (by rintro rfl; exact hx hr) _)
        fun _ => Keeps.pure _

/-- C30: an operation changes no individual other than the ones it was given; in particular nothing done
to a clone changes its original, and nothing done to the original changes the clone. -/
theorem C30_independent {s s' : World G} {o : Obs} (h : Step s o s') {x : Nat} (hx : x < s.heap.length)
    (hn : ¬ o.touches x) : s'.heap[x]? = s.heap[x]? := by
  cases h with
  | created hf hn =>
    obtain ⟨rfl, rfl⟩ := newInd_run hn
    simp [List.getElem?_append_left hx]
  | set hr hn' => rw [update_run hn']; have : ¬ _ = x := fun h => hn h.symm; simp [this]
  | reset hr hn' => rw [update_run hn']; have : ¬ _ = x := fun h => hn h.symm; simp [this]
  | cloned hn =>
    obtain ⟨i, hi, rfl, rfl⟩ := clone_run hn
    simp [List.getElem?_append_left hx]
  | @fired _ refs o u t res ho hu hp hn' =>
    have := keeps_plain_other ho (refs := refs) hn s
    rw [hn'] at this
    exact this
  | skipped _ hu hp hn' =>
    obtain ⟨-, rfl⟩ := applyOperator_skipped hu hp hn'
    rfl
  | mutated hn' => rw [update_run hn']; have : ¬ _ = x := fun h => hn h.symm; simp [this]

/-! ## C45: what `apply_operator` records -/

/-- Everything about an individual except its genome. -/
def Ind.info (i : Ind G) : Ind Unit :=
  ⟨i.id, i.gen, (), i.fit, i.clonedFrom, i.selectedBy, i.appliedOps, i.updateParents, i.parents⟩

theorem updateAll_heap (f : Ind G → Ind G) (refs : List Nat) (hnd : refs.Nodup) (s : World G) :
    ∃ s', forL (fun r => update r f) refs s = (.ok (), s') ∧ s'.tape = s.tape ∧
      ∀ r, s'.heap[r]? = (s.heap[r]?).map fun i => if r ∈ refs then f i else i := by
  induction refs generalizing s with
  | nil => exact ⟨s, rfl, rfl, fun r => by simp⟩
  | cons a refs ih =>
    obtain ⟨s', h1, h2, h3⟩ := ih (List.nodup_cons.1 hnd).2 { s with heap := s.heap.modify a f }
    refine ⟨s', h1, h2, fun r => ?_⟩
    rw [h3 r, List.getElem?_modify]
    cases s.heap[r]? with
    | none => rfl
    | some i =>
      by_cases hr : a = r
      · subst hr; simp [(List.nodup_cons.1 hnd).1]
      · have : ¬ r = a := fun h => hr h.symm
        simp [hr, this]

/-- C45: when the operator fires, every participant ends up with unevaluated fitness, with the operator's
name appended to `applied_operators`, and — if it tracks parents — with the ids of all participants
appended to `parents`; nothing else about it (except the genome) changes. -/
theorem C45_fires {s : World G} {refs : List Nat} {name : String} {p u : ℚ} {arity : Nat} {t : Tape}
    {f : List G → Rand (Option (List G))} (hu : Rand.random s.tape = (.ok u, t)) (hp : u ≤ p)
    (hnd : refs.Nodup) :
    wlp (applyOperator (Op.inPlace name p arity f) refs) (fun res s' => res = refs ∧
      ∃ ids, List.Forall₂ (fun r n => (s.heap[r]?).map (·.id) = some n) refs ids ∧
        ∀ r i, s.heap[r]? = some i → ∃ j, s'.heap[r]? = some j ∧
          (r ∉ refs → j = i) ∧
          (r ∈ refs → j.fit.evaluated = false ∧ j.fit.getPure = .error .valueError ∧
            j.appliedOps = i.appliedOps ++ [name] ∧
            j.parents = (if i.updateParents then i.parents ++ ids else i.parents) ∧
            j.id = i.id ∧ j.gen = i.gen ∧ j.clonedFrom = i.clonedFrom ∧ j.selectedBy = i.selectedBy)) s := by
  intro res s' hrun
  have hother := fun x (hx : x ∉ refs) => keeps_inPlace_other name p arity f hx s
  rw [hrun] at hother
  obtain ⟨s₁, e1, n1, t1, l1, h1⟩ := resetAll_heap refs { s with tape := t }
  have hr : (rand Rand.random : WM G ℚ) s = (.ok u, { s with tape := t }) := by
    simp [rand, zoom, hu]
  unfold applyOperator at hrun
  have hp' : u ≤ (Op.inPlace name p arity f).probability := hp
  rw [bind_of_ok hr, if_pos hp', bind_of_ok e1, bind_ok] at hrun
  obtain ⟨a, s₂, happ, hrest⟩ := hrun
  have hkeep : Keeps (fun s : World G => s.heap.map Ind.info) ((Op.inPlace name p arity f).apply refs) := by
    have hd : ∀ r, Keeps (fun s : World G => s.heap.map Ind.info) (deref r) := by
      intro r s
      unfold deref
      rw [bind_of_ok (show PyM.get s = (.ok s, s) from rfl)]
      cases s.heap[r]? <;> rfl
    refine Keeps.bind (Keeps.mapL (fun r => (hd r).bind fun i => Keeps.pure _) refs) fun gs => ?_
    refine Keeps.bind (fun s => rfl) fun r => ?_
    cases r with
    | none => exact Keeps.pure _
    | some gs' =>
      refine Keeps.bind (Keeps.forL (fun q s => ?_) _) fun _ => Keeps.pure _
      exact map_modify_eq (φ := Ind.info) (f := fun i => { i with genome := q.2 }) (fun i => rfl) s.heap q.1
  have hk2 : s₂.heap.map Ind.info = s₁.heap.map Ind.info := by
    have := hkeep s₁; rw [happ] at this; exact this
  have hret : ∀ s : World G, wlp ((Op.inPlace name p arity f).apply refs)
      (fun l _ => ∀ l', l = some l' → l' = refs) s := by
    intro s
    unfold Op.inPlace
    simp only [wlp_bind]
    refine (wlp_true _ _).mono fun gs _ _ => (wlp_true _ _).mono fun r s _ => ?_
    cases r with
    | none => simp
    | some gs' =>
      simp only [wlp_bind, wlp_pure]
      refine (wlp_true _ _).mono fun _ _ _ l' hl => ?_
      simpa using hl.symm
  cases a with
  | none => simp [raise] at hrest
  | some l =>
    have hl : l = refs := hret s₁ _ _ happ l rfl
    subst hl
    simp only [bind_ok] at hrest
    obtain ⟨ids, s₃, hids, hrest⟩ := hrest
    obtain ⟨rfl, hids⟩ := ids_wlp l s₂ ids s₃ hids
    obtain ⟨_, s₄, hrec, hrest⟩ := hrest
    obtain ⟨s₄', hrec', -, h4⟩ := updateAll_heap (record (Op.inPlace name p arity f).name ids) l hnd s₃
    rw [hrec'] at hrec
    simp only [Prod.mk.injEq, true_and] at hrec
    subst hrec
    simp only [pure_run, Prod.mk.injEq, Except.ok.injEq] at hrest
    obtain ⟨rfl, rfl⟩ := hrest
    have hcol : ∀ r, (s₃.heap[r]?).map Ind.info = (s.heap[r]?).map fun i =>
        if r ∈ l then { i.info with fit := i.fit.setNotEvaluated } else i.info := by
      intro r
      rw [← List.getElem?_map, hk2, List.getElem?_map, h1 r, Option.map_map]
      congr 1
      funext i
      by_cases hr : r ∈ l <;> simp [hr, Ind.info]
    refine ⟨rfl, ids, ?_, fun r i hi => ?_⟩
    · refine hids.imp fun r n hn => ?_
      rw [← hn]
      have := congrArg (Option.map (·.id)) (hcol r)
      simp only [Option.map_map] at this
      have h2 : (s₃.heap[r]?).map (·.id) = (s₃.heap[r]?).map ((fun i : Ind Unit => i.id) ∘ Ind.info) := rfl
      rw [h2, this]
      cases s.heap[r]? with
      | none => rfl
      | some i => by_cases hr : r ∈ l <;> simp [hr, Ind.info]
    · have hc := hcol r
      rw [hi] at hc
      have hj := h4 r
      cases hx : s₃.heap[r]? with
      | none => simp [hx] at hc
      | some x =>
        rw [hx] at hj hc
        simp only [Option.map_some, Option.some.injEq] at hj hc
        refine ⟨_, hj, fun hr => ?_, fun hr => ?_⟩
        · have ho := hother r hr
          dsimp only at ho
          rw [hj, hi] at ho
          simpa using ho
        · simp only [hr, if_true] at hc ⊢
          have hfit : x.fit = i.fit.setNotEvaluated := congrArg (·.fit) hc
          have hops : x.appliedOps = i.appliedOps := congrArg (·.appliedOps) hc
          have hpar : x.parents = i.parents := congrArg (·.parents) hc
          have hup : x.updateParents = i.updateParents := congrArg (·.updateParents) hc
          refine ⟨by simp [record, hfit, Fit.setNotEvaluated],
            by simp [record, hfit, Fit.setNotEvaluated, Fit.getPure], by simp [record, hops, Op.inPlace],
            by simp [record, hpar, hup],
            congrArg (·.id) hc, congrArg (·.gen) hc, congrArg (·.clonedFrom) hc, congrArg (·.selectedBy) hc⟩

/-- C45: when the operator does not fire, nothing changes (except that a random number was drawn). -/
theorem C45_skips {o : Op G} {s : World G} {refs : List Nat} {u : ℚ} {t : Tape}
    (hu : Rand.random s.tape = (.ok u, t)) (hp : o.probability < u) :
    applyOperator o refs s = (.ok refs, { s with tape := t }) := by
  rcases h : applyOperator o refs s with ⟨res, s'⟩
  obtain ⟨rfl, rfl⟩ := applyOperator_skipped hu hp h
  rfl

/-- C45: an operator of probability 1 (or more) always fires, and one of negative probability never
does. -/
theorem C45_probability (t : Tape) : ∃ u t', Rand.random t = (.ok u, t') ∧
    (∀ p : ℚ, 1 ≤ p → u ≤ p) ∧ ∀ p : ℚ, p < 0 → p < u := by
  have hp := Rand.random_post t
  rcases h : Rand.random t with ⟨r, t'⟩
  have : ∃ u, r = .ok u := by
    have : (Rand.random t).1 = .ok ((((t 0) % (t 1 + 1) : Nat) : ℚ) / ((t 1 + 1 : Nat) : ℚ)) := rfl
    rw [h] at this
    exact ⟨_, this⟩
  obtain ⟨u, rfl⟩ := this
  have := hp u t' h
  exact ⟨u, t', rfl, fun p h1 => this.2.le.trans h1, fun p h1 => lt_of_lt_of_le h1 this.1⟩

/-! ## Instances -/

/-- The tape that always draws 0 (`random() = 0`). -/
def exTape : Tape := fun _ => 0

/-- Increment the genome. -/
def exIncr : List Nat → Rand (Option (List Nat)) := fun gs => pure (some (gs.map (· + 1)))

def exFit (v : FVal) : Fit := ⟨v, v ≠ .none, true, false, true, none⟩

/-- The worlds along a history: create, set, clone, apply an operator to the clone. -/
def exS0 : World Nat := ⟨[], 1, exTape⟩
def exS1 : World Nat := (newInd 5 (exFit .none) true exS0).2
def exS2 : World Nat := (setFitness 0 (.num 7) exS1).2
def exS3 : World Nat := (clone 0 exS2).2
def exS4 : World Nat := (applyOperator (Op.inPlace "Incr" 1 1 exIncr) [1] exS3).2

theorem exHist : Hist [.fired [1], .cloned 0 1, .set 0 (.num 7), .created 0 .none true false] exS4 := by
  refine .step (.step (.step (.step (s' := exS1) (.start 1 exTape)
    (.created (g := 5) (hib := some true) (bloat := none) (up := true) (fit := exFit .none) rfl rfl))
    (s' := exS2) (.set Nat.zero_lt_one rfl)) (s' := exS3) (.cloned rfl))
    (.fired (.inPlace "Incr" 1 1 exIncr) rfl ?_ rfl)
  decide +kernel

example : exS4.heap.length = 2 ∧ pureOf exS4.heap 0 = .ok (.num 7) ∧
    pureOf exS3.heap 1 = .ok (.num 7) ∧
    pureOf exS4.heap 1 = .error .valueError ∧ exS4.heap.map (·.genome) = [5, 6] ∧
    exS4.heap.map (·.id) = [1, 2] ∧ exS4.heap.map (·.parents) = [[], [2]] := by
  decide +kernel

end Verif.Evo
