import Verif.Lemmas.Legal

/-! # What is true of the genomes after so many generations -/

namespace Verif.Evo
open PyM
variable {G κ : Type} {P Q : G → Prop}

/-- Given individuals whose genomes satisfy `P`, the operator returns individuals whose genomes satisfy `Q`. -/
def Op.Takes (P Q : G → Prop) (o : Op G) : Prop :=
  ∀ refs s, Carry P s.heap refs → wlp (o.apply refs) (fun res s' => ∀ l, res = some l → Carry Q s'.heap l) s

theorem Carry.imp {h : List (Ind G)} {a : List Nat} (ha : Carry P h a) (hi : ∀ g, P g → Q g) : Carry Q h a :=
  fun r hr => (ha r hr).imp fun _ h => ⟨h.1, hi _ h.2⟩

theorem Op.inPlace_takes (name : String) (p : ℚ) (arity : Nat) {f : List G → Rand (Option (List G))} (hPQ : ∀ g, P g → Q g)
    (hf : ∀ gs, (∀ g ∈ gs, P g) → Post (f gs) fun res => ∀ gs', res = some gs' → ∀ g ∈ gs', Q g) :
    (Op.inPlace name p arity f).Takes P Q := by
  intro refs s hc
  unfold Op.inPlace
  dsimp only
  rw [wlp_bind]
  refine (genomes_wlp refs s).mono ?_
  rintro gs _ ⟨rfl, hgs⟩
  rename_i s
  have hP : ∀ g ∈ gs, P g := by
    intro g hg
    obtain ⟨k, hk, rfl⟩ := List.getElem_of_mem hg
    have hk' : k < refs.length := by rw [hgs.length_eq]; exact hk
    have h1 := hgs.get hk' hk
    obtain ⟨i, hi, hp⟩ := hc refs[k] (List.getElem_mem hk')
    simp only [List.get_eq_getElem] at h1
    unfold genomeAt at h1
    rw [hi] at h1
    simp only [Option.map_some, Option.some.injEq] at h1
    exact h1 ▸ hp
  rw [wlp_bind, wlp_rand]
  refine ((hf gs hP).wlp _).mono fun r t hr => ?_
  cases r with
  | none => rw [wlp_pure]; simp
  | some gs' =>
    simp only
    rw [wlp_bind]
    unfold putGenomes
    refine (updates_carry (P := Q) (fun q : Nat × G => q.1) (fun q i => { i with genome := q.2 })
      (refs.zip gs') (fun q hq i _ => hr gs' rfl q.2 (List.of_mem_zip hq).2) _).mono fun _ s' h => ?_
    rw [wlp_pure]
    rintro l hl
    simp only [Option.some.injEq] at hl
    exact hl ▸ h refs (hc.imp hPQ)

theorem applyOperator_takes {o : Op G} (ho : o.Takes P Q) (hPQ : ∀ g, P g → Q g) {inds : List Nat} {s : World G}
    (hc : Carry P s.heap inds) : wlp (applyOperator o inds) (fun l s' => Carry Q s'.heap l) s := by
  unfold applyOperator
  rw [wlp_bind, wlp_rand]
  refine (wlp_true _ _).mono fun u t _ => ?_
  rw [wlp_ite]
  refine ⟨fun _ => ?_, fun _ => by rw [wlp_pure]; exact hc.imp hPQ⟩
  rw [wlp_bind]
  refine (updates_carry (P := P) (fun r : Nat => r) (fun _ i => { i with fit := i.fit.setNotEvaluated })
    inds (fun _ _ _ h => h) { s with tape := t }).mono fun _ s₁ h1 => ?_
  rw [wlp_bind]
  refine (ho inds s₁ (h1 inds hc)).mono fun res s₂ h2 => ?_
  cases res with
  | none => simp
  | some l =>
    simp only
    rw [wlp_bind]
    refine (ids_wlp inds s₂).mono ?_
    rintro ids _ ⟨rfl, -⟩
    rename_i s₂
    rw [wlp_bind]
    refine (updates_carry (P := Q) (fun r : Nat => r) (fun _ => record o.name ids) l (fun _ _ _ h => h) s₂).mono
      fun _ s₃ h3 => ?_
    rw [wlp_pure]
    exact h3 l (h2 l rfl)

/-- A later chunk is not affected by what happens to an earlier one. -/
theorem slice_later {xs res A C : List Nat} {i ar j : Nat} (hij : i + ar ≤ j)
    (hA : A.length ≤ i) (hsl : (Py.slice xs i ((i + ar : Nat) : Int)).length ≤ ar)
    (hxs : xs = A ++ Py.slice xs i ((i + ar : Nat) : Int) ++ C)
    (hlen : (A ++ res ++ C).length = xs.length) :
    Py.slice (A ++ res ++ C) j ((j + ar : Nat) : Int) = Py.slice xs j ((j + ar : Nat) : Int) ∧
      ∀ r ∈ Py.slice xs j ((j + ar : Nat) : Int), r ∈ C := by
  set sl := Py.slice xs i ((i + ar : Nat) : Int) with hs
  have hres : res.length = sl.length := by
    have := congrArg List.length hxs
    simp only [List.length_append] at this hlen
    omega
  have hdrop : ∀ k, i + ar ≤ k → (A ++ res ++ C).drop k = xs.drop k ∧ ∀ r ∈ xs.drop k, r ∈ C := by
    intro k hk
    have e1 : (A ++ res ++ C).drop k = C.drop (k - (A.length + sl.length)) := by
      rw [List.drop_append, List.drop_of_length_le (by simp only [List.length_append]; omega)]
      simp [hres]
    have e2 : xs.drop k = C.drop (k - (A.length + sl.length)) := by
      conv_lhs => rw [hxs]
      rw [List.drop_append, List.drop_of_length_le (by simp only [List.length_append]; omega)]
      simp
    exact ⟨e1.trans e2.symm, fun r hr => List.mem_of_mem_drop (e2 ▸ hr)⟩
  have hcl : ∀ n : Nat, Py.clamp n (j : Int) = min j n := by intro n; unfold Py.clamp; rw [if_neg (by omega)]; simp
  unfold Py.slice
  rw [hlen]
  have hc : i + ar ≤ Py.clamp xs.length (j : Int) ∨ xs.length ≤ Py.clamp xs.length (j : Int) := by rw [hcl]; omega
  rcases hc with hc | hc
  · obtain ⟨h1, h2⟩ := hdrop _ hc
    rw [h1]
    exact ⟨rfl, fun r hr => h2 r (List.mem_of_mem_take hr)⟩
  · rw [List.drop_of_length_le (by rw [hlen]; exact hc), List.drop_of_length_le hc]
    simp

theorem applyChunks_takes {base : World G} {n : Nat} {m : Mode} {o : Op G} (ho : o.Good)
    (hp : o.Takes P Q) (hPQ : ∀ g, P g → Q g) (is : List Nat) (his : is.Pairwise fun a b => a + o.arity ≤ b)
    {s : World G} {inds : List Nat} (hb : Brood base n m s inds)
    (hq : ∀ i ∈ is, Carry P s.heap (Py.slice inds i ((i + o.arity : Nat) : Int))) (hc : Carry Q s.heap inds) :
    wlp (applyChunks o is inds) (fun res s' => Carry Q s'.heap res) s := by
  induction is generalizing s inds with
  | nil => unfold applyChunks; rw [wlp_pure]; exact hc
  | cons i is ih =>
    unfold applyChunks
    rw [wlp_bind]
    rw [List.pairwise_cons] at his
    have hA : (inds.take (Py.clamp inds.length (i : Int))).length ≤ i := by
      rw [List.length_take]
      unfold Py.clamp
      rw [if_neg (by omega)]
      simp
    have hsll : (Py.slice inds i ((i + o.arity : Nat) : Int)).length ≤ o.arity := by
      unfold Py.slice Py.clamp
      rw [if_neg (by omega), if_neg (by omega)]
      simp
      omega
    obtain ⟨A, C, hAi, hsplit, hset⟩ : ∃ A C : List Nat, A.length ≤ i ∧
        inds = A ++ Py.slice inds i ((i + o.arity : Nat) : Int) ++ C ∧
        ∀ ys, Py.setSlice inds i ((i + o.arity : Nat) : Int) ys = A ++ ys ++ C := by
      refine ⟨inds.take (Py.clamp inds.length (i : Int)),
        inds.drop (max (Py.clamp inds.length (i : Int)) (Py.clamp inds.length ((i + o.arity : Nat) : Int))), hA, ?_, fun ys => rfl⟩
      unfold Py.slice
      have h : max (Py.clamp inds.length (i : Int)) (Py.clamp inds.length ((i + o.arity : Nat) : Int)) =
          Py.clamp inds.length (i : Int) + (Py.clamp inds.length ((i + o.arity : Nat) : Int) - Py.clamp inds.length (i : Int)) := by
        omega
      rw [h, ← List.drop_drop, List.append_assoc, List.take_append_drop, List.take_append_drop]
    have hsub : ∀ r ∈ Py.slice inds i ((i + o.arity : Nat) : Int), r ∈ inds := fun r hr => by
      rw [hsplit]; exact List.mem_append.2 (.inl (List.mem_append.2 (.inr hr)))
    have hv : Valid s (Py.slice inds i ((i + o.arity : Nat) : Int)) := fun r hr => hb.valid r (hsub r hr)
    have hnd := hb.nodup
    rw [hsplit, List.nodup_append, List.nodup_append] at hnd
    obtain ⟨⟨-, -, hAsl⟩, -, hAC⟩ := hnd
    refine (((applyOperator_brood ho hb _ _).and (applyOperator_good ho hv)).and
      (applyOperator_takes hp hPQ (hq i (by simp)))).mono ?_
    rintro res s' ⟨⟨hb', e, -⟩, hc'⟩
    have hlen : (A ++ res ++ C).length = inds.length := by
      rw [← hset, hb'.length, hb.length]
    refine ih his.2 hb' ?_ ?_
    · intro j hj
      rw [hset]
      obtain ⟨e1, e2⟩ := slice_later (his.1 j hj) hAi hsll hsplit hlen
      rw [e1]
      refine carry_ext (hq j (by simp [hj])) e ?_
      exact fun r hr h => hAC r (List.mem_append.2 (.inr h)) r (e2 r hr) rfl
    · rw [hset]
      refine carry_append (carry_append ?_ hc') ?_
      · refine carry_ext (hc.sub fun r hr => by rw [hsplit]; simp [hr]) e ?_
        exact fun r hr h => hAsl r hr r h rfl
      · refine carry_ext (hc.sub fun r hr => by rw [hsplit]; simp [hr]) e ?_
        exact fun r hr h => hAC r (List.mem_append.2 (.inr h)) r hr rfl

theorem rangeStep_pairwise (n step : Nat) : (rangeStep n step).Pairwise fun a b => a + step ≤ b := by
  unfold rangeStep
  rw [List.pairwise_map]
  refine List.pairwise_lt_range.imp fun {a b} h => ?_
  have : (a + 1) * step ≤ b * step := Nat.mul_le_mul_right _ h
  rw [Nat.add_mul] at this
  omega

/-- The operators lead, one after the other, from `P` to `Q`. -/
inductive Leads : List (Op G) → (G → Prop) → (G → Prop) → Prop
  | nil {P : G → Prop} : Leads [] P P
  | cons {o : Op G} {os : List (Op G)} {P Q R : G → Prop} : o.Takes P Q → (∀ g, P g → Q g) → Leads os Q R → Leads (o :: os) P R

theorem Leads.imp {os : List (Op G)} (h : Leads os P Q) : ∀ g, P g → Q g := by
  induction h with
  | nil => exact fun _ h => h
  | cons _ h _ ih => exact fun g hg => ih g (h g hg)

theorem applyOperators_leads {base : World G} {n : Nat} {m : Mode} {os : List (Op G)} (h : Leads os P Q)
    (ho : ∀ o ∈ os, o.Good) {s : World G} {inds : List Nat} (hb : Brood base n m s inds) (hc : Carry P s.heap inds) :
    wlp (applyOperators os inds) (fun res s' => Carry Q s'.heap res) s := by
  induction h generalizing s inds with
  | nil => unfold applyOperators; rw [wlp_pure]; exact hc
  | @cons o os P Q R h1 h2 _ ih =>
    unfold applyOperators
    rw [wlp_ite]
    refine ⟨fun _ => by simp, fun _ => ?_⟩
    rw [wlp_bind]
    exact ((applyChunks_brood (ho o (by simp)) _ hb).and
      (applyChunks_takes (ho o (by simp)) h1 h2 _ (rangeStep_pairwise _ _) hb
        (fun i _ => hc.sub fun r hr => List.mem_of_mem_drop (List.mem_of_mem_take hr)) (hc.imp h2))).mono fun res s' h =>
      ih (fun o h => ho o (by simp [h])) h.1 h.2

theorem breedSub_leads {size : G → Nat} {sub : SubCfg G}
    (hs : ∃ sel rest, sub.sels = sel :: rest ∧ sel.Good ∧ sel.Fills)
    (ho : ∀ o ∈ sub.ops, o.Good) (hp : Leads sub.ops P Q) {m : Mode} {w : World G} {is : List Nat}
    (hm : ∀ r ∈ is, modeAt w r = some m) (hc : Carry P w.heap is) :
    wlp (breedSub size sub is) (fun res w' => Carry Q w'.heap res) w := by
  obtain ⟨sel, rest, h1, h2, h3⟩ := hs
  unfold breedSub
  rw [wlp_bind]
  refine (checkArities_wlp sub.popSize _).mono ?_
  rintro _ _ ⟨rfl, -⟩
  rename_i w
  rw [wlp_bind]
  refine (select_brood h1 h2 h3 (fun r hr => modeAt_lt (hm r hr)) hm).mono ?_
  rintro res s₂ ⟨hb, hcopy⟩
  refine applyOperators_leads hp ho hb ?_
  intro r hr
  obtain ⟨src, hsrc, hcp⟩ := hcopy r hr
  obtain ⟨i, hi, hpi⟩ := hc src hsrc
  have := hcp.genome
  unfold genomeAt at this
  rw [hi] at this
  cases hj : s₂.heap[r]? with
  | none => simp [hj] at this
  | some j =>
    simp only [hj, Option.map_some, Option.some.injEq] at this
    exact ⟨j, rfl, this ▸ hpi⟩

/-! ## The invariant -/

/-- What was recorded in generation `n` satisfies `S n`. -/
abbrev LogStaged (S : Nat → G → Prop) (s : Run G κ) : Prop := ∀ e ∈ s.log, e.AllHave (S e.snap.genNum)

/-- The population satisfies `P`; everything that can be seen satisfies what it should in this generation. -/
structure Staged (S : Nat → G → Prop) (P : G → Prop) (s : Run G κ) : Prop where
  log : LogStaged S s
  pop : ∀ is, some is ∈ s.inds → Carry P s.w.heap is
  bestOfRun : ∀ b, s.bestOfRun = some b → Carry (S s.genNum) s.w.heap [b]
  bestOfGen : ∀ b, s.bestOfGen = some b → Carry (S s.genNum) s.w.heap [b]

variable {S : Nat → G → Prop}

theorem Staged.push {s : Run G κ} (h : Staged S P s) (hP : ∀ g, P g → S s.genNum g) (p n : String) : Staged S P (s.push p n) := by
  refine ⟨?_, h.pop, h.bestOfRun, h.bestOfGen⟩
  intro e he
  simp only [Run.push, List.mem_append, List.mem_singleton] at he
  rcases he with he | rfl
  · exact h.log e he
  · exact ⟨fun is hi => (h.pop is hi).imp hP, h.bestOfRun, h.bestOfGen⟩

theorem Staged.world {s : Run G κ} (h : Staged S P s) {w : World G}
    (hg : ∀ r, r < s.w.heap.length → genomeAt w r = genomeAt s.w r) : Staged S P { s with w := w } := by
  have key : ∀ R : G → Prop, ∀ a, Carry R s.w.heap a → Carry R w.heap a := fun R a ha =>
    carry_of_genomes ha fun r hr => hg r (ha.lt r hr)
  exact ⟨h.log, fun is hi => key _ _ (h.pop is hi), fun b hb => key _ _ (h.bestOfRun b hb),
    fun b hb => key _ _ (h.bestOfGen b hb)⟩

/-- Everything is as it should be in this generation. -/
abbrev Timely (S : Nat → G → Prop) (s : Run G κ) : Prop := Staged S (S s.genNum) s

theorem breed_staged {c : Cfg G κ} {sub : SubCfg G} {m : Mode} (hc : c.Ordinary sub m) {gen : Nat}
    (hp : Leads sub.ops P (S gen)) {s : Run G κ} (hgen : s.genNum = gen) (ha : Alive c.size m s) (h : Staged S P s) :
    tri (breed c) (fun _ s' => s'.genNum = gen ∧ Timely S s') (LogStaged S) s := by
  unfold breed act
  refine tri_bind (tri_publish ?_)
  have h1 := h.push (hgen ▸ hp.imp) "breeder" "before_operator"
  have ha1 := ha.push (p := "breeder") (n := "before_operator") (by simp)
  have hg1 : (s.push "breeder" "before_operator").genNum = gen := hgen
  generalize s.push "breeder" "before_operator" = s₁ at h1 ha1 hg1
  refine tri_bind ?_
  unfold breedBody
  refine tri_bind (tri_get ?_)
  obtain ⟨is, hi, hn, hm⟩ := ha1.pop
  refine tri_bind (tri_world (E := LogStaged S) ?_ fun w => h1.log)
  rw [hc.subs, hi]
  show wlp (breedAll c.size [(sub, some is)]) _ _
  unfold breedAll
  rw [wlp_bind]
  refine ((breedSub_wlp hc.sels hc.ops hm).and (breedSub_leads hc.sels hc.ops hp hm
    (h1.pop is (by rw [hi]; simp)))).mono ?_
  rintro res w ⟨hb, hcar⟩
  unfold breedAll
  rw [wlp_bind, wlp_pure, wlp_pure]
  refine tri_modify ?_
  refine tri_bind (tri_publish (tri_pure ?_))
  have hw := h1.world (w := w) fun r hr => by unfold genomeAt; rw [hb.ext.same r hr fun h => h]
  refine ⟨hg1, Staged.push (s := { s₁ with w := w, inds := [some res] }) ⟨hw.log, ?_, hw.bestOfRun, hw.bestOfGen⟩
    (fun _ h => h) _ _⟩
  intro is' hi'
  simp only [List.mem_singleton, Option.some.injEq] at hi'
  show Carry (S s₁.genNum) _ _
  rw [hg1]
  exact hi' ▸ hcar

theorem evaluate_staged {c : Cfg G κ} {sub : SubCfg G} {m : Mode} (hc : c.Ordinary sub m) {s : Run G κ} {gen : Nat}
    {is : List Nat} (hgen : s.genNum = gen) (hi : s.inds = [some is]) (hm : ∀ r ∈ is, modeAt s.w r = some m) (h : Timely S s) :
    tri (evaluatePopulation c) (fun b s' => s'.genNum = gen ∧ Timely S s' ∧ Carry (S gen) s'.w.heap [b]) (LogStaged S) s := by
  unfold evaluatePopulation act
  refine tri_bind (tri_publish ?_)
  have h1 : Timely S (s.push "population_evaluator" "before_operator") := h.push (fun _ h => h) "population_evaluator" "before_operator"
  have hi1 : (s.push "population_evaluator" "before_operator").inds = [some is] := hi
  have hg1 : (s.push "population_evaluator" "before_operator").genNum = gen := hgen
  have hm1 : ∀ r ∈ is, modeAt (s.push "population_evaluator" "before_operator").w r = some m := hm
  generalize s.push "population_evaluator" "before_operator" = s₁ at h1 hi1 hm1 hg1
  refine tri_bind ((evaluateBody_wlp hc hi1 hm1 (fun w => h1.log)).mono ?_)
  rintro b' _ ⟨w, rfl, e, hg, hl, hev, hfb⟩
  refine tri_bind (tri_publish (tri_pure ?_))
  have hw := h1.world (w := w) fun r _ => hg r
  refine ⟨hg1, Staged.push (s := { s₁ with w := w }) hw (fun _ h => h) _ _, ?_⟩
  have := (hw.pop is (by show some is ∈ s₁.inds; rw [hi1]; simp)).sub (b := [b']) (by simpa using hfb.mem)
  rw [hg1] at this
  exact this

theorem recordBest_staged {c : Cfg G κ} {s : Run G κ} {b' gen : Nat} (hgen : s.genNum = gen) (h : Timely S s)
    (hb : Carry (S gen) s.w.heap [b']) :
    tri (recordBest c b') (fun _ s' => s'.genNum = gen ∧ Timely S s') (LogStaged S) s := by
  unfold recordBest
  refine tri_bind (tri_get ?_)
  refine tri_bind (tri_world (E := LogStaged S) ?_ fun w => h.log)
  rw [wlp_reading]
  intro v _
  refine tri_ite (fun _ => tri_modify ?_) (fun _ => tri_pure ⟨hgen, h⟩)
  refine ⟨hgen, h.log, h.pop, fun b e => ?_, h.bestOfGen⟩
  simp only [Option.some.injEq] at e
  show Carry (S s.genNum) _ _
  rw [hgen]
  exact e ▸ hb

theorem recordWorst_staged {c : Cfg G κ} {s : Run G κ} {gen : Nat} (hgen : s.genNum = gen) (h : Timely S s) :
    tri (recordWorst c) (fun _ s' => s'.genNum = gen ∧ Timely S s') (LogStaged S) s := by
  unfold recordWorst
  refine tri_bind (tri_get ?_)
  split
  · refine tri_bind (tri_world (E := LogStaged S) ?_ fun w => h.log)
    rw [wlp_reading]
    intro w _
    exact tri_modify ⟨hgen, h.log, h.pop, h.bestOfRun, h.bestOfGen⟩
  · exact tri_raise h.log

theorem generation_staged {c : Cfg G κ} {sub : SubCfg G} {m : Mode} (hc : c.Ordinary sub m) {gen : Nat}
    (hp : Leads sub.ops P (S gen)) {s : Run G κ} (hgen : s.genNum = gen) (ha : Alive c.size m s) (h : Staged S P s) :
    tri (generationIteration c) (fun _ s' => s'.genNum = gen ∧ Timely S s') (LogStaged S) s := by
  unfold generationIteration
  refine tri_bind ?_
  have := tri_and (breed_alive hc ha) (breed_staged hc hp hgen ha h)
  intro r s₁ e
  have h1 := this r s₁ e
  cases r with
  | error _ => exact h1.2
  | ok _ =>
    obtain ⟨hb, hg1, h1⟩ := h1
    obtain ⟨is, hi, hn, hm⟩ := hb.alive.pop
    refine tri_bind ((evaluate_staged hc hg1 hi hm h1).mono ?_)
    rintro b s₂ ⟨hg2, h2, hcb⟩
    refine tri_bind (tri_modify ?_)
    have h3 : Timely S { s₂ with bestOfGen := some b } := ⟨h2.log, h2.pop, h2.bestOfRun, fun b' e => by
      simp only [Option.some.injEq] at e
      show Carry (S s₂.genNum) _ _
      rw [hg2]
      exact e ▸ hcb⟩
    exact tri_bind ((recordBest_staged (s := { s₂ with bestOfGen := some b }) hg2 h3 hcb).mono fun _ s₃ h4 =>
      recordWorst_staged h4.1 h4.2)

theorem shouldTerminate_staged {c : Cfg G κ} {s : Run G κ} {g : Nat} (hgen : s.genNum = g) (h : Timely S s) (gen : Nat) :
    tri (shouldTerminate c gen) (fun _ s' => s'.genNum = g ∧ Timely S s') (LogStaged S) s := by
  intro r s' e
  obtain ⟨ks, rfl⟩ := shouldTerminate_same gen r s' e
  cases r with
  | ok _ => exact ⟨hgen, h.log, h.pop, h.bestOfRun, h.bestOfGen⟩
  | error _ => exact h.log

theorem updateGen_staged {s : Run G κ} {g : Nat} (hgen : s.genNum = g) (h : Staged S P s) {is : List Nat}
    (hi : s.inds = [some is]) (gen : Nat) :
    tri (updateGen gen) (fun _ s' => s'.genNum = g ∧ Staged S P s') (LogStaged S) s := by
  unfold updateGen
  refine tri_bind (tri_get ?_)
  rw [hi]
  unfold forL
  refine tri_bind (tri_world (E := LogStaged S) ?_ fun w => h.log)
  refine (wlp_forL (I := fun _ (w : World G) => ∀ r, genomeAt w r = genomeAt s.w r) (fun _ => rfl) ?_).mono
    fun _ w hw => ?_
  · rintro pre a post w _ hw
    rw [wlp_update]
    intro r
    rw [← hw r]
    unfold genomeAt
    simp only [List.getElem?_modify]
    cases w.heap[r]? with
    | none => rfl
    | some i => by_cases ha : a = r <;> simp [ha]
  · unfold forL
    exact tri_pure ⟨hgen, h.world fun r _ => hw r⟩

theorem mainLoop_staged {c : Cfg G κ} {sub : SubCfg G} {m : Mode} (hc : c.Ordinary sub m)
    (hp : ∀ n, Leads sub.ops (S n) (S (n + 1))) (n gen : Nat) {s : Run G κ} (hgen : s.genNum + 1 = gen)
    (ha : Alive c.size m s) (h : Timely S s) :
    tri (mainLoop c n gen) (fun _ s' => Timely S s') (LogStaged S) s := by
  induction n generalizing gen s with
  | zero => exact tri_pure h
  | succ n ih =>
    unfold mainLoop
    refine tri_bind (tri_modify ?_)
    have ha0 : Alive c.size m { s with genNum := gen } := ⟨ha.log, ha.best, ha.pop⟩
    have himp : ∀ g, S s.genNum g → S gen g := hgen ▸ (hp s.genNum).imp
    have h0 : Staged S (S s.genNum) { s with genNum := gen } :=
      ⟨h.log, h.pop, fun b e => (h.bestOfRun b e).imp himp, fun b e => (h.bestOfGen b e).imp himp⟩
    obtain ⟨is, hi, -⟩ := ha0.pop
    refine tri_bind ?_
    intro r s₁ e
    have g1 := tri_and (updateGen_alive ha0 gen) (updateGen_staged (g := gen) rfl h0 hi gen) r s₁ e
    cases r with
    | error _ => exact g1.2
    | ok _ =>
    obtain ⟨ha1, hg1, h1⟩ := g1
    refine tri_bind (tri_get ?_)
    refine tri_bind (tri_modify ?_)
    refine tri_bind (tri_modify ?_)
    refine tri_bind ?_
    have ha1' : Alive c.size m { s₁ with w := { s₁.w with tape := c.stream (nextSeed s₁.genSeed) }, genSeed := nextSeed s₁.genSeed } :=
      ⟨ha1.log, ha1.best, ha1.pop⟩
    have h1' : Staged S (S s.genNum) { s₁ with w := { s₁.w with tape := c.stream (nextSeed s₁.genSeed) }, genSeed := nextSeed s₁.genSeed } :=
      ⟨h1.log, h1.pop, h1.bestOfRun, h1.bestOfGen⟩
    intro r s₂ e
    have g2 := tri_and (generation_alive hc ha1') (generation_staged hc (gen := gen) (hgen ▸ hp s.genNum) hg1 ha1' h1') r s₂ e
    cases r with
    | error _ => exact g2.2
    | ok _ =>
    obtain ⟨ha2, hg2, h2⟩ := g2
    refine tri_bind ?_
    intro r s₃ e
    have g3 := tri_and (shouldTerminate_alive ha2 gen) (shouldTerminate_staged hg2 h2 gen) r s₃ e
    cases r with
    | error _ => exact g3.2
    | ok stop =>
    obtain ⟨ha3, hg3, h3⟩ := g3
    refine tri_ite (fun _ => ?_) (fun _ => ?_)
    · refine tri_bind (tri_modify (tri_publish ?_))
      exact Staged.push (s := { s₃ with finalGen := some gen }) ⟨h3.log, h3.pop, h3.bestOfRun, h3.bestOfGen⟩ (fun _ h => h) _ _
    · refine tri_bind (tri_publish (ih _ ?_ (ha3.push (by simp)) (Staged.push h3 (fun _ h => h) _ _)))
      show s₃.genNum + 1 = gen + 1
      rw [hg3]

theorem initRun_staged {c : Cfg G κ} {sub : SubCfg G} {m : Mode} (hc : c.Ordinary sub m)
    (hcr : ∀ create ∈ sub.creators, CreatorMakes (S 0) create) {s : Run G κ} (hg : s.genNum = 0)
    (hr : s.Ready m) (hf : s.Starts (S 0)) :
    tri (initRun c) (fun _ s' => s'.genNum = 0 ∧ Timely S s') (LogStaged S) s := by
  have hempty : LogStaged S s := by intro e he; rw [hf.log] at he; simp at he
  unfold initRun
  refine tri_bind (tri_get ?_)
  refine tri_bind (tri_modify ?_)
  refine tri_bind ?_
  unfold createPopulation
  refine tri_bind (tri_get ?_)
  refine tri_bind (tri_world (E := LogStaged S) ?_ fun w => hempty)
  obtain ⟨o, ho, hgood⟩ : ∃ o, s.inds = [o] ∧ ∀ is, o = some is → is.Nodup ∧ ∀ r ∈ is, modeAt s.w r = some m := by
    rcases hr with h | ⟨is, h, h1, h2⟩
    · exact ⟨none, h, by simp⟩
    · exact ⟨some is, h, by rintro is' h'; cases h'; exact ⟨h1, h2⟩⟩
  rw [hc.subs]
  dsimp only
  rw [ho]
  show wlp (mapL _ [(sub, o)]) _ _
  unfold mapL
  rw [wlp_bind]
  refine ((createSub_ready hc.dir hc.creators o (w := { s.w with tape := c.stream s.randomSeed }) hgood).and
    (createSub_carry hcr o (w := { s.w with tape := c.stream s.randomSeed })
      fun is e => hf.pop is (by rw [ho, e]; simp))).mono ?_
  rintro res w ⟨⟨is, rfl, hn, hm⟩, hcar⟩
  unfold mapL
  rw [wlp_bind, wlp_pure, wlp_pure]
  refine tri_modify ?_
  have h1 : Timely S { s with w := w, inds := [some is] } := by
    refine ⟨hempty, ?_, fun b e => ?_, fun b e => ?_⟩
    · intro is' hi'
      simp only [List.mem_singleton, Option.some.injEq] at hi'
      show Carry (S s.genNum) _ _
      rw [hg]
      exact hi' ▸ hcar is rfl
    · have : s.bestOfRun = some b := e
      rw [hf.bestOfRun] at this; simp at this
    · have : s.bestOfGen = some b := e
      rw [hf.bestOfGen] at this; simp at this
  refine tri_bind ((evaluate_staged (s := { s with w := w, inds := [some is] }) hc hg (is := is) rfl hm h1).mono ?_)
  rintro b s₂ ⟨hg2, h2, hcb⟩
  refine tri_bind (tri_modify (tri_publish ?_))
  refine ⟨hg2, Staged.push (s := { s₂ with bestOfRun := some b }) ⟨h2.log, h2.pop, fun b' e => ?_, h2.bestOfGen⟩ (fun _ h => h) _ _⟩
  simp only [Option.some.injEq] at e
  show Carry (S s₂.genNum) _ _
  rw [hg2]
  exact e ▸ hcb

/-- If the creators make individuals satisfying `S 0`, and the operators lead from `S n` to `S (n + 1)`, then what can be
seen in generation `n` satisfies `S n`. -/
theorem evolve_staged {c : Cfg G κ} {sub : SubCfg G} {m : Mode} (hc : c.Ordinary sub m)
    (hcr : ∀ create ∈ sub.creators, CreatorMakes (S 0) create) (hp : ∀ n, Leads sub.ops (S n) (S (n + 1)))
    {s : Run G κ} (hg : s.genNum = 0) (hr : s.Ready m) (hf : s.Starts (S 0)) {r : Except Err Unit} {s' : Run G κ}
    (hrun : evolve c s = (r, s')) : LogStaged S s' := by
  have key : tri (evolve c) (fun _ s' => LogStaged S s') (LogStaged S) s := by
    unfold evolve
    refine tri_bind ?_
    intro r s₁ e
    have g1 := tri_and (initRun_alive hc hr hf.log) (initRun_staged hc hcr hg hr hf) r s₁ e
    cases r with
    | error _ => exact g1.2
    | ok _ =>
    obtain ⟨ha1, hg1, h1⟩ := g1
    refine tri_bind (tri.mono (Q := fun _ s₂ => Timely S s₂) ?_ fun _ s₂ h2 => ?_)
    · unfold afterInit
      refine tri_bind (tri_get (tri_bind ?_))
      intro r s₃ e
      have g3 := tri_and (shouldTerminate_alive ha1 s₁.genNum) (shouldTerminate_staged hg1 h1 s₁.genNum) r s₃ e
      cases r with
      | error _ => exact g3.2
      | ok v =>
      obtain ⟨ha3, hg3, h3⟩ := g3
      refine tri_ite (fun _ => tri_bind (tri_modify (tri_publish ?_)))
        (fun _ => mainLoop_staged hc hp _ _ (by rw [hg3]) ha3 h3)
      exact Staged.push (s := { s₃ with finalGen := some 0 }) ⟨h3.log, h3.pop, h3.bestOfRun, h3.bestOfGen⟩ (fun _ h => h) _ _
    · refine tri_bind (tri_publish (tri_modify ?_))
      exact (Staged.push h2 (fun _ h => h) "algorithm" "evolution_finished").log
  have := key r s' hrun
  cases r <;> exact this

end Verif.Evo
