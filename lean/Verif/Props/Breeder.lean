import Verif.Lemmas.Breeder
import Mathlib.Tactic.Ring

/-! # C31, C32: breeding -/

namespace Verif.Evo
open PyM
variable {G : Type} {size : G → Nat} {d : Bool} {s s' : World G}

/-! ## C31: population size -/

/-- C31: breeding replaces the population by one of the same size, made of new, pairwise distinct
individuals, and modifies no individual that existed before. -/
theorem C31_size {c : SubCfg G} {sel : Sel G} {rest : List (Sel G)} (hs : c.sels = sel :: rest)
    (hg : sel.Good) (hf : sel.Fills) (ho : ∀ o ∈ c.ops, o.Good) {m : Mode}
    {inds : List Nat} (hv : Valid s inds) (hm : ∀ r ∈ inds, modeAt s r = some m) :
    wlp (breedSub size c inds) (fun res s' => res.length = inds.length ∧ res.Nodup ∧
      (∀ r ∈ res, s.heap.length ≤ r ∧ r < s'.heap.length) ∧
      (∀ r, r < s.heap.length → s'.heap[r]? = s.heap[r]?) ∧ ∀ r ∈ res, modeAt s' r = some m) s := by
  refine (breedSub_brood hs hg hf ho hv hm).mono ?_
  rintro res s' h
  exact ⟨h.length, h.nodup, fun r hr => ⟨h.fresh r hr, h.valid r hr⟩,
    fun r hr => h.ext.same r hr fun h => h, h.mode⟩

/-- C31: if some arity does not divide the population size, breeding is a `ValueError` and changes
nothing. -/
theorem C31_not_divisible {c : SubCfg G} {inds : List Nat}
    (hpos : ∀ a ∈ c.sels.map (·.arity) ++ c.ops.map (·.arity), a ≠ 0)
    (hbad : ∃ a ∈ c.sels.map (·.arity) ++ c.ops.map (·.arity), ¬ a ∣ c.popSize) :
    breedSub size c inds s = (.error .valueError, s) := by
  have key : ∀ as : List Nat, (∀ a ∈ as, a ≠ 0) → (∃ a ∈ as, ¬ a ∣ c.popSize) →
      checkArities c.popSize as s = (.error .valueError, s) := by
    intro as
    induction as with
    | nil => simp
    | cons a as ih =>
      intro hp hb
      unfold checkArities
      rw [if_neg (hp a (by simp))]
      by_cases h : c.popSize % a = 0
      · rw [if_neg (by simpa using h)]
        refine ih (fun a ha => hp a (by simp [ha])) ?_
        obtain ⟨b, hb, hn⟩ := hb
        simp only [List.mem_cons] at hb
        rcases hb with rfl | hb
        · exact absurd (Nat.dvd_of_mod_eq_zero h) hn
        · exact ⟨b, hb, hn⟩
      · rw [if_pos h]; rfl
  unfold breedSub
  rw [bind_of_error (key _ hpos hbad)]

/-- The operator works on any group of individuals of its arity. -/
def Op.Works (o : Op G) : Prop :=
  ∀ refs s, Valid s refs → refs.length = o.arity → wp (o.apply refs) (fun res _ => res ≠ none) s

/-- In-place operators work if their function on genomes does. -/
theorem Op.inPlace_works {name : String} {p : ℚ} {arity : Nat} {f : List G → Rand (Option (List G))}
    (hf : ∀ gs, gs.length = arity → Ensures (f gs) (fun r => r ≠ none)) :
    (Op.inPlace name p arity f).Works := by
  intro refs s hv hl
  unfold Op.inPlace
  dsimp only
  have hgen : wp (genomes refs) (fun gs s' => s' = s ∧ gs.length = refs.length) s := by
    unfold genomes
    refine wp_mapL (I := fun rs gs s' => s' = s ∧ gs.length = rs.length) ⟨rfl, rfl⟩ ?_
    rintro pre r post gs s' hrefs ⟨rfl, h⟩
    rw [wp_bind, wp_deref]
    have hr : r < s'.heap.length := hv r (by simp [hrefs])
    refine ⟨_, List.getElem?_eq_getElem hr, ?_⟩
    rw [wp_pure]
    simp [h]
  rw [wp_bind]
  refine hgen.mono ?_
  rintro gs _ ⟨rfl, hgs⟩
  rename_i s
  rw [wp_bind, wp_rand]
  obtain ⟨res, t, hrun, hres⟩ := hf gs (hgs.trans hl) s.tape
  refine ⟨res, t, hrun, ?_⟩
  cases res with
  | none => exact absurd rfl hres
  | some gs' =>
    dsimp only
    rw [wp_bind]
    refine wp.mono (Q := fun _ _ => True) ?_ fun _ _ _ => by rw [wp_pure]; simp
    refine wp_forL (I := fun _ _ => True) trivial ?_
    intro pre q post s _ _
    rw [wp_update]; trivial

theorem applyOperator_works {o : Op G} (hg : o.Good) (ho : o.Works) {inds : List Nat} (hv : Valid s inds)
    (hl : inds.length = o.arity) : wp (applyOperator o inds) (fun _ _ => True) s := by
  unfold applyOperator
  rw [wp_bind, wp_rand]
  obtain ⟨u, t, hrun, -⟩ := Rand.random_ensures s.tape
  refine ⟨u, t, hrun, ?_⟩
  dsimp only
  rw [wp_ite]
  refine ⟨fun _ => ?_, fun _ => by rw [wp_pure]; trivial⟩
  rw [wp_bind]
  obtain ⟨s₁, e1, -, -, l1, -⟩ := resetAll_heap inds { s with tape := t }
  refine ⟨(), s₁, e1, ?_⟩
  dsimp only
  rw [wp_bind]
  have hv1 : Valid s₁ inds := fun r hr => by rw [l1]; exact hv r hr
  refine ((ho inds s₁ hv1 hl).and (hg inds s₁ hv1)).mono ?_
  rintro res s₂ ⟨h1, e, -⟩
  cases res with
  | none => exact absurd rfl h1
  | some l =>
    dsimp only
    rw [wp_bind]
    have hids : wp (mapL (fun r => do let i ← deref r; pure i.id) inds) (fun _ _ => True) s₂ := by
      refine (wp_mapL (I := fun _ _ (s' : World G) => s' = s₂) rfl ?_).mono fun _ _ _ => trivial
      rintro pre r post ns s' hrefs rfl
      rw [wp_bind, wp_deref]
      have hr : r < s'.heap.length := lt_of_lt_of_le (hv1 r (by simp [hrefs])) e.len
      exact ⟨_, List.getElem?_eq_getElem hr, by rw [wp_pure]⟩
    refine hids.mono fun ids s₃ _ => ?_
    rw [wp_bind]
    refine wp.mono (Q := fun _ _ => True) ?_ fun _ _ _ => by rw [wp_pure]; trivial
    refine wp_forL (I := fun _ _ => True) trivial ?_
    intro pre q post s _ _
    rw [wp_update]; trivial

theorem slice_length {α : Type} (xs : List α) (i a : Nat) (h : i + a ≤ xs.length) :
    (Py.slice xs i ((i + a : Nat) : Int)).length = a := by
  unfold Py.slice Py.clamp
  have h1 : ¬ ((i : Int) < 0) := by omega
  have h2 : ¬ (((i + a : Nat) : Int) < 0) := by omega
  rw [if_neg h1, if_neg h2, Int.toNat_natCast, Int.toNat_natCast, List.length_take, List.length_drop]
  omega

theorem applyChunks_works {base : World G} {n : Nat} {m : Mode} {o : Op G} (hg : o.Good) (ho : o.Works)
    (is : List Nat) (hi : ∀ i ∈ is, i + o.arity ≤ n) {inds : List Nat} (hb : Brood base n m s inds) :
    wp (applyChunks o is inds) (fun _ _ => True) s := by
  induction is generalizing s inds with
  | nil => unfold applyChunks; rw [wp_pure]; trivial
  | cons i is ih =>
    unfold applyChunks
    rw [wp_bind]
    obtain ⟨A, C, hsplit, -⟩ := slice_split inds i ((i + o.arity : Nat) : Int)
    have hv : Valid s (Py.slice inds i ((i + o.arity : Nat) : Int)) := fun r hr =>
      hb.valid r (by rw [hsplit]; exact List.mem_append_left _ (List.mem_append_right _ hr))
    have hl := slice_length inds i o.arity (by rw [hb.length]; exact hi i (by simp))
    exact ((applyOperator_works hg ho hv hl).and (applyOperator_brood hg hb _ _)).mono fun res s' h =>
      ih (fun i h => hi i (by simp [h])) h.2

theorem rangeStep_bound {n a i : Nat} (ha : a ≠ 0) (hd : a ∣ n) (h : i ∈ rangeStep n a) : i + a ≤ n := by
  unfold rangeStep at h
  obtain ⟨k, hk, rfl⟩ := List.mem_map.1 h
  rw [List.mem_range] at hk
  obtain ⟨q, rfl⟩ := hd
  have hq : (a * q + a - 1) / a = q := by
    have h1 : a * q + a - 1 = a * q + (a - 1) := by omega
    rw [h1, Nat.mul_add_div (Nat.pos_of_ne_zero ha), Nat.div_eq_of_lt (by omega)]
    rfl
  rw [hq] at hk
  calc k * a + a = (k + 1) * a := by ring
    _ ≤ q * a := Nat.mul_le_mul_right _ hk
    _ = a * q := Nat.mul_comm _ _

theorem applyOperators_works {base : World G} {n : Nat} {m : Mode} (os : List (Op G))
    (hg : ∀ o ∈ os, o.Good) (ho : ∀ o ∈ os, o.Works) (ha : ∀ o ∈ os, o.arity ≠ 0 ∧ o.arity ∣ n)
    {inds : List Nat} (hb : Brood base n m s inds) :
    wp (applyOperators os inds) (fun _ _ => True) s := by
  induction os generalizing s inds with
  | nil => unfold applyOperators; rw [wp_pure]; trivial
  | cons o os ih =>
    unfold applyOperators
    obtain ⟨h0, hd⟩ := ha o (by simp)
    rw [if_neg h0, wp_bind]
    refine ((applyChunks_works (hg o (by simp)) (ho o (by simp)) _ ?_ hb).and
      (applyChunks_brood (hg o (by simp)) _ hb)).mono fun res s' h =>
        ih (fun o h => hg o (by simp [h])) (fun o h => ho o (by simp [h])) (fun o h => ha o (by simp [h])) h.2
    intro i hi
    rw [hb.length] at hi
    exact rangeStep_bound h0 hd hi

theorem selectStage_works {c : SubCfg G} {k : Nat} {replace : Bool} {rest : List (Sel G)}
    (hs : c.sels = tournament size k replace :: rest) (hk : 0 < k) {inds : List Nat}
    (hsz : if replace then inds ≠ [] else k ≤ inds.length)
    (he : Evaluated size c.hib s inds) : wp (selectStage size c inds) (fun _ _ => True) s := by
  unfold selectStage
  rw [wp_bind, hs]
  have hel : wp (eliteStage size c inds) (fun _ s' => Ext (fun _ => False) s s') s := by
    unfold eliteStage
    rw [wp_ite]
    exact ⟨fun _ => (C27_elitism c.nElite [] he).mono fun _ _ h => h.1,
      fun _ => by rw [wp_pure]; exact Ext.refl _ _⟩
  refine hel.mono fun next s₁ e => ?_
  exact (C26_tournament next (he.ext e (by simp)) hk hsz).mono fun _ _ _ => trivial

/-- C31: with tournament selection, working operators and divisible sizes, breeding an evaluated
population succeeds and gives a population of the same size. -/
theorem C31_succeeds {c : SubCfg G} {k : Nat} {replace : Bool} {rest : List (Sel G)}
    (hs : c.sels = tournament size k replace :: rest) (hk : 0 < k) {inds : List Nat}
    (hsz : if replace then inds ≠ [] else k ≤ inds.length) (hn : inds.length = c.popSize)
    (hdiv : ∀ a ∈ c.sels.map (·.arity) ++ c.ops.map (·.arity), a ≠ 0 ∧ a ∣ c.popSize)
    (hg : ∀ o ∈ c.ops, o.Good) (ho : ∀ o ∈ c.ops, o.Works)
    (he : Evaluated size c.hib s inds) {m : Mode} (hm : ∀ r ∈ inds, modeAt s r = some m) :
    wp (breedSub size c inds) (fun res s' => res.length = c.popSize ∧
      ∀ r ∈ res, s.heap.length ≤ r ∧ r < s'.heap.length) s := by
  suffices wp (breedSub size c inds) (fun _ _ => True) s by
    refine (this.and (C31_size hs (tournament_good k replace) (tournament_fills k replace) hg he.valid
      hm)).mono ?_
    rintro res s' ⟨-, h1, -, h2, -⟩
    exact ⟨h1.trans hn, h2⟩
  unfold breedSub
  have hchk : ∀ as : List Nat, (∀ a ∈ as, a ≠ 0 ∧ a ∣ c.popSize) →
      checkArities c.popSize as s = (.ok (), s) := by
    intro as
    induction as with
    | nil => intro _; rfl
    | cons a as ih =>
      intro h
      unfold checkArities
      obtain ⟨h0, hd⟩ := h a (by simp)
      rw [if_neg h0, if_neg (by simpa using Nat.mod_eq_zero_of_dvd hd)]
      exact ih fun a ha => h a (by simp [ha])
  rw [wp_bind]
  refine ⟨(), s, hchk _ hdiv, ?_⟩
  dsimp only
  rw [wp_bind]
  refine ((selectStage_works hs hk hsz he).and (select_brood hs (tournament_good k replace)
    (tournament_fills k replace) he.valid hm)).mono fun res s₂ h => ?_
  refine applyOperators_works c.ops hg ho (fun o hmem => ?_) h.2.1
  rw [hn]
  exact hdiv o.arity (by simp only [List.mem_append, List.mem_map]; exact .inr ⟨o, hmem, rfl⟩)

/-! ## C32: elites -/

/-- The claim of C32: if breeding succeeds, then for some choice of `n_elite` best individuals each of
them has a copy with the same genome in the new generation. -/
def C32_statement : Prop :=
  ∀ (size : Nat → Nat) (c : SubCfg Nat) (s s' : World Nat) (inds res : List Nat),
    (∀ o ∈ c.ops, o.Good) → (∀ sel ∈ c.sels, sel.Good ∧ sel.Fills) →
    0 < c.nElite → c.nElite.toNat ≤ inds.length → Evaluated size c.hib s inds →
    breedSub size c inds s = (.ok res, s') →
    ∃ taken left : List Nat, (taken ++ left).Perm inds ∧ taken.length = c.nElite.toNat ∧
      (∀ t ∈ taken, ∀ o ∈ left, ¬ Beats size c.hib s o t) ∧
      ∀ t ∈ taken, ∃ r ∈ res, genomeAt s' r = genomeAt s t

/-- A population of three, one elite, tournament selection, and an operator that always fires and
increments every genome. -/
def exSub : SubCfg Nat where
  creators := []
  pick := pure 0
  ops := [Op.inPlace "Incr" 1 1 exIncr]
  sels := [tournament (fun _ => 1) 2 false]
  popSize := 3
  nElite := 1
  hib := true
  evaluate := fun g => pure g

/-- The run of the counterexample: genomes 10, 30, 20 become 31, 21, 31; the best genome 30 is gone. -/
theorem exBreed : (breedSub (fun _ => 1) exSub [0, 1, 2] exWorld).1 = .ok [3, 4, 5] ∧
    (breedSub (fun _ => 1) exSub [0, 1, 2] exWorld).2.heap.map (·.genome) = [10, 30, 20, 31, 21, 31] := by
  decide +kernel

/-- C32 is false: the operators are applied to the elites like to everybody else. -/
theorem C32_refuted : ¬ C32_statement := by
  intro h
  obtain ⟨h1, h2⟩ := exBreed
  set s' := (breedSub (fun _ => 1) exSub [0, 1, 2] exWorld).2 with hs'
  have hgen : ∀ r, genomeAt s' r = [10, 30, 20, 31, 21, 31][r]? := by
    intro r; unfold genomeAt; rw [← List.getElem?_map, h2]
  obtain ⟨taken, left, -, hlen, -, hcopy⟩ := h (fun _ => 1) exSub exWorld s' [0, 1, 2] [3, 4, 5]
    (by intro o ho; simp only [exSub, List.mem_singleton] at ho; subst ho; exact Op.inPlace_good _ _ _ _)
    (by
      intro sel hsel
      simp only [exSub, List.mem_singleton] at hsel
      subst hsel
      exact ⟨tournament_good _ _, tournament_fills _ _⟩)
    (by decide) (by decide) exWorld_evaluated (Prod.ext h1 rfl)
  cases taken with
  | nil => simp [exSub] at hlen
  | cons t ts =>
    obtain ⟨r, hr, hg⟩ := hcopy t (by simp)
    rw [hgen] at hg
    simp only [List.mem_cons, List.not_mem_nil, or_false] at hr
    unfold genomeAt exWorld at hg
    match t with
    | 0 => rcases hr with rfl | rfl | rfl <;> simp at hg
    | 1 => rcases hr with rfl | rfl | rfl <;> simp at hg
    | 2 => rcases hr with rfl | rfl | rfl <;> simp at hg
    | n + 3 => rcases hr with rfl | rfl | rfl <;> simp at hg

/-- C32, what holds: before the operators run, the next generation starts with clones of the `n_elite`
best individuals, best first.  Missing from the full claim: the operators may then change them. -/
theorem C32_selected_partial {c : SubCfg G} {sel : Sel G} {rest : List (Sel G)} (hs : c.sels = sel :: rest)
    (hg : sel.Good) {inds : List Nat} (hpos : 0 < c.nElite) (he : Evaluated size c.hib s inds) :
    wlp (selectStage size c inds) (fun res s' => ∃ taken left new more : List Nat,
      (taken ++ left).Perm inds ∧ taken.length = min c.nElite.toNat inds.length ∧
      taken.Pairwise (fun a b => ¬ Beats size c.hib s b a) ∧
      (∀ t ∈ taken, ∀ o ∈ left, ¬ Beats size c.hib s o t) ∧
      res = new ++ more ∧ List.Forall₂ (fun src r => CopyOf s s' src r) taken new) s := by
  unfold selectStage eliteStage
  rw [wlp_bind, hs, if_pos hpos]
  refine (C27_elitism c.nElite [] he).wlp.mono ?_
  rintro next s₁ ⟨e1, taken, left, new, h1, h2, h3, h4, -, hnext, hnd, hf⟩
  rw [List.nil_append] at hnext
  subst hnext
  have hv1 : Valid s₁ inds := fun r hr => lt_of_lt_of_le (he.valid r hr) e1.len
  have hvn : Valid s₁ next := by
    intro r hr
    obtain ⟨k, hk, rfl⟩ := List.getElem_of_mem hr
    exact (hf.get (by rw [hf.length_eq]; exact hk) hk).valid
  refine (hg inds _ s₁ hv1 hvn).mono ?_
  rintro res s₂ ⟨e2, more, rfl, -, -⟩
  refine ⟨taken, left, next, more, h1, ?_, h3, h4, rfl, hf.imp fun _ _ hc => hc.right e2 fun h => h⟩
  rw [h2]
  unfold prefixLength
  rw [if_pos (by omega)]

theorem applyChunks_skipped {o : Op G} (hp : o.probability < 0) (is : List Nat) (inds : List Nat) :
    wlp (applyChunks o is inds) (fun res s' => res = inds ∧ s'.heap = s.heap) s := by
  induction is generalizing inds s with
  | nil => unfold applyChunks; rw [wlp_pure]; exact ⟨rfl, rfl⟩
  | cons i is ih =>
    unfold applyChunks
    rw [wlp_bind]
    intro res s₁ hrun
    obtain ⟨u, t, hu, -, hneg⟩ := C45_probability s.tape
    rw [C45_skips hu (hneg _ hp)] at hrun
    simp only [Prod.mk.injEq, Except.ok.injEq] at hrun
    obtain ⟨rfl, rfl⟩ := hrun
    obtain ⟨A, C, h1, h2⟩ := slice_split inds i ((i + o.arity : Nat) : Int)
    rw [h2, ← h1]
    exact ih _

theorem applyOperators_skipped (os : List (Op G)) (hp : ∀ o ∈ os, o.probability < 0) (inds : List Nat) :
    wlp (applyOperators os inds) (fun res s' => res = inds ∧ s'.heap = s.heap) s := by
  induction os generalizing inds s with
  | nil => unfold applyOperators; rw [wlp_pure]; exact ⟨rfl, rfl⟩
  | cons o os ih =>
    unfold applyOperators
    rw [wlp_ite]
    refine ⟨fun _ => by simp, fun _ => ?_⟩
    rw [wlp_bind]
    refine (applyChunks_skipped (hp o (by simp)) _ inds).mono ?_
    rintro res s₁ ⟨rfl, h⟩
    refine (ih (s := s₁) (fun o h => hp o (by simp [h])) res).mono ?_
    rintro res' s₂ ⟨rfl, h'⟩
    exact ⟨rfl, h'.trans h⟩

/-- C32, what holds: if no operator can fire, the `n_elite` best individuals are copied as they are.
Missing from the full claim: operators that fire. -/
theorem C32_no_operator_partial {c : SubCfg G} {sel : Sel G} {rest : List (Sel G)}
    (hs : c.sels = sel :: rest) (hg : sel.Good) (hp : ∀ o ∈ c.ops, o.probability < 0) {inds : List Nat}
    (hpos : 0 < c.nElite) (he : Evaluated size c.hib s inds) :
    wlp (breedSub size c inds) (fun res s' => ∃ taken left : List Nat,
      (taken ++ left).Perm inds ∧ taken.length = min c.nElite.toNat inds.length ∧
      (∀ t ∈ taken, ∀ o ∈ left, ¬ Beats size c.hib s o t) ∧
      ∀ t ∈ taken, ∃ r ∈ res, genomeAt s' r = genomeAt s t) s := by
  unfold breedSub
  rw [wlp_bind]
  refine (checkArities_wlp c.popSize _).mono ?_
  rintro _ _ ⟨rfl, -⟩
  rename_i s
  rw [wlp_bind]
  refine (C32_selected_partial hs hg hpos he).mono ?_
  rintro res s₁ ⟨taken, left, new, more, h1, h2, -, h4, rfl, hf⟩
  refine (applyOperators_skipped c.ops hp _).mono ?_
  rintro res' s₂ ⟨rfl, hheap⟩
  refine ⟨taken, left, h1, h2, h4, fun t ht => ?_⟩
  obtain ⟨k, hk, rfl⟩ := List.getElem_of_mem ht
  have hk' : k < new.length := by rw [← hf.length_eq]; exact hk
  have hc := hf.get hk hk'
  refine ⟨new[k], by simp, ?_⟩
  have hc' : CopyOf s s₁ taken[k] new[k] := hc
  rw [← hc'.genome]
  unfold genomeAt
  rw [hheap]

/-! ## Instances -/

example : exSub.sels = tournament (fun _ => 1) 2 false :: [] ∧ exSub.popSize = [0, 1, 2].length :=
  ⟨rfl, rfl⟩

/-- The counterexample configuration is an ordinary one: breeding it succeeds. -/
example : wp (breedSub (fun _ => 1) exSub [0, 1, 2]) (fun res s' => res.length = 3 ∧
    ∀ r ∈ res, exWorld.heap.length ≤ r ∧ r < s'.heap.length) exWorld := by
  refine C31_succeeds (k := 2) (replace := false) (rest := []) (m := ⟨true, none⟩) rfl (by decide)
    (by decide) rfl (by decide) ?_ ?_ exWorld_evaluated (by decide)
  · intro o ho; simp only [exSub, List.mem_singleton] at ho; subst ho; exact Op.inPlace_good _ _ _ _
  · intro o ho
    simp only [exSub, List.mem_singleton] at ho
    subst ho
    exact Op.inPlace_works fun gs _ => Ensures.pure (by simp)

/-- Arity 2 does not divide 3. -/
example : breedSub (fun _ => 1) { exSub with ops := [Op.inPlace "X" 1 2 exIncr] } [0, 1, 2] exWorld =
    (.error .valueError, exWorld) :=
  C31_not_divisible (by decide) ⟨2, by decide⟩

end Verif.Evo
