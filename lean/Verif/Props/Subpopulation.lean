import Verif.Model.Subpopulation
import Verif.Lemmas.Creation
import Mathlib.Data.List.Basic

/-!
# C47, C68 — construction of sub-populations
-/

namespace Verif.Evo
open PyM
variable {G : Type}

/-- The creators a `creators` argument stands for: `cs`, and there is at least one. -/
inductive GivesCreators : CreatorsArg G → List (Nat → Bool → WM G (List Nat)) → Prop
  | one (c) : GivesCreators (.one c) [c]
  | list (c cs) : GivesCreators (.list ((c :: cs).map some)) (c :: cs)

theorem checkCreators_ok {a : CreatorsArg G} {cs : List (Nat → Bool → WM G (List Nat))} :
    checkCreators a = .ok cs ↔ GivesCreators a cs := by
  constructor
  · intro h
    cases a with
    | notGiven => simp [checkCreators] at h
    | other => simp [checkCreators] at h
    | one c => simp only [checkCreators, Except.ok.injEq] at h; subst h; exact .one c
    | list l =>
      simp only [checkCreators] at h
      split_ifs at h with h1 h2
      simp only [Except.ok.injEq] at h
      have hl : l = cs.map some := by
        rw [← h]
        clear h h1
        induction l with
        | nil => rfl
        | cons x l ih =>
          cases x with
          | none => simp at h2
          | some c =>
            rw [List.any_cons] at h2
            simp only [Option.isNone_some, Bool.false_or] at h2
            rw [List.filterMap_cons]
            exact congrArg (some c :: ·) (ih h2)
      cases cs with
      | nil => simp [hl] at h1
      | cons c cs => rw [hl]; exact .list c cs
  · rintro (c | ⟨c, cs⟩)
    · rfl
    · simp only [checkCreators]
      rw [if_neg (by simp), if_neg (by simp)]
      congr 1
      simp

/-- C47: construction succeeds exactly if there is at least one creator, all of them are creators, the creation
probabilities — by default equal shares — are as many and sum to one, and operators are given; otherwise it
raises `ValueError`.  The object has the given parts, the given number of individuals and direction. -/
theorem C47_construction (A : Py.Arith) (size : G → Nat) (ev : G → Rand ℚ) (a : SubArgs G) :
    (∀ c, makeSub A size ev a = .ok c ↔ ∃ cs ops,
      GivesCreators a.creators cs ∧ a.operators = some ops ∧
      (a.pcr.getD (List.replicate cs.length (A.inv cs.length))).length = cs.length ∧
      A.sum (a.pcr.getD (List.replicate cs.length (A.inv cs.length))) = 1 ∧
      c = { creators := cs
            pick := weightedIndex (a.pcr.getD (List.replicate cs.length (A.inv cs.length)))
            ops := ops, sels := a.selections.getD [tournament size 10 true]
            popSize := a.popSize, nElite := Py.round (a.elitismRate * a.popSize), hib := a.hib
            evaluate := ev }) ∧
    (∀ e, makeSub A size ev a = .error e → e = .valueError) := by
  have hrep : ∀ cs : List (Nat → Bool → WM G (List Nat)), (cs.map fun _ => A.inv cs.length) =
      List.replicate cs.length (A.inv cs.length) := fun cs => by simp
  constructor
  · intro c
    unfold makeSub
    constructor
    · intro h
      split at h
      · simp at h
      · rename_i cs hcs
        dsimp only at h
        rw [hrep] at h
        split_ifs at h with h1 h2
        split at h
        · simp at h
        · rename_i ops hops
          simp only [Except.ok.injEq] at h
          exact ⟨cs, ops, checkCreators_ok.1 hcs, hops, by simpa using (not_not.1 h1).symm, by simpa using h2, h.symm⟩
    · rintro ⟨cs, ops, hcs, hops, hl, hs, rfl⟩
      rw [checkCreators_ok.2 hcs]
      dsimp only
      rw [hrep, if_neg (by simpa using hl.symm), if_neg (by simpa using hs), hops]
  · intro e h
    unfold makeSub at h
    split at h
    · rename_i e' he
      simp only [Except.error.injEq] at h
      subst h
      unfold checkCreators at he
      split at he
      · exact (Except.error.inj he).symm
      · simp at he
      · split_ifs at he <;> exact (Except.error.inj he).symm
      · exact (Except.error.inj he).symm
    · dsimp only at h
      split_ifs at h with h1 h2
      · exact (Except.error.inj h).symm
      · exact (Except.error.inj h).symm
      · split at h
        · exact (Except.error.inj h).symm
        · simp at h

/-- C47: with exact arithmetic the default creation probabilities are accepted. -/
theorem C47_default_pcr (size : G → Nat) (ev : G → Rand ℚ) (a : SubArgs G)
    {cs : List (Nat → Bool → WM G (List Nat))} {ops : List (Op G)} (hc : GivesCreators a.creators cs)
    (ho : a.operators = some ops) (hp : a.pcr = none) :
    ∃ c, makeSub .exact size ev a = .ok c ∧ c.creators = cs := by
  refine ⟨_, ((C47_construction .exact size ev a).1 _).2 ⟨cs, ops, hc, ho, ?_, ?_, rfl⟩, rfl⟩
  · simp [hp]
  · have hn : (cs.length : ℚ) ≠ 0 := by
      have : cs ≠ [] := by
        generalize a.creators = x at hc
        cases hc <;> simp
      simpa using this
    simp [hp, Py.Arith.exact, hn]

/-- C47: the number of elites is the share of the population, rounded to the nearest integer (the even one
of two), and for a rate in `[0, 1]` between 0 and the size of the population. -/
theorem C47_elites (A : Py.Arith) (size : G → Nat) (ev : G → Rand ℚ) (a : SubArgs G) {c : SubCfg G}
    (h : makeSub A size ev a = .ok c) :
    |(c.nElite : ℚ) - a.elitismRate * a.popSize| ≤ 1 / 2 ∧
    (|(c.nElite : ℚ) - a.elitismRate * a.popSize| = 1 / 2 → c.nElite % 2 = 0) ∧
    (0 ≤ a.elitismRate → 0 ≤ c.nElite) ∧ (a.elitismRate ≤ 1 → c.nElite ≤ c.popSize) := by
  obtain ⟨cs, ops, -, -, -, -, rfl⟩ := ((C47_construction A size ev a).1 c).1 h
  dsimp only
  have hd := Py.round_dist (a.elitismRate * a.popSize)
  refine ⟨hd, Py.round_tie _, ?_, ?_⟩
  · intro h0
    have h1 : 0 ≤ a.elitismRate * a.popSize := by positivity
    have h2 : (-1 : ℚ) < (Py.round (a.elitismRate * a.popSize) : ℚ) := by
      have := (abs_le.1 hd).1; linarith
    have h3 : (-1 : ℤ) < Py.round (a.elitismRate * a.popSize) := by exact_mod_cast h2
    omega
  · intro h1
    have h1 : a.elitismRate * a.popSize ≤ a.popSize := by
      have : (0 : ℚ) ≤ a.popSize := by positivity
      nlinarith
    have h2 : (Py.round (a.elitismRate * a.popSize) : ℚ) < a.popSize + 1 := by
      have := (abs_le.1 hd).2; linarith
    have h3 : Py.round (a.elitismRate * a.popSize) < a.popSize + 1 := by exact_mod_cast h2
    omega

/-! ## The choice of a creator -/

theorem accumulate_length (ws : List ℚ) (s : ℚ) : (accumulate s ws).length = ws.length := by
  induction ws generalizing s with
  | nil => rfl
  | cons w ws ih => simp [accumulate, ih]

theorem accumulate_get (ws : List ℚ) (s : ℚ) {i : Nat} (h : i < ws.length) :
    (accumulate s ws).getD i 0 = s + (ws.take (i + 1)).sum := by
  induction ws generalizing s i with
  | nil => simp at h
  | cons w ws ih =>
    cases i with
    | zero => simp [accumulate]
    | succ i =>
      simp only [accumulate, List.getD_cons_succ, List.take_succ_cons, List.sum_cons]
      rw [ih _ (by simpa using h)]
      linarith

/-- `bisect_right` on any list: if the search went right, the entry to the left is at most `x`; if it went
left, the entry itself is greater. -/
theorem bisectLoop_spec (a : List ℚ) (x : ℚ) (fuel lo hi : Nat) (hf : hi - lo ≤ fuel) (hle : lo ≤ hi) :
    lo ≤ bisectLoop a x fuel lo hi ∧ bisectLoop a x fuel lo hi ≤ hi ∧
    (lo < bisectLoop a x fuel lo hi → a.getD (bisectLoop a x fuel lo hi - 1) 0 ≤ x) ∧
    (bisectLoop a x fuel lo hi < hi → x < a.getD (bisectLoop a x fuel lo hi) 0) := by
  induction fuel generalizing lo hi with
  | zero =>
    unfold bisectLoop
    exact ⟨le_refl _, hle, fun h => absurd h (lt_irrefl _), fun h => by omega⟩
  | succ fuel ih =>
    unfold bisectLoop
    split_ifs with h1
    · dsimp only
      have hm1 : lo ≤ (lo + hi) / 2 := by omega
      have hm2 : (lo + hi) / 2 < hi := by omega
      split_ifs with h2
      · obtain ⟨g1, g2, g3, g4⟩ := ih lo ((lo + hi) / 2) (by omega) hm1
        refine ⟨g1, by omega, g3, fun _ => ?_⟩
        rcases Nat.lt_or_ge (bisectLoop a x fuel lo ((lo + hi) / 2)) ((lo + hi) / 2) with h | h
        · exact g4 h
        · rw [le_antisymm g2 h]; exact h2
      · obtain ⟨g1, g2, g3, g4⟩ := ih ((lo + hi) / 2 + 1) hi (by omega) (by omega)
        refine ⟨by omega, g2, fun _ => ?_, g4⟩
        rcases Nat.lt_or_ge ((lo + hi) / 2 + 1) (bisectLoop a x fuel ((lo + hi) / 2 + 1) hi) with h | h
        · exact g3 h
        · rw [le_antisymm h g1]
          simpa using h2
    · exact ⟨le_refl _, hle, fun h => absurd h (lt_irrefl _), fun h => by omega⟩

theorem last_accumulate (ws : List ℚ) (s : ℚ) (h : ws ≠ []) :
    (accumulate s ws).getLast?.getD 0 = s + ws.sum := by
  have hl := List.length_pos_iff.2 h
  rw [List.getLast?_eq_getElem?, accumulate_length]
  have := accumulate_get ws s (i := ws.length - 1) (by omega)
  rw [List.getD_eq_getElem?_getD] at this
  rw [this, Nat.sub_add_cancel hl, List.take_length]

theorem take_succ_sum (ws : List ℚ) {i : Nat} (h : i < ws.length) :
    (ws.take (i + 1)).sum = (ws.take i).sum + ws[i] := by
  rw [List.take_succ_eq_append_getElem h, List.sum_append, List.sum_singleton]

/-- The weighted choice: with weights summing to a positive number it does not raise; with the draw
`u ∈ [0, 1)` the index returned is the one whose interval of the partial sums contains `u * total`. -/
theorem weightedIndex_spec (ws : List ℚ) (hs : 0 < ws.sum) :
    Ensures (weightedIndex ws) (fun k => ∃ h : k < ws.length, ∃ u, 0 ≤ u ∧ u < 1 ∧
      (ws.take k).sum ≤ u * ws.sum ∧ u * ws.sum < (ws.take k).sum + ws[k]) := by
  have hne : ws ≠ [] := by rintro rfl; simp at hs
  have hl := List.length_pos_iff.2 hne
  unfold weightedIndex
  dsimp only
  rw [last_accumulate ws 0 hne, zero_add, if_neg (not_le.2 hs)]
  refine Rand.random_ensures.bind ?_
  rintro u ⟨hu0, hu1⟩
  refine Ensures.pure ?_
  rw [accumulate_length]
  obtain ⟨-, g2, g3, g4⟩ := bisectLoop_spec (accumulate 0 ws) (u * ws.sum) (ws.length - 1) 0 (ws.length - 1)
    (by omega) (by omega)
  change bisectRight _ _ _ ≤ _ at g2
  change 0 < bisectRight _ _ _ → (accumulate 0 ws).getD (bisectRight _ _ _ - 1) 0 ≤ _ at g3
  change bisectRight _ _ _ < _ → _ < (accumulate 0 ws).getD (bisectRight _ _ _) 0 at g4
  generalize bisectRight (accumulate 0 ws) (u * ws.sum) (ws.length - 1) = k at *
  have hk : k < ws.length := by omega
  refine ⟨hk, u, hu0, hu1, ?_, ?_⟩
  · rcases Nat.eq_zero_or_pos k with rfl | hp
    · simp; positivity
    · have := g3 hp
      rw [accumulate_get ws 0 (by omega), zero_add, Nat.sub_add_cancel hp] at this
      exact this
  · rw [← take_succ_sum ws hk]
    rcases Nat.lt_or_ge k (ws.length - 1) with h | h
    · have := g4 h
      rwa [accumulate_get ws 0 hk, zero_add] at this
    · rw [show k + 1 = ws.length by omega, List.take_length]
      nlinarith

/-- C47: creation.  Existing individuals are kept (nothing happens); otherwise one of the creators, one with a
positive probability, is asked for a whole population, and its individuals are taken. -/
theorem C47_existing (c : SubCfg G) (is : List Nat) (s : World G) :
    createSub c (some is) s = (.ok (some is), s) := rfl

theorem C47_creation (size : G → Nat) (ev : G → Rand ℚ) (a : SubArgs G) {c : SubCfg G}
    (h : makeSub .exact size ev a = .ok c) (s : World G) :
    ∃ (k : Nat) (create : Nat → Bool → WM G (List Nat)) (t : Tape),
      c.creators[k]? = some create ∧
      (∀ p, a.pcr = some p → ∃ q, p[k]? = some q ∧ ((∀ x ∈ p, 0 ≤ x) → 0 < q)) ∧
      createSub c none s = (do let is ← create a.popSize a.hib; pure (some is)) { s with tape := t } := by
  obtain ⟨cs, ops, hc, ho, hlen, hsum, rfl⟩ := ((C47_construction .exact size ev a).1 c).1 h
  generalize hw : a.pcr.getD (List.replicate cs.length (Py.Arith.exact.inv cs.length)) = ws at *
  have hsum' : 0 < ws.sum := by
    have : ws.sum = 1 := hsum
    rw [this]; norm_num
  obtain ⟨k, t, hr, hk, u, hu0, hu1, hb1, hb2⟩ := weightedIndex_spec ws hsum' s.tape
  refine ⟨k, cs[k]'(by omega), t, List.getElem?_eq_getElem _, ?_, ?_⟩
  · intro p hp
    rw [hp] at hw
    simp only [Option.getD_some] at hw
    subst hw
    exact ⟨p[k], List.getElem?_eq_getElem hk, fun _ => by linarith⟩
  · unfold createSub
    dsimp only
    rw [bind_of_ok (a := k) (s' := { s with tape := t })]
    · rw [List.getElem?_eq_getElem (by omega)]
    · unfold rand zoom
      simp only [hr]

/-- C47: with creators that make as many individuals as asked for, the created population has exactly
`population_size` individuals. -/
theorem C47_size (A : Py.Arith) (size : G → Nat) (ev : G → Rand ℚ) (a : SubArgs G) {c : SubCfg G}
    (h : makeSub A size ev a = .ok c) (hcr : ∀ create ∈ c.creators, CreatorCounts create)
    {s s' : World G} {r : Option (List Nat)} (hr : createSub c none s = (.ok r, s')) :
    ∃ is, r = some is ∧ is.length = a.popSize := by
  obtain ⟨cs, ops, hc, ho, hlen, hsum, rfl⟩ := ((C47_construction A size ev a).1 c).1 h
  suffices hw : wlp (createSub _ none) (fun r _ => ∃ is, r = some is ∧ is.length = a.popSize) s from
    hw _ _ hr
  unfold createSub
  dsimp only
  rw [wlp_bind, wlp_rand]
  intro k t _
  split
  · simp
  · rename_i create hk
    rw [wlp_bind]
    refine (hcr create (List.mem_of_getElem? hk) _ _ _).mono fun is s' hi => ?_
    rw [wlp_pure]
    exact ⟨is, rfl, hi⟩

/-! ## C68 — the default creation probabilities are accepted -/

/-- The claim C68, for the float arithmetic `A` of a Python version: without explicit creation probabilities
every non-empty list of creators is accepted. -/
def C68_statement (A : Py.Arith) : Prop :=
  ∀ (size : Unit → Nat) (ev : Unit → Rand ℚ) (a : SubArgs Unit) cs ops, GivesCreators a.creators cs →
    a.operators = some ops → a.pcr = none → ∃ c, makeSub A size ev a = .ok c

theorem C68_sum_needed {A : Py.Arith} (h : C68_statement A) (n : Nat) :
    A.sum (List.replicate (n + 1) (A.inv (n + 1))) = 1 := by
  have create : Nat → Bool → WM Unit (List Nat) := fun _ _ => pure []
  obtain ⟨c, hc⟩ := h (fun _ => 0) (fun _ => pure 0)
    { creators := .list ((create :: List.replicate n create).map some), operators := some [] }
    (create :: List.replicate n create) [] (.list _ _) rfl rfl
  obtain ⟨cs, ops, hg, -, -, hs, -⟩ := ((C47_construction A _ _ _).1 c).1 hc
  have hcs : cs = create :: List.replicate n create := by
    have := checkCreators_ok.2 hg
    rw [checkCreators_ok.2 (GivesCreators.list _ _)] at this
    exact (Except.ok.inj this).symm
  subst hcs
  simpa using hs

/-- C68 is false for CPython up to 3.11: six creators are rejected, because six times the float `1/6` does
not add up to `1.0`. -/
theorem C68_refuted_py311 : ¬ C68_statement .py311 := fun h => by
  have := C68_sum_needed h 5
  revert this
  decide +kernel

/-- C68 is false from CPython 3.12 on, too (compensated summation): 49 creators are rejected. -/
theorem C68_refuted_py312 : ¬ C68_statement .py312 := fun h => by
  have := C68_sum_needed h 48
  revert this
  decide +kernel

/-- With exact arithmetic the claim would hold. -/
theorem C68_exact_partial : C68_statement .exact := fun size ev a _ _ hc ho hp =>
  (C47_default_pcr size ev a hc ho hp).imp fun _ h => h.1

/-! ## Instances -/

example : GivesCreators (G := Unit) (.list [some (fun _ _ => pure []), some (fun n _ => pure (List.range n))])
    [fun _ _ => pure [], fun n _ => pure (List.range n)] :=
  .list (fun _ _ => pure []) [fun n _ => pure (List.range n)]

example : ((makeSub .exact (fun _ : Unit => 0) (fun _ => pure 0)
    { creators := .list [some (fun _ _ => pure []), some (fun n _ => pure (List.range n))]
      pcr := some [1/4, 3/4], operators := some [], elitismRate := 1/8, popSize := 20 }).toOption.map
      (fun c => (c.nElite, c.popSize))) = some (2, 20) := by decide +kernel

example : (makeSub .exact (fun _ : Unit => 0) (fun _ => pure 0)
    { creators := .list [some (fun _ _ => pure []), some (fun n _ => pure (List.range n))]
      pcr := some [1/4, 1/4], operators := some [], elitismRate := 1/8, popSize := 20 }).toOption.isNone := by
  decide +kernel

example : (weightedIndex [1/4, 0, 3/4] fun n => if n = 0 then 3 else 9).1 = .ok 2 := by decide +kernel
example : (weightedIndex [1/4, 0, 3/4] fun n => if n = 0 then 2 else 9).1 = .ok 0 := by decide +kernel

end Verif.Evo
