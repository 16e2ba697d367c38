import Verif.Model.Told
import Verif.Props.Reproducible

/-! # C111: what the subscribers of `after_operator` are told -/

namespace Verif.Evo
open PyM
variable {G : Type}

/-- Some of the `n` attempts numbered from `i` on, made in `w`, returns success. -/
inductive Succeeds (o : MarkOp G) (inds : List Nat) : Nat → Nat → World G → Prop
  | now {n i w r w'} (h : o.attempt inds i w = (.ok (true, r), w')) : Succeeds o inds (n + 1) i w
  | later {n i w r w'} (h : o.attempt inds i w = (.ok (false, r), w')) (t : Succeeds o inds n (i + 1) w') :
      Succeeds o inds (n + 1) i w

theorem told_lift {α : Type} {m : WM G α} {s s' : Told G} {r : Except Err α} (h : Told.lift m s = (r, s')) :
    m s.world = (r, s'.world) ∧ s'.applied = s.applied := by
  unfold Told.lift at h
  cases hm : m s.world with
  | mk a w => rw [hm] at h; cases h; exact ⟨rfl, rfl⟩

theorem told_lift_run {α : Type} {m : WM G α} {s : Told G} {r : Except Err α} {w : World G}
    (h : m s.world = (r, w)) : Told.lift m s = (r, ⟨w, s.applied⟩) := by
  unfold Told.lift; rw [h]

theorem attemptOperator_told {o : MarkOp G} {inds : List Nat} {i : Nat} {s s' : Told G} {r : Bool × List Nat}
    (h : o.attemptOperator inds i s = (.ok r, s')) :
    o.attempt inds i s.world = (.ok r, s'.world) ∧
      s'.applied = if o.marks r.1 then some inds else s.applied := by
  obtain ⟨r1, s1, h1, h⟩ := bind_ok.1 h
  obtain ⟨hw, ha⟩ := told_lift h1
  by_cases hm : o.marks r1.1
  · simp only [hm, if_true] at h
    cases h
    exact ⟨hw, by simp [hm]⟩
  · simp only [hm] at h
    cases h
    exact ⟨hw, by simp [hm, ha]⟩

theorem loop_told {o : MarkOp G} (hm : o.marks true = true) {inds : List Nat} {n : Nat} : ∀ {i : Nat} {s s' : Told G}
    {r : Option (List Nat)}, o.loop inds n i s = (.ok r, s') →
    (Succeeds o inds n i s.world ∧ s'.applied = some inds) ∨
      (¬ Succeeds o inds n i s.world ∧
        s'.applied = if o.marks false = true ∧ 0 < n then some inds else s.applied) := by
  induction n with
  | zero =>
    intro i s s' r h
    right
    obtain ⟨-, ha⟩ := told_lift h
    exact ⟨(fun hs => by cases hs), by simpa using ha⟩
  | succ n ih =>
    intro i s s' r h
    obtain ⟨b, s1, h1, h⟩ := bind_ok.1 h
    obtain ⟨hw, ha⟩ := attemptOperator_told h1
    obtain ⟨ok, l⟩ := b
    cases ok with
    | true =>
      simp only [if_true] at h
      cases h
      simp only [hm, if_true] at ha
      exact .inl ⟨.now hw, ha⟩
    | false =>
      simp only [Bool.false_eq_true, if_false] at h
      rcases ih h with ⟨hs, h'⟩ | ⟨hs, h'⟩
      · exact .inl ⟨.later hw hs, h'⟩
      · refine .inr ⟨?_, ?_⟩
        · intro hc
          cases hc with
          | now h2 => rw [hw] at h2; cases h2
          | later h2 t =>
            rw [hw] at h2
            cases h2
            exact hs t
        · rw [h', ha]
          dsimp only
          by_cases hf : o.marks false = true
          · simp [hf]
          · simp [hf]

/-- The draw with which `act` begins, and the world in which the attempts begin if the operator is applied. -/
structure Begins (o : MarkOp G) (inds : List Nat) (w : World G) (u : ℚ) (w' : World G) : Prop where
  arity : inds.length = o.arity
  start : ∃ w1, rand Rand.random w = (.ok u, w1) ∧
    (if u ≤ o.probability then forL setNotEvaluated inds w1 = (.ok (), w') else w' = w1)

theorem act_told {o : MarkOp G} (hm : o.marks true = true) {inds : List Nat} {s s' : Told G} {res : List Nat}
    {d : Option (List Nat)} (h : o.act inds s = (.ok (res, d), s')) :
    d = s'.applied ∧ ∃ u w, Begins o inds s.world u w ∧
      ((u ≤ o.probability ∧ Succeeds o inds o.attempts 0 w ∧ d = some inds) ∨
       (u ≤ o.probability ∧ ¬ Succeeds o inds o.attempts 0 w ∧
          d = if o.marks false = true ∧ 0 < o.attempts then some inds else s.applied) ∨
       (o.probability < u ∧ res = inds ∧ s'.world = w ∧ d = s.applied)) := by
  unfold MarkOp.act at h
  have hlen : inds.length = o.arity := by
    by_contra hc
    rw [if_pos hc] at h
    cases h
  rw [if_neg (by simp [hlen])] at h
  obtain ⟨res', s1, h1, h⟩ := bind_ok.1 h
  obtain ⟨st, s2, h2, h⟩ := bind_ok.1 h
  cases h2
  cases h
  refine ⟨rfl, ?_⟩
  obtain ⟨u, s2, h2, h1⟩ := bind_ok.1 h1
  obtain ⟨hu, ha⟩ := told_lift h2
  by_cases hp : u ≤ o.probability
  · rw [if_pos hp] at h1
    obtain ⟨_, s3, h3, h1⟩ := bind_ok.1 h1
    obtain ⟨h3, ha3⟩ := told_lift h3
    obtain ⟨r, s4, h4, h1⟩ := bind_ok.1 h1
    refine ⟨u, s3.world, ⟨hlen, s2.world, hu, by rw [if_pos hp]; exact h3⟩, ?_⟩
    have key := loop_told hm h4
    have hs : s'.applied = s4.applied := by
      cases r with
      | none => cases h1
      | some res =>
        obtain ⟨ids, s5, h5, h1⟩ := bind_ok.1 h1
        obtain ⟨-, a5⟩ := told_lift h5
        obtain ⟨_, s6, h6, h1⟩ := bind_ok.1 h1
        obtain ⟨-, a6⟩ := told_lift h6
        cases h1
        rw [a6, a5]
    rw [hs]
    rcases key with ⟨k1, k2⟩ | ⟨k1, k2⟩
    · exact .inl ⟨hp, k1, k2⟩
    · exact .inr (.inl ⟨hp, k1, by rw [k2, ha3, ha]⟩)
  · rw [if_neg hp] at h1
    cases h1
    exact ⟨u, s'.world, ⟨hlen, s'.world, hu, by rw [if_neg hp]⟩, .inr (.inr ⟨lt_of_not_ge hp, rfl, rfl, ha⟩)⟩

/-- C111: when the operator is applied and one of its attempts succeeds, the subscribers of `after_operator` are told
the individuals that this call was given. -/
theorem C111_told_partial {o : MarkOp G} (hm : o.marks true = true) {inds : List Nat} {s s' : Told G} {res : List Nat}
    {d : Option (List Nat)} (h : o.act inds s = (.ok (res, d), s')) {u : ℚ} {w : World G}
    (hb : Begins o inds s.world u w) (hu : u ≤ o.probability) (hs : Succeeds o inds o.attempts 0 w) :
    d = some inds := by
  obtain ⟨-, u', w', hb', hc⟩ := act_told hm h
  obtain ⟨w1, e1, e2⟩ := hb.start
  obtain ⟨w1', e1', e2'⟩ := hb'.start
  rw [e1] at e1'
  cases e1'
  rw [if_pos hu] at e2 e2'
  rw [e2] at e2'
  cases e2'
  rcases hc with ⟨-, -, h⟩ | ⟨-, h, -⟩ | ⟨h, -⟩
  · exact h
  · exact absurd hs h
  · exact absurd hu (not_le_of_gt h)

/-- C111: when the probability lets the individuals pass unchanged, the subscribers are told what they were told the
last time; the individuals of this call are not looked at. -/
theorem C111_passed_over {o : MarkOp G} (hm : o.marks true = true) {inds : List Nat} {s s' : Told G} {res : List Nat}
    {d : Option (List Nat)} (h : o.act inds s = (.ok (res, d), s')) {u : ℚ} {w : World G}
    (hb : Begins o inds s.world u w) (hu : o.probability < u) :
    d = s.applied ∧ res = inds ∧ s'.world.heap = s.world.heap := by
  obtain ⟨-, u', w', hb', hc⟩ := act_told hm h
  obtain ⟨w1, e1, e2⟩ := hb.start
  obtain ⟨w1', e1', e2'⟩ := hb'.start
  rw [e1] at e1'
  cases e1'
  rcases hc with ⟨h, -⟩ | ⟨h, -⟩ | ⟨-, h1, h2, h3⟩
  · exact absurd h (not_le_of_gt hu)
  · exact absurd h (not_le_of_gt hu)
  · rw [if_neg (not_le_of_gt hu)] at e2'
    refine ⟨h3, h1, ?_⟩
    rw [h2, e2']
    exact congrArg (fun p => p.2.heap) e1.symm

/-- C111: when every attempt fails, an operator that assigns `applied_individuals` on success only (the tree
operators) tells its subscribers what it told them the last time, although the individuals have lost their fitness and
been marked as changed by it; one that assigns it in any case (the vector mutations) tells them this call's. -/
theorem C111_failed {o : MarkOp G} (hm : o.marks true = true) {inds : List Nat} {s s' : Told G} {res : List Nat}
    {d : Option (List Nat)} (h : o.act inds s = (.ok (res, d), s')) {u : ℚ} {w : World G}
    (hb : Begins o inds s.world u w) (hu : u ≤ o.probability) (hs : ¬ Succeeds o inds o.attempts 0 w) :
    (o.marks false = false → d = s.applied) ∧ (o.marks false = true → 0 < o.attempts → d = some inds) := by
  obtain ⟨-, u', w', hb', hc⟩ := act_told hm h
  obtain ⟨w1, e1, e2⟩ := hb.start
  obtain ⟨w1', e1', e2'⟩ := hb'.start
  rw [e1] at e1'
  cases e1'
  rw [if_pos hu] at e2 e2'
  rw [e2] at e2'
  cases e2'
  rcases hc with ⟨-, h, -⟩ | ⟨-, -, h⟩ | ⟨h, -⟩
  · exact absurd h hs
  · exact ⟨fun hf => by simpa [hf] using h, fun hf ha => by simpa [hf, ha] using h⟩
  · exact absurd hu (not_le_of_gt h)

/-! ## Over a whole history -/

theorem stays_told {α : Type} {I : Option (List Nat) → Prop} (m : WM G α) :
    Stays (fun s : Told G => I s.applied) (Told.lift m) := by
  intro s h
  exact h

theorem stays_loop {o : MarkOp G} {I : Option (List Nat) → Prop} {inds : List Nat} (hI : I (some inds)) (n : Nat) :
    ∀ i, Stays (fun s : Told G => I s.applied) (o.loop inds n i) := by
  induction n with
  | zero => intro i; exact stays_told _
  | succ n ih =>
    intro i
    refine Stays.bind ?_ fun r => Stays.ite (Stays.pure _) (ih _)
    exact Stays.bind (stays_told _) fun r => Stays.ite (Stays.bind (fun s _ => hI) fun _ => Stays.pure _) (Stays.pure _)

theorem stays_actTold {o : MarkOp G} {I : Option (List Nat) → Prop} {inds : List Nat} (hI : I (some inds)) :
    Stays (fun s : Told G => I s.applied) (o.act inds) := by
  refine Stays.ite (Stays.raise _) (Stays.bind ?_ fun r => Stays.bind Stays.get fun _ => Stays.pure _)
  refine Stays.bind (stays_told _) fun u => Stays.ite ?_ (Stays.pure _)
  refine Stays.bind (stays_told _) fun _ => Stays.bind (stays_loop hI _ _) fun r => ?_
  cases r with
  | none => exact Stays.raise _
  | some res => exact Stays.bind (stays_told _) fun _ => Stays.bind (stays_told _) fun _ => Stays.pure _

theorem acts_told (o : MarkOp G) (I : Option (List Nat) → Prop) (ls : List (List Nat)) :
    ∀ s : Told G, I s.applied → (∀ l ∈ ls, I (some l)) →
    ∀ (k : Nat) res d, (o.acts ls s).1[k]? = some (.ok (res, d)) → I d := by
  induction ls with
  | nil => intro s _ _ k res d h; simp [MarkOp.acts] at h
  | cons l ls ih =>
    intro s hs hl k res d h
    have hst := stays_actTold (o := o) (hl l (by simp)) s hs
    simp only [MarkOp.acts] at h
    cases k with
    | zero =>
      simp only [List.getElem?_cons_zero, Option.some.injEq] at h
      obtain ⟨sf, hsf⟩ : ∃ sf, (o.act l s).2 = sf := ⟨_, rfl⟩
      have hr' : o.act l s = (.ok (res, d), sf) := Prod.ext h hsf
      unfold MarkOp.act at hr'
      split at hr'
      · cases hr'
      obtain ⟨r, s1, h1, hr'⟩ := bind_ok.1 hr'
      obtain ⟨st, s2, h2, hr'⟩ := bind_ok.1 hr'
      cases h2
      have e1 : (Except.ok (r, s1.applied) : Except Err _) = .ok (res, d) := congrArg Prod.fst hr'
      have e2 : s1 = sf := congrArg Prod.snd hr'
      cases e1
      rw [e2, ← hsf]
      exact hst
    | succ k => exact ih _ hst (fun l' h' => hl l' (by simp [h'])) k res d h

/-- C111: whatever is called, the subscribers are told the individuals of this call or of an earlier call of the same
operator, or `None`. -/
theorem C111_origin {o : MarkOp G} {ls : List (List Nat)} {w : World G} {k : Nat} {res : List Nat}
    {d : Option (List Nat)} (h : (o.acts ls ⟨w, none⟩).1[k]? = some (.ok (res, d))) :
    d = none ∨ ∃ j, j ≤ k ∧ ls[j]? = d := by
  have main : ∀ (ls : List (List Nat)) (s : Told G) (k : Nat) (a : Option (List Nat)), s.applied = a →
      (o.acts ls s).1[k]? = some (.ok (res, d)) → d = a ∨ ∃ j, j ≤ k ∧ ls[j]? = d := by
    intro ls
    induction ls with
    | nil => intro s k a _ h; simp [MarkOp.acts] at h
    | cons l ls ih =>
      intro s k a ha h
      have hst := stays_actTold (o := o) (I := fun x => x = a ∨ x = some l) (inds := l) (.inr rfl) s (.inl ha)
      cases k with
      | zero =>
        have h1 : (o.acts [l] s).1[0]? = some (.ok (res, d)) := by simpa [MarkOp.acts] using h
        rcases acts_told o (fun x => x = a ∨ x = some l) [l] s (.inl ha) (by simp) 0 res d h1 with hd | hd
        · exact .inl hd
        · exact .inr ⟨0, Nat.le_refl 0, by simp [hd]⟩
      | succ k =>
        simp only [MarkOp.acts, List.getElem?_cons_succ] at h
        rcases ih _ k _ rfl h with hd | ⟨j, hj, hd⟩
        · rcases hst with e | e
          · exact .inl (hd.trans e)
          · exact .inr ⟨0, Nat.zero_le _, by rw [hd, e]; rfl⟩
        · exact .inr ⟨j + 1, Nat.succ_le_succ hj, hd⟩
  exact main ls ⟨w, none⟩ k none rfl h

/-! ## The property as one would expect it, and what is wrong with it -/

/-- Every call that returns tells the subscribers of `after_operator` the individuals it was given. -/
def C111_statement : Prop :=
  ∀ (o : MarkOp Nat) (ls : List (List Nat)) (w : World Nat) (k : Nat) res d, o.marks true = true →
    (o.acts ls ⟨w, none⟩).1[k]? = some (.ok (res, d)) → ls[k]? = d

/-- Two individuals; the draws of `random()` come from `t`. -/
def toldWorld (t : Tape) : World Nat :=
  ⟨[⟨0, 0, 7, ⟨.num 1, true, true, false, true, none⟩, 0, [], [], false, []⟩,
    ⟨1, 0, 8, ⟨.num 2, true, true, false, true, none⟩, 0, [], [], false, []⟩], 2, t⟩

/-- Draws that make `random()` 3/4, 1/2, 3/4, … -/
def toldTape (n : Nat) : Nat := if n % 4 = 0 then 3 else if n % 4 = 1 then 3 else if n % 4 = 2 then 2 else 3

/-- What is told by each call that returns. -/
def toldOf (o : MarkOp Nat) (ls : List (List Nat)) : List (Option (Option (List Nat))) :=
  (o.acts ls ⟨toldWorld toldTape, none⟩).1.map fun r => r.toOption.map (·.2)

/-- An identity transformation of probability 1/2 called three times: it passes over the first individual and tells
`None`, is applied to the second, and passes over the first again, telling the second. -/
theorem told_stale : toldOf (identityMark (1/2)) [[0], [1], [0]] = [some none, some (some [1]), some (some [1])] := by
  decide +kernel

/-- C111 as one would expect it is false. -/
theorem C111_refuted : ¬ C111_statement := by
  intro h
  have e := told_stale
  have e' : ((identityMark (1/2)).acts [[0], [1], [0]] ⟨toldWorld toldTape, none⟩).1[2]?.map
      (fun r => r.toOption.map (·.2)) = some (some (some [1])) := by
    have := congrArg (fun l => l[2]?) e
    simpa [toldOf] using this
  cases hk : ((identityMark (G := Nat) (1/2)).acts [[0], [1], [0]] ⟨toldWorld toldTape, none⟩).1[2]? with
  | none => rw [hk] at e'; cases e'
  | some r =>
    rw [hk] at e'
    cases r with
    | error er => cases e'
    | ok p =>
      obtain ⟨res, d⟩ := p
      have hd : d = some [1] := by simpa [Except.toOption] using e'
      have := h (identityMark (1/2)) [[0], [1], [0]] (toldWorld toldTape) 2 res d rfl hk
      rw [hd] at this
      cases this

/-- A tree operator whose attempts all fail (no suitable subtree is found). -/
def failingMark : MarkOp Nat := MarkOp.onSuccess "SubtreeMutation" 1 1 2 fun gs => pure (false, gs)

/-- The hypotheses of `C111_failed` can be met: nothing is told although the operator was applied. -/
example : toldOf failingMark [[0], [1]] = [some none, some none] := by decide +kernel

/-- … and those of `C111_told_partial`: an operator that adds one succeeds and tells its individual. -/
example : toldOf (MarkOp.onSuccess "SubtreeMutation" 1 1 2 fun gs => pure (true, gs.map (· + 1))) [[0], [1]] =
    [some (some [0]), some (some [1])] := by decide +kernel

example : Begins (identityMark (1/2)) [0] (toldWorld toldTape) (3/4) (toldWorld fun n => toldTape (n + 2)) :=
  ⟨rfl, _, rfl, by rw [if_neg (by decide +kernel)]; rfl⟩

end Verif.Evo
