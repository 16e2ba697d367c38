import Verif.Lemmas.Total

/-! # Runs whose evaluator or checkers may raise

A run is compared with the run in which the exceptions of the evaluator and of the checkers are replaced by answers: the two
are the same until one of these exceptions is raised. -/

namespace Verif.Evo
open PyM
variable {G κ σ τ α β : Type} {B : Err → Prop}

/-- `m` does what `m'` does, unless it raises an exception of the kind `B`. -/
def Until (B : Err → Prop) (m m' : PyM σ α) : Prop := ∀ s, m s = m' s ∨ ∃ e s', B e ∧ m s = (.error e, s')

theorem Until.refl (m : PyM σ α) : Until B m m := fun _ => .inl rfl

theorem Until.bind {m m' : PyM σ α} {f f' : α → PyM σ β} (hm : Until B m m') (hf : ∀ a, Until B (f a) (f' a)) :
    Until B (m >>= f) (m' >>= f') := by
  intro s
  rcases hm s with h | ⟨e, s', hB, h⟩
  · cases hr : m s with
    | mk r s' =>
      cases r with
      | error e =>
        left
        rw [bind_of_error hr, bind_of_error (h ▸ hr)]
      | ok a =>
        rw [bind_of_ok hr, bind_of_ok (h ▸ hr)]
        exact hf a s'
  · exact .inr ⟨e, s', hB, bind_of_error h⟩

theorem Until.mapL {f f' : α → PyM σ β} (h : ∀ a, Until B (f a) (f' a)) (xs : List α) : Until B (mapL f xs) (mapL f' xs) := by
  induction xs with
  | nil => exact Until.refl _
  | cons x xs ih =>
    unfold PyM.mapL
    exact (h x).bind fun _ => ih.bind fun _ => Until.refl _

theorem Until.zoom {g : σ → τ} {p : τ → σ → σ} {m m' : PyM τ α} (h : Until B m m') : Until B (zoom g p m) (zoom g p m') := by
  intro s
  rcases h (g s) with h | ⟨e, s', hB, h⟩
  · left; simp [PyM.zoom, h]
  · right; exact ⟨e, p s' s, hB, by simp [PyM.zoom, h]⟩

theorem Until.get {f f' : σ → PyM σ β} (h : ∀ a, Until B (f a) (f' a)) : Until B (PyM.get >>= f) (PyM.get >>= f') :=
  (Until.refl _).bind h

/-! ## The tame configuration -/

open Classical in
/-- Answer 0 instead of raising an exception, on genomes satisfying `P`. -/
noncomputable def tameEval (P : G → Prop) (evaluate : G → Rand ℚ) (g : G) : Rand ℚ := fun t =>
  if P g then
    match evaluate g t with
    | (.ok x, t') => (.ok x, t')
    | (.error _, t') => (.ok 0, t')
  else evaluate g t

open Classical in
/-- Answer "no" and keep the state instead of raising an exception, when given what checkers are given in a run. -/
noncomputable def tameChecker (size : G → Nat) (hib : Bool) (K : κ → Prop) (t : Checker G κ) : Checker G κ :=
  fun k heap inds best gen =>
    if Consulted size hib K k heap inds best then
      match t k heap inds best gen with
      | (.ok b, k') => (.ok b, k')
      | (.error _, _) => (.ok false, k)
    else t k heap inds best gen

noncomputable def SubCfg.tame (P : G → Prop) (sub : SubCfg G) : SubCfg G := { sub with evaluate := tameEval P sub.evaluate }

noncomputable def Checkers.tame (size : G → Nat) (hib : Bool) (K : κ → Prop) : Checkers G κ → Checkers G κ
  | .none => .none
  | .one t => .one (tameChecker size hib K t)
  | .many ts => .many (ts.map (tameChecker size hib K))

noncomputable def Cfg.tame (P : G → Prop) (hib : Bool) (K : κ → Prop) (c : Cfg G κ) : Cfg G κ :=
  { c with subs := c.subs.map (SubCfg.tame P), checker := c.checker.tame c.size hib K }

/-- The exceptions of the evaluator on genomes satisfying `P`. -/
def SubCfg.EvaluatorRaises (P : G → Prop) (sub : SubCfg G) (e : Err) : Prop := ∃ g t t', P g ∧ sub.evaluate g t = (.error e, t')

/-- The checkers of a configuration. -/
def Checkers.all : Checkers G κ → List (Checker G κ)
  | .none => []
  | .one t => [t]
  | .many ts => ts

/-- The exceptions the termination checkers raise when given what they are given in a run, in states satisfying `K`. -/
def Cfg.CheckerRaises (c : Cfg G κ) (hib : Bool) (K : κ → Prop) (e : Err) : Prop :=
  ∃ t ∈ c.checker.all, ∃ k heap inds best gen k', Consulted c.size hib K k heap inds best ∧ t k heap inds best gen = (.error e, k')

variable {P : G → Prop} {hib : Bool} {K : κ → Prop} {c : Cfg G κ} {sub : SubCfg G}

theorem tameEval_until (hB : ∀ e, sub.EvaluatorRaises P e → B e) (g : G) : Until B (sub.evaluate g) ((sub.tame P).evaluate g) := by
  intro t
  show _ = tameEval P sub.evaluate g t ∨ _
  unfold tameEval
  by_cases hP : P g
  · rw [if_pos hP]
    cases hr : sub.evaluate g t with
    | mk r t' =>
      cases r with
      | ok x => exact .inl rfl
      | error e => exact .inr ⟨e, t', hB e ⟨g, t, t', hP, hr⟩, rfl⟩
  · rw [if_neg hP]
    exact .inl rfl

theorem runEval_until (hB : ∀ e, sub.EvaluatorRaises P e → B e) (r : Nat) : Until B (runEval sub r) (runEval (sub.tame P) r) := by
  unfold runEval
  exact (Until.refl _).bind fun i => (tameEval_until hB _).zoom

theorem executorMap_until {order : List Nat} {task task' : Nat → PyM σ α} (h : ∀ r, Until B (task r) (task' r)) (refs : List Nat) :
    Until B (executorMap order task refs) (executorMap order task' refs) := by
  unfold executorMap
  refine (Until.mapL (fun i => ?_) _).bind fun _ => Until.refl _
  unfold runTask
  split
  · exact Until.refl _
  · exact (h _).bind fun _ => Until.refl _

theorem evaluateMap_until {size : G → Nat} (hB : ∀ e, sub.EvaluatorRaises P e → B e) (order inds : List Nat) :
    Until B (evaluateMap size sub order inds) (evaluateMap size (sub.tame P) order inds) := by
  unfold evaluateMap
  exact (executorMap_until (runEval_until hB) inds).bind fun _ => Until.refl _

theorem evaluateSubmit_until {size : G → Nat} (hB : ∀ e, sub.EvaluatorRaises P e → B e) (order inds : List Nat) :
    Until B (evaluateSubmit size sub order inds) (evaluateSubmit size (sub.tame P) order inds) := by
  unfold evaluateSubmit
  exact (executorMap_until (fun r => (runEval_until hB r).bind fun _ => Until.refl _) inds).bind fun _ => Until.refl _

theorem evaluateBody_until (hsub : c.subs = [sub]) (hB : ∀ e, sub.EvaluatorRaises P e → B e) :
    Until B (evaluateBody c) (evaluateBody (c.tame P hib K)) := by
  unfold evaluateBody
  refine Until.get fun s => ?_
  have h' : (c.tame P hib K).subs = [sub.tame P] := by simp [Cfg.tame, hsub]
  rw [hsub, h']
  match s.inds with
  | [] => exact Until.refl _
  | [none] => exact Until.refl _
  | [some is] =>
    dsimp only
    split
    · exact Until.refl _
    · refine Until.zoom ?_
      show Until B (if c.submit = true then _ else _) (if c.submit = true then _ else _)
      split
      · exact evaluateSubmit_until hB _ _
      · exact evaluateMap_until hB _ _
  | none :: _ :: _ => exact Until.refl _
  | some _ :: _ :: _ => exact Until.refl _

theorem evaluatePopulation_until (hsub : c.subs = [sub]) (hB : ∀ e, sub.EvaluatorRaises P e → B e) :
    Until B (evaluatePopulation c) (evaluatePopulation (c.tame P hib K)) := by
  unfold evaluatePopulation act
  exact (Until.refl _).bind fun _ => (evaluateBody_until hsub hB).bind fun _ => Until.refl _

theorem breed_tame (hsub : c.subs = [sub]) : breed (c.tame P hib K) = breed c := by
  have h' : (c.tame P hib K).subs = [sub.tame P] := by simp [Cfg.tame, hsub]
  have : breedBody (c.tame P hib K) = breedBody c := by
    unfold breedBody
    congr 1
    funext s
    rw [hsub, h']
    match s.inds with
    | [] => rfl
    | none :: _ => rfl
    | some is :: _ => rfl
  unfold breed
  rw [this]

theorem createPopulation_tame (hsub : c.subs = [sub]) : createPopulation (c.tame P hib K) = createPopulation c := by
  have h' : (c.tame P hib K).subs = [sub.tame P] := by simp [Cfg.tame, hsub]
  unfold createPopulation
  congr 1
  funext s
  rw [hsub, h']
  match s.inds with
  | [] => rfl
  | none :: _ => rfl
  | some is :: _ => rfl

theorem recordWorst_tame (hsub : c.subs = [sub]) : recordWorst (c.tame P hib K) = recordWorst c := by
  have h' : (c.tame P hib K).subs = [sub.tame P] := by simp [Cfg.tame, hsub]
  unfold recordWorst
  congr 1
  funext s
  rw [hsub, h']
  match s.inds with
  | [] => rfl
  | none :: _ => rfl
  | some is :: _ => rfl

theorem generation_until (hsub : c.subs = [sub]) (hB : ∀ e, sub.EvaluatorRaises P e → B e) :
    Until B (generationIteration c) (generationIteration (c.tame P hib K)) := by
  unfold generationIteration
  rw [breed_tame hsub, recordWorst_tame hsub]
  exact (Until.refl _).bind fun _ => (evaluatePopulation_until hsub hB).bind fun _ => Until.refl _

theorem tameChecker_eq {size : G → Nat} {t : Checker G κ}
    (hB : ∀ k heap inds best gen e k', Consulted size hib K k heap inds best → t k heap inds best gen = (.error e, k') → B e)
    (k : κ) (heap : List (Ind G)) (inds : List (Option (List Nat))) (best : Option Nat) (gen : Nat) :
    t k heap inds best gen = tameChecker size hib K t k heap inds best gen ∨
      ∃ e k', B e ∧ t k heap inds best gen = (.error e, k') := by
  unfold tameChecker
  by_cases hc : Consulted size hib K k heap inds best
  · rw [if_pos hc]
    cases hr : t k heap inds best gen with
    | mk r k' =>
      cases r with
      | error e => exact .inr ⟨e, _, hB _ _ _ _ _ _ _ hc hr, rfl⟩
      | ok b => exact .inl rfl
  · rw [if_neg hc]
    exact .inl rfl

theorem consult_until {heap : List (Ind G)} {inds : List (Option (List Nat))} {best : Option Nat} {gen : Nat}
    (ts : List (Checker G κ)) (size : G → Nat)
    (hB : ∀ t ∈ ts, ∀ k heap inds best gen e k', Consulted size hib K k heap inds best → t k heap inds best gen = (.error e, k') → B e)
    (ks : List κ) :
    consult heap inds best gen ts ks = consult heap inds best gen (ts.map (tameChecker size hib K)) ks ∨
      ∃ e ks', B e ∧ consult heap inds best gen ts ks = (.error e, ks') := by
  induction ts generalizing ks with
  | nil => exact .inl (by cases ks <;> rfl)
  | cons t ts ih =>
    cases ks with
    | nil => exact .inl rfl
    | cons k ks =>
      rw [List.map_cons]
      unfold consult
      rcases tameChecker_eq (hB t (by simp)) k heap inds best gen with h | ⟨e, k', h1, h2⟩
      · rw [← h]
        cases hr : t k heap inds best gen with
        | mk r k' =>
          cases r with
          | error e => exact .inl rfl
          | ok b =>
            dsimp only
            rcases ih (fun t ht => hB t (by simp [ht])) ks with h | ⟨e, ks', h1, h2⟩
            · left; rw [h]
            · right; rw [h2]; exact ⟨e, _, h1, rfl⟩
      · right
        rw [h2]
        exact ⟨e, _, h1, rfl⟩

theorem shouldTerminate_until (hB : ∀ e, c.CheckerRaises hib K e → B e) (gen : Nat) :
    Until B (shouldTerminate c gen) (shouldTerminate (c.tame P hib K) gen) := by
  intro s
  unfold shouldTerminate
  show _ = (match c.checker.tame c.size hib K with | .none => _ | .one t => _ | .many ts => _) ∨ _
  unfold Cfg.CheckerRaises at hB
  cases hc : c.checker with
  | none => exact .inl rfl
  | one t =>
    rw [hc] at hB
    dsimp only [Checkers.tame]
    cases s.checkers with
    | nil => exact .inl rfl
    | cons k ks =>
      dsimp only
      rcases tameChecker_eq (B := B) (t := t) (size := c.size) (hib := hib) (K := K) (fun k heap inds best gen e k' h1 h2 => hB e
        ⟨t, by simp [Checkers.all], _, _, _, _, _, _, h1, h2⟩) k s.w.heap s.inds s.bestOfRun gen with h | ⟨e, k', h1, h2⟩
      · left; rw [h]
      · right; rw [h2]; exact ⟨e, _, h1, rfl⟩
  | many ts =>
    rw [hc] at hB
    dsimp only [Checkers.tame]
    rcases consult_until (heap := s.w.heap) (inds := s.inds) (best := s.bestOfRun) (gen := gen) (B := B) ts c.size
      (fun t ht k heap inds best gen e k' h1 h2 => hB e ⟨t, by simpa [Checkers.all] using ht, _, _, _, _, _, _, h1, h2⟩)
      s.checkers with h | ⟨e, ks, h1, h2⟩
    · left; rw [h]
    · right; rw [h2]; exact ⟨e, _, h1, rfl⟩

theorem mainLoop_until (hsub : c.subs = [sub]) (hB : ∀ e, sub.EvaluatorRaises P e → B e) (hC : ∀ e, c.CheckerRaises hib K e → B e)
    (n gen : Nat) : Until B (mainLoop c n gen) (mainLoop (c.tame P hib K) n gen) := by
  induction n generalizing gen with
  | zero => exact Until.refl _
  | succ n ih =>
    unfold mainLoop
    refine (Until.refl _).bind fun _ => (Until.refl _).bind fun _ => Until.get fun s => ?_
    refine (Until.refl _).bind fun _ => (Until.refl _).bind fun _ => (generation_until hsub hB).bind fun _ =>
      (shouldTerminate_until hC gen).bind fun stop => ?_
    cases stop with
    | true => exact Until.refl _
    | false => exact (Until.refl _).bind fun _ => ih _

theorem evolve_until (hsub : c.subs = [sub]) (hB : ∀ e, sub.EvaluatorRaises P e → B e) (hC : ∀ e, c.CheckerRaises hib K e → B e) :
    Until B (evolve c) (evolve (c.tame P hib K)) := by
  unfold evolve initRun afterInit
  rw [createPopulation_tame hsub]
  refine Until.bind ?_ fun _ => Until.bind ?_ fun _ => Until.refl _
  · refine Until.get fun s => (Until.refl _).bind fun _ => (Until.refl _).bind fun _ => (evaluatePopulation_until hsub hB).bind fun _ => Until.refl _
  · refine Until.get fun s => (shouldTerminate_until hC _).bind fun stop => ?_
    cases stop with
    | true => exact Until.refl _
    | false => exact mainLoop_until hsub hB hC _ _

end Verif.Evo
