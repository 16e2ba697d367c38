import Verif.Model.MutationSteps
import Verif.Lemmas.Labels

/-! # Mutating individuals statement by statement is mutating their genomes -/

namespace Verif.GA
open PyM Evo

/-- The heap with the genome of one individual replaced. -/
def putAt (r : Nat) (v : Vec) (h : List (Evo.Ind Vec)) : List (Evo.Ind Vec) := h.modify r fun i => { i with genome := v }

/-- The heap with the genomes of several individuals replaced. -/
def putHeap (refs : List Nat) (gs : List Vec) (h : List (Evo.Ind Vec)) : List (Evo.Ind Vec) :=
  (refs.zip gs).foldl (fun h p => putAt p.1 p.2 h) h

/-- The individuals at `refs` have the genomes `gs`. -/
def Holds (h : List (Evo.Ind Vec)) (refs : List Nat) (gs : List Vec) : Prop :=
  List.Forall₂ (fun r v => ∃ i, h[r]? = some i ∧ i.genome = v) refs gs

theorem putAt_get {h : List (Evo.Ind Vec)} {r : Nat} {i : Evo.Ind Vec} (hi : h[r]? = some i) (v : Vec) :
    (putAt r v h)[r]? = some { i with genome := v } := by
  unfold putAt
  rw [List.getElem?_modify, hi]
  simp

theorem putAt_ne {h : List (Evo.Ind Vec)} {r n : Nat} (hr : r ≠ n) (v : Vec) : (putAt r v h)[n]? = h[n]? := by
  unfold putAt
  rw [List.getElem?_modify]
  cases h[n]? <;> simp [hr]

theorem putAt_same {h : List (Evo.Ind Vec)} {r : Nat} {i : Evo.Ind Vec} (hi : h[r]? = some i) : putAt r i.genome h = h := by
  apply List.ext_getElem?
  intro n
  by_cases hr : r = n
  · subst hr
    rw [putAt_get hi, hi]
  · rw [putAt_ne hr]

theorem putAt_putAt (h : List (Evo.Ind Vec)) (r : Nat) (u v : Vec) : putAt r v (putAt r u h) = putAt r v h := by
  apply List.ext_getElem?
  intro n
  unfold putAt
  simp only [List.getElem?_modify]
  cases h[n]? with
  | none => rfl
  | some i => by_cases hr : r = n <;> simp [hr]

theorem Holds.putAt {h : List (Evo.Ind Vec)} {refs : List Nat} {gs : List Vec} (hh : Holds h refs gs) {r : Nat} (hr : r ∉ refs) (v : Vec) :
    Holds (putAt r v h) refs gs := by
  unfold Holds at *
  induction hh with
  | nil => exact .nil
  | cons hd _ ih =>
    rename_i n g ns gs' hx
    refine .cons ?_ (ih fun h => hr (by simp [h]))
    rw [putAt_ne (fun e => hr (by simp [e]))]
    exact hd

theorem putHeap_same {h : List (Evo.Ind Vec)} {refs : List Nat} {gs : List Vec} (hh : Holds h refs gs) : putHeap refs gs h = h := by
  unfold Holds at hh
  unfold putHeap
  induction hh with
  | nil => rfl
  | cons hd _ ih =>
    obtain ⟨i, hi, rfl⟩ := hd
    rw [List.zip_cons_cons, List.foldl_cons, putAt_same hi]
    exact ih

theorem putHeap_putHeap {refs : List Nat} (hn : refs.Nodup) (h : List (Evo.Ind Vec)) (gs gs' : List Vec) (hl : gs'.length = gs.length) :
    putHeap refs gs' (putHeap refs gs h) = putHeap refs gs' h := by
  have comm : ∀ (rs : List Nat) (vs : List Vec) (r : Nat) (v : Vec) (h : List (Evo.Ind Vec)), r ∉ rs →
      putAt r v (putHeap rs vs h) = putHeap rs vs (putAt r v h) := by
    intro rs
    induction rs with
    | nil => intros; rfl
    | cons a rs ih =>
      intro vs r v h hr
      cases vs with
      | nil => rfl
      | cons b vs =>
        show putAt r v (putHeap rs vs (putAt a b h)) = putHeap rs vs (putAt a b (putAt r v h))
        rw [ih vs r v _ fun h => hr (by simp [h])]
        congr 1
        have hra : r ≠ a := fun e => hr (by simp [e])
        apply List.ext_getElem?
        intro n
        unfold putAt
        simp only [List.getElem?_modify]
        cases h[n]? with
        | none => rfl
        | some i =>
          by_cases h1 : r = n <;> by_cases h2 : a = n
          · exact absurd (h1.trans h2.symm) hra
          all_goals simp [h1, h2]
  induction refs generalizing gs gs' h with
  | nil => rfl
  | cons r rs ih =>
    cases gs with
    | nil =>
      cases gs' with
      | nil => rfl
      | cons _ _ => simp at hl
    | cons v vs =>
      cases gs' with
      | nil => simp at hl
      | cons v' vs' =>
        have hr := (List.nodup_cons.1 hn).1
        show putHeap rs vs' (putAt r v' (putHeap rs vs (putAt r v h))) = putHeap rs vs' (putAt r v' h)
        rw [comm rs vs r v' _ hr, putAt_putAt, ih (List.nodup_cons.1 hn).2 _ _ _ (by simpa using hl)]

theorem putHeap_holds {h : List (Evo.Ind Vec)} {refs : List Nat} {gs gs' : List Vec} (hn : refs.Nodup) (hh : Holds h refs gs)
    (hl : gs'.length = gs.length) : Holds (putHeap refs gs' h) refs gs' := by
  have keep : ∀ (rs : List Nat) (vs : List Vec) (n : Nat) (h : List (Evo.Ind Vec)), n ∉ rs → (putHeap rs vs h)[n]? = h[n]? := by
    intro rs
    induction rs with
    | nil => intros; rfl
    | cons a rs ih =>
      intro vs n h hr
      cases vs with
      | nil => rfl
      | cons b vs =>
        show (putHeap rs vs (putAt a b h))[n]? = _
        rw [ih vs n _ fun h => hr (by simp [h]), putAt_ne fun e => hr (by simp [e])]
  induction refs generalizing gs gs' h with
  | nil =>
    cases hh
    cases gs' with
    | nil => exact .nil
    | cons _ _ => simp at hl
  | cons r rs ih =>
    cases hh with
    | cons hd tl =>
      cases gs' with
      | nil => simp at hl
      | cons v' vs' =>
        obtain ⟨i, hi, -⟩ := hd
        have hr := (List.nodup_cons.1 hn).1
        refine .cons ?_ (ih (List.nodup_cons.1 hn).2 (Holds.putAt tl hr v') (by simpa using hl))
        refine ⟨{ i with genome := v' }, ?_, rfl⟩
        show (putHeap rs vs' (putAt r v' h))[r]? = _
        rw [keep rs vs' r _ hr, putAt_get hi]

theorem putHeap_bare (refs : List Nat) (gs : List Vec) {h' h : List (Evo.Ind Vec)} (e : h'.map Ind.bare = h.map Ind.bare) :
    (putHeap refs gs h').map Ind.bare = (putHeap refs gs h).map Ind.bare := by
  unfold putHeap
  generalize refs.zip gs = l
  induction l generalizing h' h with
  | nil => exact e
  | cons p l ih =>
    rw [List.foldl_cons, List.foldl_cons]
    refine ih ?_
    have := update_twin (G := Vec) p.1 (g' := fun i => { i with genome := p.2 }) (g := fun i => { i with genome := p.2 })
      (fun i j h => bare_setGenome p.2 h) ⟨h', 0, fun _ => 0⟩ ⟨h, 0, fun _ => 0⟩ ⟨e, rfl⟩
    exact this.2.heap

theorem putGenomes_run (refs : List Nat) (gs : List Vec) (w : World Vec) :
    putGenomes refs gs w = (.ok (), { w with heap := putHeap refs gs w.heap }) := by
  unfold putGenomes putHeap
  generalize refs.zip gs = l
  induction l generalizing w with
  | nil => rfl
  | cons p l ih =>
    show forL _ l { w with heap := putAt p.1 p.2 w.heap } = _
    rw [ih]
    rfl

theorem deref_run {r : Nat} {w : World Vec} {i : Evo.Ind Vec} (h : w.heap[r]? = some i) : deref r w = (.ok i, w) := by
  unfold deref
  simp only [PyM.bind_run, PyM.get, h]
  rfl

theorem genomes_run (refs : List Nat) (w : World Vec) :
    (∃ gs, genomes refs w = (.ok gs, w) ∧ Holds w.heap refs gs) ∨ ∃ e, genomes refs w = (.error e, w) := by
  unfold genomes
  induction refs with
  | nil => exact Or.inl ⟨[], rfl, .nil⟩
  | cons r rs ih =>
    unfold PyM.mapL
    cases hi : w.heap[r]? with
    | none =>
      refine Or.inr ⟨.attributeError, ?_⟩
      simp only [PyM.bind_run, deref, PyM.get, hi]
      rfl
    | some i =>
      have hd : (do let i ← deref r; pure i.genome : WM Vec Vec) w = (.ok i.genome, w) := by
        rw [bind_of_ok (deref_run hi)]
        rfl
      rw [bind_of_ok hd]
      rcases ih with ⟨gs, h1, h2⟩ | ⟨e, h1⟩
      · refine Or.inl ⟨i.genome :: gs, ?_, .cons ⟨i, hi, rfl⟩ h2⟩
        rw [bind_of_ok h1]
        rfl
      · refine Or.inr ⟨e, ?_⟩
        rw [PyM.bind_run, h1]

theorem rand_run {α : Type} (m : Rand α) (w : World Vec) : rand m w = ((m w.tape).1, { w with tape := (m w.tape).2 }) := rfl

/-! ## One individual -/

theorem setCellsAt_run (r : Nat) (ps : List (Int × ℚ)) {w : World Vec} {i : Evo.Ind Vec} (hi : w.heap[r]? = some i) :
    (∀ v, setCells i.genome ps = .ok v → setCellsAt r ps w = (.ok (), { w with heap := putAt r v w.heap })) ∧
      ∀ e, setCells i.genome ps = .error e → (setCellsAt r ps w).1 = .error e := by
  induction ps generalizing w i with
  | nil =>
    refine ⟨fun v hv => ?_, fun e he => by cases he⟩
    simp only [setCells, Except.ok.injEq] at hv
    subst hv
    rw [putAt_same hi]
    rfl
  | cons p ps ih =>
    obtain ⟨p, x⟩ := p
    unfold setCellsAt setCells
    rw [bind_of_ok (deref_run hi)]
    cases hs : i.genome.setCellValue p x with
    | error e =>
      refine ⟨fun v hv => by simp at hv, fun e' he => ?_⟩
      simp only [Except.error.injEq] at he
      subst he
      rfl
    | ok u =>
      have hu : (update r fun i => { i with genome := u } : WM Vec Unit) w = (.ok (), { w with heap := putAt r u w.heap }) := rfl
      rw [bind_of_ok (show (PyM.ofExcept (Except.ok u) : WM Vec Vec) w = (.ok u, w) from rfl), bind_of_ok hu]
      have := ih (w := { w with heap := putAt r u w.heap }) (putAt_get hi u)
      refine ⟨fun v hv => ?_, fun e he => this.2 e he⟩
      rw [this.1 v hv]
      show (_, ({ w with heap := putAt r v (putAt r u w.heap) } : World Vec)) = _
      rw [putAt_putAt]

theorem mutVals_run (m : NPoint) (r : Nat) (pts : List Int) {w : World Vec} {i : Evo.Ind Vec} (hi : w.heap[r]? = some i) :
    mapL (fun p => do let i ← deref r; rand (m.mutVal i.genome p)) pts w = rand (mapL (m.mutVal i.genome) pts) w := by
  induction pts generalizing w with
  | nil => rfl
  | cons p pts ih =>
    unfold PyM.mapL
    have hd : (do let i ← deref r; rand (m.mutVal i.genome p) : WM Vec ℚ) w = rand (m.mutVal i.genome p) w := by
      rw [bind_of_ok (deref_run hi)]
    rw [PyM.bind_run, hd, rand_run, rand_run, PyM.bind_run]
    rcases m.mutVal i.genome p w.tape with ⟨x, t⟩
    cases x with
    | error e => rfl
    | ok x =>
      dsimp only
      rw [PyM.bind_run, ih (w := { w with tape := t }) hi, rand_run, PyM.bind_run]
      dsimp only
      rcases mapL (m.mutVal i.genome) pts t with ⟨y, t'⟩
      cases y <;> rfl

theorem mutateAt_run (m : NPoint) (r : Nat) {w : World Vec} {i : Evo.Ind Vec} (hi : w.heap[r]? = some i) :
    (∀ b v t, mutateOne m i.genome w.tape = (.ok (b, v), t) →
      mutateAt m r w = (.ok b, ⟨putAt r v w.heap, w.nextId + 1, t⟩)) ∧
      ∀ e t, mutateOne m i.genome w.tape = (.error e, t) → (mutateAt m r w).1 = .error e := by
  have ho : oldCopy r w = (.ok i.genome, { w with nextId := w.nextId + 1 }) := by
    unfold oldCopy
    rw [bind_of_ok (deref_run hi)]
    rfl
  unfold mutateAt mutateOne
  rw [bind_of_ok ho]
  have hd := deref_run (w := { w with nextId := w.nextId + 1 }) hi
  rw [bind_of_ok hd, PyM.bind_run, PyM.bind_run, rand_run]
  dsimp only
  rcases m.cellSelector i.genome w.tape with ⟨pts, t1⟩
  cases pts with
  | error e => exact ⟨fun b v t h => by simp at h, fun e' t h => by simp at h; rw [h.1]⟩
  | ok pts =>
    dsimp only
    rw [PyM.bind_run, PyM.bind_run, mutVals_run m r pts (w := { w with nextId := w.nextId + 1, tape := t1 }) hi, rand_run]
    dsimp only
    rcases mapL (m.mutVal i.genome) pts t1 with ⟨vals, t2⟩
    cases vals with
    | error e => exact ⟨fun b v t h => by simp at h, fun e' t h => by simp at h; rw [h.1]⟩
    | ok vals =>
      dsimp only
      have hs := setCellsAt_run r (pts.zip vals) (w := { w with nextId := w.nextId + 1, tape := t2 }) hi
      rw [PyM.bind_run, PyM.bind_run]
      cases hc : setCells i.genome (pts.zip vals) with
      | error e =>
        have h1 := hs.2 e hc
        refine ⟨fun b v t h => by simp [PyM.ofExcept] at h, fun e' t h => ?_⟩
        have he : e = e' := by
          have : (Except.error e : Except Err (Bool × Vec)) = .error e' := congrArg Prod.fst h
          exact Except.error.inj this
        subst he
        revert h1
        rcases setCellsAt r (pts.zip vals) { w with nextId := w.nextId + 1, tape := t2 } with ⟨a, w'⟩
        intro h1
        dsimp only at h1
        subst h1
        rfl
      | ok v =>
        rw [hs.1 v hc]
        dsimp only [PyM.ofExcept, PyM.pure_run]
        have hd' := deref_run (w := ⟨putAt r v w.heap, w.nextId + 1, t2⟩) (putAt_get hi v)
        rw [bind_of_ok hd', PyM.bind_run, PyM.bind_run, rand_run]
        dsimp only [PyM.pure_run, pure, PyM.pure]
        rcases m.checker i.genome v t2 with ⟨ok, t3⟩
        cases ok with
        | error e => exact ⟨fun b v t h => by simp at h, fun e' t h => by simp at h; rw [h.1]⟩
        | ok ok =>
          cases ok with
          | true =>
            refine ⟨fun b u t h => ?_, fun e' t h => (by cases h)⟩
            cases h
            rfl
          | false =>
            refine ⟨fun b u t h => ?_, fun e' t h => (by cases h)⟩
            cases h
            show (_, (⟨(putAt r v w.heap).modify r _, _, _⟩ : World Vec)) = _
            congr 2
            apply List.ext_getElem?
            intro n
            unfold putAt
            simp only [List.getElem?_modify]
            cases hn : w.heap[n]? with
            | none => rfl
            | some j => by_cases hr : r = n <;> simp [hr]

/-! ## All attempts -/

theorem attemptAt_run (m : NPoint) {refs : List Nat} (hn : refs.Nodup) {w : World Vec} {gs : List Vec} (hh : Holds w.heap refs gs) :
    (∀ b gs' t, attemptOperator m gs w.tape = (.ok (b, gs'), t) → gs'.length = gs.length ∧
      ∃ k, attemptAt m refs w = (.ok b, ⟨putHeap refs gs' w.heap, k, t⟩)) ∧
      ∀ e t, attemptOperator m gs w.tape = (.error e, t) → (attemptAt m refs w).1 = .error e := by
  induction refs generalizing w gs with
  | nil =>
    cases hh
    refine ⟨fun b gs' t h => ?_, fun e t h => (by cases h)⟩
    cases h
    exact ⟨rfl, w.nextId, rfl⟩
  | cons r rs ih =>
    cases hh with
    | cons hd tl =>
      rename_i vs
      obtain ⟨i, hi, rfl⟩ := hd
      have hr := (List.nodup_cons.1 hn).1
      have h1 := mutateAt_run m r hi
      unfold attemptAt attemptOperator
      rw [PyM.bind_run, PyM.bind_run]
      rcases hm : mutateOne m i.genome w.tape with ⟨x, t1⟩
      cases x with
      | error e =>
        have h2 := h1.2 e t1 hm
        refine ⟨fun b gs' t h => (by cases h), fun e' t h => ?_⟩
        cases h
        revert h2
        rcases mutateAt m r w with ⟨a, w'⟩
        intro h2
        dsimp only at h2
        subst h2
        rfl
      | ok p =>
        obtain ⟨ok, v⟩ := p
        rw [h1.1 ok v t1 hm]
        dsimp only
        cases ok with
        | false =>
          refine ⟨fun b gs' t h => ?_, fun e' t h => (by cases h)⟩
          cases h
          refine ⟨rfl, w.nextId + 1, ?_⟩
          show (_, (⟨putAt r v w.heap, _, _⟩ : World Vec)) = (_, (⟨putHeap rs vs (putAt r v w.heap), _, _⟩ : World Vec))
          rw [putHeap_same (Holds.putAt tl hr v)]
        | true =>
          rw [if_pos rfl, if_pos rfl, PyM.bind_run]
          have h2 := ih (List.nodup_cons.1 hn).2 (w := ⟨putAt r v w.heap, w.nextId + 1, t1⟩) (Holds.putAt tl hr v)
          dsimp only at h2
          rcases ha : attemptOperator m vs t1 with ⟨y, t2⟩
          cases y with
          | error e =>
            refine ⟨fun b gs' t h => (by cases h), fun e' t h => ?_⟩
            cases h
            exact h2.2 e t2 ha
          | ok q =>
            obtain ⟨b, vs'⟩ := q
            obtain ⟨hl, k, hk⟩ := h2.1 b vs' t2 ha
            refine ⟨fun b' gs' t h => ?_, fun e' t h => (by cases h)⟩
            cases h
            exact ⟨by simp [hl], k, hk⟩

theorem attemptOperator_keeps_length (m : NPoint) (gs : List Vec) {t t' : Tape} {b : Bool} {gs' : List Vec}
    (h : attemptOperator m gs t = (.ok (b, gs'), t')) : gs'.length = gs.length := by
  induction gs generalizing t b gs' with
  | nil => cases h; rfl
  | cons v vs ih =>
    unfold attemptOperator at h
    obtain ⟨⟨ok, v'⟩, t1, -, h⟩ := bind_ok.1 h
    cases ok with
    | false => cases h; rfl
    | true =>
      obtain ⟨⟨s, l⟩, t2, h2, h⟩ := bind_ok.1 h
      cases h
      simp [ih h2]

/-- The attempts of `npTry`, from any number of attempts left. -/
def tries (m : NPoint) (n i : Nat) (p : Bool × List Vec) : Rand (Bool × List Vec) :=
  failableLoop (fun p _ => do
      let (s, l') ← attemptOperator m p.2
      pure (s, (s, l'))) pure n i p

theorem loop_run (m : NPoint) (onFail : List Nat → WM Vec (Option (List Nat))) {refs : List Nat} (hn : refs.Nodup) (n i : Nat)
    {w : World Vec} {gs : List Vec} (hh : Holds w.heap refs gs) :
    (∀ gs' t, tries m n i (false, gs) w.tape = (.ok (true, gs'), t) →
      ∃ k, Failable.loop (attemptSteps m) onFail refs n i w = (.ok (some refs), ⟨putHeap refs gs' w.heap, k, t⟩)) ∧
    (∀ gs' t, tries m n i (false, gs) w.tape = (.ok (false, gs'), t) →
      ∃ k, Failable.loop (attemptSteps m) onFail refs n i w = onFail refs ⟨putHeap refs gs' w.heap, k, t⟩) ∧
    ∀ e t, tries m n i (false, gs) w.tape = (.error e, t) →
      (Failable.loop (attemptSteps m) onFail refs n i w).1 = .error e := by
  induction n generalizing w gs i with
  | zero =>
    refine ⟨fun gs' t h => (by cases h), fun gs' t h => ?_, fun e t h => (by cases h)⟩
    cases h
    refine ⟨w.nextId, ?_⟩
    rw [putHeap_same hh]
    rfl
  | succ n ih =>
    have h1 := attemptAt_run m hn hh
    have hs : ∀ x w', attemptAt m refs w = (.ok x, w') → attemptSteps m refs i w = (.ok (x, some refs), w') := by
      intro x w' h
      unfold attemptSteps
      rw [bind_of_ok h]
      rfl
    have he : ∀ e, (attemptAt m refs w).1 = .error e → (attemptSteps m refs i w).1 = .error e := by
      intro e h
      unfold attemptSteps
      rw [PyM.bind_run]
      revert h
      rcases attemptAt m refs w with ⟨a, w'⟩
      intro h
      dsimp only at h
      subst h
      rfl
    rcases ha : attemptOperator m gs w.tape with ⟨x, t1⟩
    have ht : tries m (n + 1) i (false, gs) w.tape = match (attemptOperator m gs w.tape) with
        | (.ok (b, l'), t) => if b then (.ok (b, l'), t) else tries m n (i + 1) (b, l') t
        | (.error e, t) => (.error e, t) := by
      unfold tries
      rw [failableLoop, PyM.bind_run, PyM.bind_run]
      rcases attemptOperator m gs w.tape with ⟨y, t⟩
      cases y with
      | error e => rfl
      | ok q =>
        obtain ⟨b, l'⟩ := q
        cases b <;> rfl
    rw [ht, ha]
    unfold Failable.loop
    rw [PyM.bind_run]
    cases x with
    | error e =>
      have h2 := he e (h1.2 e t1 ha)
      refine ⟨fun gs' t h => (by cases h), fun gs' t h => (by cases h), fun e' t h => ?_⟩
      cases h
      revert h2
      rcases attemptSteps m refs i w with ⟨a, w'⟩
      intro h2
      dsimp only at h2
      subst h2
      rfl
    | ok q =>
      obtain ⟨b, l⟩ := q
      obtain ⟨hl, k, hk⟩ := h1.1 b l t1 ha
      rw [hs b _ hk]
      dsimp only
      cases b with
      | true =>
        rw [if_pos rfl, if_pos rfl]
        refine ⟨fun gs' t h => ?_, fun gs' t h => (by cases h), fun e' t h => (by cases h)⟩
        cases h
        exact ⟨k, rfl⟩
      | false =>
        rw [if_neg (by decide), if_neg (by decide)]
        have h3 := ih (i + 1) (w := ⟨putHeap refs l w.heap, k, t1⟩) (putHeap_holds hn hh hl)
        dsimp only at h3
        have hlen : ∀ gs', (∃ b t, tries m n (i + 1) (false, l) t1 = (.ok (b, gs'), t)) → gs'.length = l.length := by
          rintro gs' ⟨b, t, h⟩
          have : ∀ (n i : Nat) (p : Bool × List Vec) (t : Tape) (r : Bool × List Vec) (t' : Tape),
              tries m n i p t = (.ok r, t') → r.2.length = p.2.length := by
            intro n
            induction n with
            | zero => intro i p t r t' h; cases h; rfl
            | succ n ih =>
              intro i p t r t' h
              unfold tries at h
              rw [failableLoop] at h
              obtain ⟨q, s1, h1, h⟩ := bind_ok.1 h
              obtain ⟨⟨b, l'⟩, s2, h2, h1⟩ := bind_ok.1 h1
              simp only [pure, PyM.pure, Prod.mk.injEq, Except.ok.injEq] at h1
              obtain ⟨rfl, rfl⟩ := h1
              have hl : l'.length = p.2.length := attemptOperator_keeps_length m _ h2
              dsimp only at h
              split at h
              · cases h; exact hl
              · exact (ih _ _ _ _ _ h).trans hl
          exact this n (i + 1) (false, l) t1 (b, gs') t h
        refine ⟨fun gs' t h => ?_, fun gs' t h => ?_, fun e' t h => h3.2.2 e' t h⟩
        · obtain ⟨k', h4⟩ := h3.1 gs' t h
          refine ⟨k', ?_⟩
          rw [h4, putHeap_putHeap hn w.heap l gs' (hlen gs' ⟨_, _, h⟩)]
        · obtain ⟨k', h4⟩ := h3.2.1 gs' t h
          refine ⟨k', ?_⟩
          rw [h4, putHeap_putHeap hn w.heap l gs' (hlen gs' ⟨_, _, h⟩)]

theorem npApply_tries {m : NPoint} (hf : m.onFail = defaultOnFail) (gs : List Vec) (t : Tape) :
    npApply m gs t = match npTry m gs t with
      | (.ok (true, gs'), t') => (.ok (some gs'), t')
      | (.ok (false, _), t') => (.ok none, t')
      | (.error e, t') => (.error e, t') := by
  unfold npApply npTry failableApply
  generalize hi : 0 = i
  clear hi
  generalize m.attempts = n
  have : ∀ (n i : Nat) (b : Bool) (gs : List Vec) (t : Tape), b = false →
      failableLoop (fun (p : Option (List Vec)) (_ : Nat) => match p with
        | none => raise .typeError
        | some l => do
          let (s, l') ← attemptOperator m l
          pure (s, some l'))
      (fun p => match p with
        | none => raise .typeError
        | some l => m.onFail l) n i (some gs) t =
      match failableLoop (fun (p : Bool × List Vec) (_ : Nat) => do
        let (s, l') ← attemptOperator m p.2
        pure (s, (s, l'))) pure n i (b, gs) t with
      | (.ok (true, gs'), t') => (.ok (some gs'), t')
      | (.ok (false, _), t') => (.ok none, t')
      | (.error e, t') => (.error e, t') := by
    intro n
    induction n with
    | zero =>
      intro i b gs t hb
      subst hb
      show m.onFail gs t = _
      rw [hf]
      rfl
    | succ n ih =>
      intro i b gs t hb
      simp only [failableLoop, PyM.bind_run]
      rcases attemptOperator m gs t with ⟨x, t1⟩
      cases x with
      | error e => rfl
      | ok q =>
        obtain ⟨s, l⟩ := q
        cases s with
        | true => rfl
        | false => exact ih (i + 1) false l t1 rfl
  exact this n i false gs t rfl

/-! ## The operators -/

/-- A mutation that works on the individuals themselves does what the mutation of their genomes does, up to labels. -/
theorem mutationSteps_twins (name : String) (p : ℚ) (arity : Nat) {m : NPoint} (hf : m.onFail = defaultOnFail) :
    Op.Twins (mutationSteps name p arity m) (mutationOp name p arity m) := by
  refine ⟨rfl, rfl, rfl, fun refs hn w' w hw => ?_⟩
  have hg := genomes_twin refs w' w hw
  unfold Op.demand mutationSteps mutationOp Op.inPlace
  dsimp only
  rw [PyM.bind_run, PyM.bind_run, PyM.bind_run, PyM.bind_run]
  rcases genomes_run refs w' with ⟨gs', h1, h2⟩ | ⟨e', h1⟩
  · rcases genomes_run refs w with ⟨gs, h3, h4⟩ | ⟨e, h3⟩
    · rw [h1, h3] at hg
      obtain rfl : gs' = gs := hg.1
      rw [h1, h3]
      dsimp only
      rw [PyM.bind_run, rand_run, npApply_tries hf]
      have hl := loop_run m (fun _ => (pure none : WM Vec (Option (List Nat)))) hn m.attempts 0 h2
      rw [hw.tape] at hl
      have e : npTry m gs' w.tape = tries m m.attempts 0 (false, gs') w.tape := rfl
      rw [e]
      rcases htr : tries m m.attempts 0 (false, gs') w.tape with ⟨x, t⟩
      cases x with
      | error e =>
        have h5 := hl.2.2 e t htr
        revert h5
        rcases Failable.loop (attemptSteps m) (fun _ => (pure none : WM Vec (Option (List Nat)))) refs m.attempts 0 w' with ⟨a, w1⟩
        intro h5
        dsimp only at h5
        subst h5
        exact ⟨rfl, trivial⟩
      | ok q =>
        obtain ⟨b, out⟩ := q
        cases b with
        | false =>
          obtain ⟨k, h5⟩ := hl.2.1 out t htr
          rw [h5]
          exact ⟨rfl, trivial⟩
        | true =>
          obtain ⟨k, h5⟩ := hl.1 out t htr
          rw [h5]
          dsimp only
          rw [PyM.bind_run, putGenomes_run]
          exact ⟨⟨rfl, rfl⟩, putHeap_bare refs out hw.heap, rfl⟩
    · rw [h1, h3] at hg
      exact hg.elim
  · rcases genomes_run refs w with ⟨gs, h3, h4⟩ | ⟨e, h3⟩
    · rw [h1, h3] at hg
      exact hg.elim
    · rw [h1, h3] at hg
      rw [h1, h3]
      exact ⟨hg.1, trivial⟩

theorem gaussSteps_twins (name inner : String) (n : Nat) (p : ℚ) (arity : Nat) (mu sigma : ℚ) (attempts : Nat) :
    Op.Twins (gaussSteps name inner n p arity mu sigma attempts)
      (Op.withFallback name p arity (npTry (gaussNPoint n p mu sigma attempts)) (mutationOp inner p arity (uniformNPoint n))) := by
  have hin : Op.Twins (mutationSteps inner p arity (uniformNPoint n)) (mutationOp inner p arity (uniformNPoint n)) :=
    mutationSteps_twins inner p arity rfl
  refine ⟨rfl, rfl, rfl, fun refs hn w' w hw => ?_⟩
  have hg := genomes_twin refs w' w hw
  unfold Op.demand gaussSteps Op.withFallback
  dsimp only
  rw [PyM.bind_run, PyM.bind_run, PyM.bind_run, PyM.bind_run]
  rcases genomes_run refs w' with ⟨gs', h1, h2⟩ | ⟨e', h1⟩
  · rcases genomes_run refs w with ⟨gs, h3, h4⟩ | ⟨e, h3⟩
    · rw [h1, h3] at hg
      obtain rfl : gs' = gs := hg.1
      rw [h1, h3]
      dsimp only
      rw [PyM.bind_run, rand_run]
      have hl := loop_run (gaussNPoint n p mu sigma attempts) (fun refs => do
        let l ← Evo.applyOperator (mutationSteps inner p arity (uniformNPoint n)) refs
        pure (some l)) hn attempts 0 h2
      rw [hw.tape] at hl
      have e : npTry (gaussNPoint n p mu sigma attempts) gs' w.tape =
        tries (gaussNPoint n p mu sigma attempts) attempts 0 (false, gs') w.tape := rfl
      rw [e]
      rcases htr : tries (gaussNPoint n p mu sigma attempts) attempts 0 (false, gs') w.tape with ⟨x, t⟩
      cases x with
      | error e =>
        have h5 := hl.2.2 e t htr
        revert h5
        rcases Failable.loop (attemptSteps (gaussNPoint n p mu sigma attempts)) _ refs attempts 0 w' with ⟨a, w1⟩
        intro h5
        dsimp only at h5
        subst h5
        exact ⟨rfl, trivial⟩
      | ok q =>
        obtain ⟨b, out⟩ := q
        dsimp only
        rw [PyM.bind_run, putGenomes_run]
        cases b with
        | false =>
          obtain ⟨k, h5⟩ := hl.2.1 out t htr
          rw [h5]
          have h6 := applyOperator_twin hin hn ⟨putHeap refs out w'.heap, k, t⟩ ⟨putHeap refs out w.heap, w.nextId, t⟩
            ⟨putHeap_bare refs out hw.heap, rfl⟩
          dsimp only
          rw [if_neg (by decide), PyM.bind_run, PyM.bind_run]
          revert h6
          rcases Evo.applyOperator (mutationSteps inner p arity (uniformNPoint n)) refs ⟨putHeap refs out w'.heap, k, t⟩ with ⟨a', u'⟩
          rcases Evo.applyOperator (mutationOp inner p arity (uniformNPoint n)) refs ⟨putHeap refs out w.heap, w.nextId, t⟩ with ⟨a, u⟩
          intro h6
          cases a' <;> cases a <;> exact h6
        | true =>
          obtain ⟨k, h5⟩ := hl.1 out t htr
          rw [h5]
          exact ⟨⟨rfl, rfl⟩, putHeap_bare refs out hw.heap, rfl⟩
    · rw [h1, h3] at hg
      exact hg.elim
  · rcases genomes_run refs w with ⟨gs, h3, h4⟩ | ⟨e, h3⟩
    · rw [h1, h3] at hg
      exact hg.elim
    · rw [h1, h3] at hg
      rw [h1, h3]
      exact ⟨hg.1, trivial⟩

end Verif.GA
