import Verif.Lemmas.Subtree
import Verif.Spec.Exchange
import Mathlib.Data.List.Perm.Basic

/-! # Subtree crossover -/

namespace Verif

/-- Invariant rule for failable operators whose failed attempts leave the payload unchanged. -/
theorem failableLoop_post {σ α : Type} {attempt : α → Nat → PyM σ (Bool × α)}
    {S : α → Prop} {payload : α}
    (h : ∀ k, PyM.Post (attempt payload k) fun r => (r.1 = false ∧ r.2 = payload) ∨
      (r.1 = true ∧ S r.2)) (n : Nat) : ∀ i,
    PyM.Post (failableLoop attempt pure n i payload) fun out => out = payload ∨ S out := by
  induction n with
  | zero => intro i; exact PyM.Post.pure (.inl rfl)
  | succ n ih =>
    intro i
    refine PyM.Post.bind (h i) fun r hr => ?_
    obtain ⟨b, out⟩ := r
    rcases hr with ⟨h1, h2⟩ | ⟨h1, h2⟩
    · simp only at h1 h2
      subst h1 h2
      exact ih (i + 1)
    · simp only at h1 h2
      subst h1
      exact PyM.Post.pure (.inr h2)

namespace GP
open PyM

/-- A cut `(c, q)` that `replace_subtree` performs correctly. -/
def GoodCut (x : Ctx × Prog) : Prop :=
  ∀ r : Prog, replaceSubtree (x.1.fill x.2).flatten x.2.flatten r.flatten
    = .ok (x.1.fill r).flatten

/-- The root of the cut sub-program was an eligible node. -/
def Eligible (τ : Option Ty) (x : Ctx × Prog) : Prop :=
  ∃ n, x.2.flatten.head? = some n ∧ n ∈ relevantNodes (x.1.fill x.2).flatten τ

theorem pick_rest (τ : Option Ty) {inds : List Ind} {ps : List Prog}
    (h : List.Forall₂ Represents inds ps) :
    Post (mapL (fun ind => randomSubtree ind.cfg.functionSet ind.tree τ) inds) fun others =>
      none ∉ others → ∃ tr : List (Ctx × Prog), ps = tr.map (fun x => x.1.fill x.2) ∧
        others.filterMap id = tr.map (fun x => x.2.flatten) ∧
        (∀ x ∈ tr, GoodCut x) ∧ ∀ x ∈ tr, Eligible τ x := by
  induction h with
  | nil => exact Post.pure fun _ => ⟨[], by simp⟩
  | @cons ind p inds ps hp hps ih =>
    obtain ⟨ht, hok, hfs⟩ := hp
    rw [show mapL (fun ind => randomSubtree ind.cfg.functionSet ind.tree τ) (ind :: inds) = (do
      let y ← randomSubtree ind.cfg.functionSet ind.tree τ
      let ys ← mapL (fun ind => randomSubtree ind.cfg.functionSet ind.tree τ) inds
      pure (y :: ys)) from rfl, ht]
    refine Post.bind (randomSubtree_listing hok hfs τ) fun r hr => ?_
    refine Post.bind ih fun others ho => Post.pure ?_
    intro hn
    simp only [List.mem_cons, not_or] at hn
    cases r with
    | none => exact absurd rfl hn.1
    | some st =>
      obtain ⟨c, q, n, rfl, rfl, hhead, hrel, hrep⟩ := hr
      obtain ⟨tr, h1, h2, h3, h4⟩ := ho hn.2
      refine ⟨(c, q) :: tr, by simp [h1], by simpa using h2, ?_, ?_⟩
      · intro x hx
        rcases List.mem_cons.1 hx with rfl | hx
        · exact hrep
        · exact h3 x hx
      · intro x hx
        rcases List.mem_cons.1 hx with rfl | hx
        · exact ⟨n, hhead, hrel⟩
        · exact h4 x hx

theorem swapSubtrees_spec {sts : List (List Node)} {T : Nat → List Node} : ∀ (k : Nat)
    (inds : List Ind), k ≤ inds.length →
    (∀ i (_hi : i < k) (hl : i < inds.length), ∃ old new, Py.get sts (i : Int) = .ok old ∧
      Py.get sts ((i : Int) - 1) = .ok new ∧ replaceSubtree inds[i].tree old new = .ok (T i)) →
    ∃ out, swapSubtrees sts k inds = .ok out ∧ out.length = inds.length ∧
      ∀ i (hi : i < inds.length) (hi' : i < out.length),
        out[i] = if i < k then { inds[i] with tree := T i } else inds[i] := by
  intro k
  induction k with
  | zero => intro inds _ _; exact ⟨inds, rfl, rfl, fun i hi hi' => by simp⟩
  | succ k ih =>
    intro inds hk h
    obtain ⟨old, new, h1, h2, h3⟩ := h k (by omega) (by omega)
    have hget : inds[k]? = some inds[k] := List.getElem?_eq_getElem (by omega)
    obtain ⟨out, ho1, ho2, ho3⟩ := ih (inds.set k { inds[k] with tree := T k }) (by simp; omega)
      (fun i hi hl => by
        obtain ⟨old, new, h1, h2, h3⟩ := h i (by omega) (by simpa using hl)
        refine ⟨old, new, h1, h2, ?_⟩
        rw [List.getElem_set_ne (by omega)]; exact h3)
    refine ⟨out, ?_, by simpa using ho2, ?_⟩
    · simp only [swapSubtrees, hget, h1, h2, h3, bind, Except.bind]
      exact ho1
    · intro i hi hi'
      rw [ho3 i (by simpa using hi) hi']
      by_cases hik : i < k
      · simp [hik, show i < k + 1 by omega, List.getElem_set_ne (show k ≠ i by omega)]
      · by_cases hik' : i = k
        · subst hik'; simp
        · simp [hik, show ¬ i < k + 1 by omega, List.getElem_set_ne (show k ≠ i by omega)]

theorem turn_length {α : Type} (xs : List α) : (turn xs).length = xs.length := by
  unfold turn
  cases xs using List.reverseRecOn with
  | nil => rfl
  | append_singleton xs a => simp

theorem turn_perm {α : Type} (xs : List α) : (turn xs).Perm xs := by
  unfold turn
  cases xs using List.reverseRecOn with
  | nil => simp
  | append_singleton xs a =>
    simp only [List.getLast?_append, List.getLast?_singleton, Option.some_or, Option.toList_some,
      List.dropLast_concat]
    exact List.perm_append_comm

theorem turn_map {α β : Type} (f : α → β) (xs : List α) : turn (xs.map f) = (turn xs).map f := by
  unfold turn
  cases xs using List.reverseRecOn with
  | nil => rfl
  | append_singleton xs a => simp

theorem pyGet_turn {α : Type} {xs : List α} {i : Nat} (hi : i < xs.length)
    (hi' : i < (turn xs).length) : Py.get xs ((i : Int) - 1) = .ok (turn xs)[i] := by
  cases xs using List.reverseRecOn with
  | nil => simp at hi
  | append_singleton xs a =>
    cases i with
    | zero =>
      have : (xs ++ [a])[xs.length]? = some a := by simp
      have hneg : ¬ (0 : Int) ≤ ((0 : Nat) : Int) - 1 := by omega
      unfold Py.get Py.index?
      rw [if_neg hneg]
      have : (0 : Int) ≤ ((xs ++ [a]).length : Int) + (((0 : Nat) : Int) - 1) := by simp
      rw [if_pos this]
      simp [turn]
    | succ i =>
      simp only [List.length_append, List.length_cons, List.length_nil, Nat.zero_add,
        Nat.add_lt_add_iff_right] at hi
      unfold Py.get Py.index?
      have h0 : (0 : Int) ≤ ((i + 1 : Nat) : Int) - 1 := by omega
      have h1 : (((i + 1 : Nat) : Int) - 1).toNat = i := by omega
      rw [if_pos h0, h1]
      simp [turn, hi, show i < xs.length + 1 by omega]

theorem pyGet_nat {α : Type} {xs : List α} {i : Nat} (hi : i < xs.length) :
    Py.get xs (i : Int) = .ok xs[i] := by
  unfold Py.get Py.index?
  simp [hi]

/-- A successful exchange of the cut sub-programs. -/
theorem swap_exchange {inds : List Ind} {tr : List (Ctx × Prog)}
    (htree : inds.map (·.tree) = tr.map (fun x => (x.1.fill x.2).flatten))
    (hgood : ∀ x ∈ tr, GoodCut x) :
    swapSubtrees (tr.map fun x => x.2.flatten) inds.length inds = .ok
      (List.zipWith (fun ind p => { ind with tree := p.flatten }) inds
        (List.zipWith (fun x q => x.1.fill q) tr (turn (tr.map (·.2))))) := by
  have hlen : inds.length = tr.length := by
    have := congrArg List.length htree; simpa using this
  have htl : (turn (tr.map (·.2))).length = tr.length := by rw [turn_length]; simp
  let T : Nat → List Node := fun i =>
    if h : i < tr.length then (tr[i].1.fill ((turn (tr.map (·.2)))[i]'(by rw [htl]; exact h))).flatten
    else []
  obtain ⟨out, h1, h2, h3⟩ := swapSubtrees_spec (sts := tr.map fun x => x.2.flatten) (T := T)
    inds.length inds (Nat.le_refl _) (by
      intro i hi hl
      have hit : i < tr.length := by omega
      refine ⟨tr[i].2.flatten, ((turn (tr.map Prod.snd))[i]'(by rw [turn_length]; simpa using hit)).flatten, ?_, ?_, ?_⟩
      · rw [pyGet_nat (by simpa using hit)]; simp
      · have e : (tr.map fun x => x.2.flatten) = (tr.map (·.2)).map Prog.flatten := by
          simp [Function.comp_def]
        rw [e, pyGet_turn (by simpa using hit) (by rw [turn_length]; simpa using hit)]
        simp [turn_map]
      · have : inds[i].tree = (tr[i].1.fill tr[i].2).flatten := by
          have := congrArg (fun l => l[i]?) htree
          simpa [hl, hit] using this
        rw [this, hgood tr[i] (List.getElem_mem hit)]
        simp [T, hit])
  rw [h1]
  congr 1
  apply List.ext_getElem
  · simp [h2, htl, hlen]
  · intro i hi hi'
    have hii : i < inds.length := by omega
    rw [h3 i hii hi]
    simp [hii, T, show i < tr.length by omega]

theorem crossoverAttempt_post {inds : List Ind} {ps : List Prog}
    (h : List.Forall₂ Represents inds ps) (arity k : Nat) :
    Post (crossoverAttempt arity inds k) fun r => (r.1 = false ∧ r.2 = inds) ∨
      (r.1 = true ∧ ∃ tr x0 tl ps', Exchange tr ps ps' ∧ tr = x0 :: tl ∧
        r.2 = List.zipWith (fun ind p => { ind with tree := p.flatten }) inds ps' ∧
        Eligible none x0 ∧ ∃ r0, x0.2.flatten.head? = some r0 ∧ ∀ x ∈ tl, Eligible r0.type x) := by
  unfold crossoverAttempt
  refine Post.ite (fun _ => Post.raise) fun harity => ?_
  cases h with
  | nil =>
    refine Post.bind (Q := fun _ => False) ?_ fun _ h => h.elim
    exact Post.raise
  | @cons ind p inds ps hp hps =>
    have hp' := hp
    obtain ⟨ht, hok, hfs⟩ := hp'
    refine Post.bind (Q := fun r => match r with
      | none => True
      | some sts => ∃ tr x0 tl, tr = x0 :: tl ∧ p :: ps = tr.map (fun x => x.1.fill x.2) ∧
        sts = tr.map (fun x => x.2.flatten) ∧ (∀ x ∈ tr, GoodCut x) ∧
        Eligible none x0 ∧ ∃ r0, x0.2.flatten.head? = some r0 ∧ ∀ x ∈ tl, Eligible r0.type x) ?_ ?_
    · unfold pickSubtrees
      simp only [ht]
      refine Post.bind (randomSubtree_listing hok hfs none) fun r hr => ?_
      cases r with
      | none => exact Post.pure trivial
      | some st =>
        obtain ⟨c, q, n, hpc, hst, hhead, hrel, hrep⟩ := hr
        cases st with
        | nil => exact Post.raise
        | cons r0 tl0 =>
          have hr0 : r0 = n := by rw [← hst] at hhead; simpa using hhead
          subst hr0
          refine Post.bind (pick_rest r0.type hps) fun others ho => ?_
          refine Post.ite (fun _ => Post.pure trivial) fun hnn => Post.pure ?_
          obtain ⟨tr, h1, h2, h3, h4⟩ := ho hnn
          refine ⟨(c, q) :: tr, (c, q), tr, rfl, by simp [hpc, h1], by rw [hst, h2]; rfl, ?_,
            ⟨r0, hhead, hpc ▸ hrel⟩, r0, hhead, h4⟩
          intro x hx
          rcases List.mem_cons.1 hx with rfl | hx
          · intro r; rw [hst, hpc] at hrep; exact hrep r
          · exact h3 x hx
    · intro r hr
      cases r with
      | none => exact Post.pure (.inl ⟨rfl, rfl⟩)
      | some sts =>
        obtain ⟨tr, x0, tl, htr, hps', hsts, hgood, he0, r0, hr0, he⟩ := hr
        have htree : (ind :: inds).map (·.tree) = tr.map (fun x => (x.1.fill x.2).flatten) := by
          have e1 : (ind :: inds).map (·.tree) = (p :: ps).map Prog.flatten := by
            have : ∀ {inds : List Ind} {ps : List Prog}, List.Forall₂ Represents inds ps →
                inds.map (·.tree) = ps.map Prog.flatten := by
              intro inds ps h
              induction h with
              | nil => rfl
              | cons h _ ih => simp [h.1, ih]
            exact this (.cons hp hps)
          rw [e1, hps']; simp
        simp only
        rw [hsts, swap_exchange htree hgood]
        refine Post.bind (Q := fun out => out = List.zipWith (fun ind p => { ind with
          tree := p.flatten }) (ind :: inds) (List.zipWith (fun x q => x.1.fill q) tr
            (turn (tr.map (·.2))))) (Post.ofExcept fun a ha => (Except.ok.inj ha).symm)
          fun out ho => ?_
        subst ho
        exact Post.pure (.inr ⟨rfl, tr, x0, tl, _, ⟨hps', rfl⟩, htr, rfl, he0, r0, hr0, he⟩)

theorem crossover_post {inds : List Ind} {ps : List Prog}
    (h : List.Forall₂ Represents inds ps) (arity attempts : Nat) :
    Post (subtreeCrossover arity attempts inds) fun out => out = inds ∨
      ∃ tr x0 tl ps', Exchange tr ps ps' ∧ tr = x0 :: tl ∧
        out = List.zipWith (fun ind p => { ind with tree := p.flatten }) inds ps' ∧
        Eligible none x0 ∧ ∃ r0, x0.2.flatten.head? = some r0 ∧ ∀ x ∈ tl, Eligible r0.type x :=
  failableLoop_post (crossoverAttempt_post h arity) attempts 0

theorem crossoverAttempt_total {inds : List Ind} {ps : List Prog}
    (h : List.Forall₂ Represents inds ps) (hne : inds ≠ []) (k : Nat) :
    Total (crossoverAttempt inds.length inds k) := by
  unfold crossoverAttempt
  rw [if_neg (by simp)]
  have hlen := h.length_eq
  -- the picking phase
  have hpick : Total (pickSubtrees inds) ∧ Post (pickSubtrees inds) fun r => match r with
      | none => True
      | some sts => ∃ tr : List (Ctx × Prog), ps = tr.map (fun x => x.1.fill x.2) ∧
        sts = tr.map (fun x => x.2.flatten) ∧ (∀ x ∈ tr, GoodCut x) := by
    cases h with
    | nil => exact absurd rfl hne
    | @cons ind p inds ps hp hps =>
      obtain ⟨ht, hok, hfs⟩ := hp
      have hmap : ∀ {inds : List Ind} {ps : List Prog}, List.Forall₂ Represents inds ps → ∀ τ,
          Total (mapL (fun ind => randomSubtree ind.cfg.functionSet ind.tree τ) inds) := by
        intro inds ps hps τ
        induction hps with
        | nil => exact Total.pure
        | @cons ind p inds ps hp _ ih =>
          obtain ⟨ht, hok, hfs⟩ := hp
          refine Total.bind (Q := fun _ => True) (by simp only [ht]; exact randomSubtree_total hok hfs τ)
            Post.trivial fun _ _ => Total.bind (Q := fun _ => True) ih Post.trivial
            fun _ _ => Total.pure
      unfold pickSubtrees
      simp only [ht]
      constructor
      · refine Total.bind (randomSubtree_total hok hfs none) (randomSubtree_listing hok hfs none)
          fun r hr => ?_
        cases r with
        | none => exact Total.pure
        | some st =>
          obtain ⟨c, q, n, hpc, hst, hhead, hrel, hrep⟩ := hr
          cases st with
          | nil => exact absurd hst.symm q.flatten_ne_nil
          | cons r0 tl0 =>
            refine Total.bind (Q := fun _ => True) (hmap hps _) Post.trivial fun others _ => ?_
            split <;> exact Total.pure
      · refine Post.bind (randomSubtree_listing hok hfs none) fun r hr => ?_
        cases r with
        | none => exact Post.pure trivial
        | some st =>
          obtain ⟨c, q, n, hpc, hst, hhead, hrel, hrep⟩ := hr
          cases st with
          | nil => exact Post.raise
          | cons r0 tl0 =>
            refine Post.bind (pick_rest r0.type hps) fun others ho => ?_
            refine Post.ite (fun _ => Post.pure trivial) fun hnn => Post.pure ?_
            obtain ⟨tr, h1, h2, h3, h4⟩ := ho hnn
            refine ⟨(c, q) :: tr, by simp [hpc, h1], by rw [hst, h2]; rfl, ?_⟩
            intro x hx
            rcases List.mem_cons.1 hx with rfl | hx
            · intro r; rw [hst, hpc] at hrep; exact hrep r
            · exact h3 x hx
  refine Total.bind hpick.1 hpick.2 fun r hr => ?_
  cases r with
  | none => exact Total.pure
  | some sts =>
    obtain ⟨tr, h1, h2, h3⟩ := hr
    have htree : inds.map (·.tree) = tr.map (fun x => (x.1.fill x.2).flatten) := by
      have : ∀ {inds : List Ind} {ps : List Prog}, List.Forall₂ Represents inds ps →
          inds.map (·.tree) = ps.map Prog.flatten := by
        intro inds ps h
        induction h with
        | nil => rfl
        | cons h _ ih => simp [h.1, ih]
      rw [this h, h1]; simp
    simp only
    rw [h2, swap_exchange htree h3]
    exact Total.bind (Q := fun _ => True) (fun s => ⟨_, _, rfl⟩) Post.trivial fun _ _ => Total.pure

/-- The programs received by the individuals of an exchange, with what they keep. -/
theorem exchange_mem {tr : List (Ctx × Prog)} {ps ps' : List Prog} (h : Exchange tr ps ps') :
    ∀ p' ∈ ps', ∃ x ∈ tr, ∃ y ∈ tr, p' = x.1.fill y.2 := by
  intro p' hp'
  rw [h.2] at hp'
  obtain ⟨i, hi, rfl⟩ := List.getElem_of_mem hp'
  simp only [List.length_zipWith, turn_length, List.length_map, Nat.min_self] at hi
  have hmem : (turn (tr.map fun x => x.2))[i]'(by rw [turn_length]; simpa using hi)
      ∈ tr.map fun x => x.2 := (turn_perm _).mem_iff.1 (List.getElem_mem _)
  obtain ⟨y, hy, hye⟩ := List.mem_map.1 hmem
  exact ⟨tr[i], List.getElem_mem hi, y, hy, by simp [hye]⟩

end GP
end Verif
