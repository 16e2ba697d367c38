import Verif.Model.Sharing

/-! # C106: objects constructed separately share no state -/

namespace Verif.Sharing
open Verif.Evo
variable {O : Type}

/-- The operations on the `k`-th object, applied to `o`. -/
def own (k : Nat) (ops : List (Nat × (O → O))) (o : O) : O :=
  ops.foldl (fun o p => if p.1 = k then p.2 o else o) o

/-- What a constructor is given to start with. -/
def Given.initial (dflt new : O) : Given O → O
  | .omitted => dflt
  | .none => new
  | .fresh o => o

/-- The references are to existing objects, and agree only for calls without the argument. -/
structure Sound (gs : List (Given O)) (refs : List Nat) (st0 st : List O) (dflt new : O) : Prop where
  length : refs.length = gs.length
  grows : ∃ more, st = st0 ++ more
  initial : ∀ (k : Nat) (g : Given O), gs[k]? = some g → ∃ i, refs[k]? = some i ∧ st[i]? = some (g.initial dflt new) ∧
    (g = .omitted → i = 0) ∧ (g ≠ .omitted → st0.length ≤ i)
  apart : ∀ j k i : Nat, refs[j]? = some i → refs[k]? = some i → j ≠ k → gs[j]? = some .omitted ∧ gs[k]? = some .omitted

theorem constructAll_sound (new dflt : O) : ∀ (gs : List (Given O)) (st0 : List O), st0[0]? = some dflt →
    Sound gs (constructAll new gs st0).1 st0 (constructAll new gs st0).2 dflt new
  | [], st0, h => ⟨rfl, ⟨[], by simp [constructAll]⟩, by simp, by simp [constructAll]⟩
  | g :: gs, st0, h => by
    obtain ⟨i, st1, hc⟩ : ∃ i st1, construct new g st0 = (i, st1) := ⟨_, _, rfl⟩
    have hpos : 0 < st0.length := by
      rcases Nat.eq_zero_or_pos st0.length with h0 | h0
      · rw [List.length_eq_zero_iff.1 h0] at h; cases h
      · exact h0
    have hi : (∃ more, st1 = st0 ++ more) ∧ st1[i]? = some (g.initial dflt new) ∧ (g = .omitted → i = 0) ∧
        (g ≠ .omitted → st0.length = i ∧ st1.length = i + 1) := by
      cases g with
      | omitted => cases hc; exact ⟨⟨[], by simp⟩, h, fun _ => rfl, fun h => absurd rfl h⟩
      | none => cases hc; exact ⟨⟨[new], rfl⟩, by simp [Given.initial], nofun, fun _ => ⟨rfl, by simp⟩⟩
      | fresh o => cases hc; exact ⟨⟨[o], rfl⟩, by simp [Given.initial], nofun, fun _ => ⟨rfl, by simp⟩⟩
    obtain ⟨⟨m1, hm1⟩, hi2, hi3, hi4⟩ := hi
    have hlen : st0.length ≤ st1.length := by rw [hm1]; simp
    have h1 : st1[0]? = some dflt := by
      rw [hm1, List.getElem?_append_left hpos]; exact h
    have ih := constructAll_sound new dflt gs st1 h1
    simp only [constructAll, hc]
    generalize constructAll new gs st1 = q at ih ⊢
    obtain ⟨is, st2⟩ := q
    dsimp only at ih ⊢
    obtain ⟨m2, hm2⟩ := ih.grows
    have hilt : i < st1.length := (List.getElem?_eq_some_iff.1 hi2).1
    -- a later reference that agrees with `i`
    have later : ∀ k' : Nat, is[k']? = some i → g = .omitted ∧ gs[k']? = some .omitted := by
      intro k' hk'
      have hlt : k' < gs.length := by rw [← ih.length]; exact (List.getElem?_eq_some_iff.1 hk').1
      obtain ⟨i', e1, e2, e3, e4⟩ := ih.initial k' gs[k'] (List.getElem?_eq_getElem hlt)
      rw [hk'] at e1
      cases e1
      have ho : gs[k'] = .omitted := by
        by_contra hno
        have := e4 hno
        omega
      have hi0 : i = 0 := e3 ho
      refine ⟨?_, by rw [List.getElem?_eq_getElem hlt, ho]⟩
      by_contra hg
      have := (hi4 hg).1
      omega
    refine ⟨by simp [ih.length], ⟨m1 ++ m2, by rw [hm2, hm1, List.append_assoc]⟩, ?_, ?_⟩
    · intro k g' hk
      cases k with
      | zero =>
        simp only [List.getElem?_cons_zero, Option.some.injEq] at hk
        subst hk
        refine ⟨i, by simp, ?_, hi3, fun hg => by have := (hi4 hg).1; omega⟩
        rw [hm2, List.getElem?_append_left hilt]
        exact hi2
      | succ k =>
        simp only [List.getElem?_cons_succ] at hk ⊢
        obtain ⟨i', e1, e2, e3, e4⟩ := ih.initial k g' hk
        exact ⟨i', e1, e2, e3, fun hg => by have := e4 hg; omega⟩
    · intro j k i' hj hk hjk
      cases j with
      | zero =>
        simp only [List.getElem?_cons_zero, Option.some.injEq] at hj
        subst hj
        cases k with
        | zero => exact absurd rfl hjk
        | succ k =>
          simp only [List.getElem?_cons_succ] at hk
          obtain ⟨a, b⟩ := later k hk
          simp [a, b]
      | succ j =>
        simp only [List.getElem?_cons_succ] at hj
        cases k with
        | zero =>
          simp only [List.getElem?_cons_zero, Option.some.injEq] at hk
          subst hk
          obtain ⟨a, b⟩ := later j hj
          simp [a, b]
        | succ k =>
          simp only [List.getElem?_cons_succ] at hk ⊢
          exact ih.apart j k i' hj hk (by omega)

/-- What an object sees is changed by the operations on those that have the same part, and by nothing else. -/
theorem see_touchAll (refs : List Nat) (ops : List (Nat × (O → O))) (st : List O) (k : Nat) :
    see refs (touchAll refs ops st) k =
      (see refs st k).map fun o => ops.foldl (fun o p => if refs[p.1]? = refs[k]? then p.2 o else o) o := by
  induction ops generalizing st with
  | nil => simp [touchAll]
  | cons p ops ih =>
    obtain ⟨l, f⟩ := p
    rw [touchAll, ih]
    have : see refs (touch refs l f st) k = (see refs st k).map fun o => if refs[l]? = refs[k]? then f o else o := by
      unfold see touch
      cases hk : refs[k]? with
      | none => rfl
      | some i =>
        cases hl : refs[l]? with
        | none => cases hs : st[i]? <;> simp [hs]
        | some j =>
          simp only [Option.bind_some, List.getElem?_modify, Option.some.injEq]
          by_cases hij : j = i
          · subst hij; cases st[j]? <;> simp
          · cases hs : st[i]? <;> simp [hij]
    rw [this, Option.map_map]
    rfl

theorem foldl_congr' {α β : Type} {f g : β → α → β} {l : List α} {b : β} (h : ∀ a ∈ l, ∀ b, f b a = g b a) :
    l.foldl f b = l.foldl g b := by
  induction l generalizing b with
  | nil => rfl
  | cons a l ih =>
    rw [List.foldl_cons, List.foldl_cons, h a (by simp)]
    exact ih fun a ha => h a (by simp [ha])

/-- **C106 (partial): independence.** If the `k`-th object was given the argument, or is the only one that was not, then
what it sees of its part after any operations on all the objects is what the operations on itself make of it. -/
theorem C106_independent_partial (new dflt : O) (gs : List (Given O)) (ops : List (Nat × (O → O))) (k : Nat) (g : Given O)
    (hk : gs[k]? = some g) (hone : g = .omitted → ∀ j, j ≠ k → gs[j]? ≠ some .omitted) :
    see (constructAll new gs [dflt]).1 (touchAll (constructAll new gs [dflt]).1 ops (constructAll new gs [dflt]).2) k =
      some (own k ops (g.initial dflt new)) := by
  have hs := constructAll_sound new dflt gs [dflt] rfl
  obtain ⟨i, h1, h2, -⟩ := hs.initial k g hk
  rw [see_touchAll]
  have : see (constructAll new gs [dflt]).1 (constructAll new gs [dflt]).2 k = some (g.initial dflt new) := by
    simp [see, h1, h2]
  rw [this, Option.map_some]
  congr 1
  refine foldl_congr' fun p hp o => ?_
  by_cases hpk : p.1 = k
  · simp [hpk]
  · rw [if_neg hpk, if_neg]
    intro he
    rw [h1] at he
    obtain ⟨a, b⟩ := hs.apart p.1 k i he h1 hpk
    rw [hk] at b
    cases b
    exact hone rfl p.1 hpk a

/-- **C106 (partial): sharing.** Two objects that were both constructed without the argument always see the same. -/
theorem C106_shared_partial (new dflt : O) (gs : List (Given O)) (ops : List (Nat × (O → O))) (j k : Nat)
    (hj : gs[j]? = some .omitted) (hk : gs[k]? = some .omitted) :
    see (constructAll new gs [dflt]).1 (touchAll (constructAll new gs [dflt]).1 ops (constructAll new gs [dflt]).2) j =
    see (constructAll new gs [dflt]).1 (touchAll (constructAll new gs [dflt]).1 ops (constructAll new gs [dflt]).2) k := by
  have hs := constructAll_sound new dflt gs [dflt] rfl
  obtain ⟨i, h1, -, h2, -⟩ := hs.initial j _ hj
  obtain ⟨i', h1', -, h2', -⟩ := hs.initial k _ hk
  rw [h2 rfl] at h1
  rw [h2' rfl] at h1'
  simp [see, h1, h1']

/-- C106, as the property says it, for the fitness of trees: after several trees were constructed (given a fitness or
not), setting the fitness of one changes the fitness of no other. -/
def C106_statement : Prop :=
  ∀ (dflt : Fit) (gs : List (Given Fit)) (k l : Nat) (v : FVal), k ≠ l →
    see (constructAll dflt gs [dflt]).1 (touch (constructAll dflt gs [dflt]).1 k (·.setFitness v) (constructAll dflt gs [dflt]).2) l =
    see (constructAll dflt gs [dflt]).1 (constructAll dflt gs [dflt]).2 l

/-- `GPFitness()`. -/
def exFit : Fit := ⟨.none, false, false, false, false, some (1 / 10)⟩

/-- C106 is false: the second of two trees constructed without a fitness is evaluated, too, when the fitness of the first
is set. -/
theorem C106_refuted : ¬ C106_statement := by
  intro h
  have := h exFit [.omitted, .omitted] 0 1 (.num 7) (by decide)
  revert this
  decide +kernel

/-- The same for the subscribers of the breeder of a `SimpleEvolution`: somebody who registers with the default breeder
of one algorithm object hears about the breeding of another. -/
theorem C106_breeders : ∃ (gs : List (Given (Pub.Registry Nat))) (r : Pub.Registry Nat),
    see (constructAll (Pub.new ["after_selection"]) gs [Pub.new ["after_selection"]]).1
      (touch (constructAll (Pub.new ["after_selection"]) gs [Pub.new ["after_selection"]]).1 0
        (fun r => (Pub.register "after_selection" (some 5) r).2)
        (constructAll (Pub.new ["after_selection"]) gs [Pub.new ["after_selection"]]).2) 1 = some r ∧
    Pub.publish r "after_selection" = ([5], .ok ()) :=
  ⟨[.omitted, .omitted], (Pub.register "after_selection" (some 5) (Pub.new ["after_selection"])).2, rfl, rfl⟩

/-- Three trees, the second with a fitness of its own. -/
example := C106_independent_partial exFit exFit [.omitted, .fresh exFit, .none] [(0, (·.setFitness (.num 1))), (1, (·.setFitness (.num 2)))]
  1 (.fresh exFit) rfl nofun

example := C106_shared_partial exFit exFit [.omitted, .fresh exFit, .omitted] [(0, (·.setFitness (.num 1)))] 0 2 rfl rfl

end Verif.Sharing
