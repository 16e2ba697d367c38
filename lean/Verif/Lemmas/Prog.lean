import Verif.Spec.Prog
import Mathlib.Tactic.Linarith

/-! # Basic facts about programs -/

namespace Verif.GP
namespace Prog

/-- Structural induction on programs. -/
theorem ind {P : Prog → Prop} (hterm : ∀ v ty, P (.term v ty))
    (happ : ∀ f args, (∀ a ∈ args, P a) → P (.app f args)) : ∀ p, P p
  | .term v ty => hterm v ty
  | .app f args => happ f args (indAll hterm happ args)
where
  indAll {P : Prog → Prop} (hterm : ∀ v ty, P (.term v ty))
      (happ : ∀ f args, (∀ a ∈ args, P a) → P (.app f args)) : ∀ ps : List Prog, ∀ a ∈ ps, P a
    | [], a, h => by simp at h
    | p :: ps, a, h => by
      rcases List.mem_cons.1 h with h | h
      · rw [h]; exact ind hterm happ p
      · exact indAll hterm happ ps a h

theorem okAll_iff : ∀ {ps : List Prog}, OkAll ps ↔ ∀ p ∈ ps, p.Ok
  | [] => by simp [OkAll]
  | p :: ps => by simp [OkAll, okAll_iff (ps := ps)]

theorem flattenAll_append (ps qs : List Prog) :
    flattenAll (ps ++ qs) = flattenAll ps ++ flattenAll qs := by
  induction ps with
  | nil => simp [flattenAll]
  | cons p ps ih => simp [flattenAll, ih]

theorem sizeAll_append (ps qs : List Prog) : sizeAll (ps ++ qs) = sizeAll ps + sizeAll qs := by
  induction ps with
  | nil => simp [sizeAll]
  | cons p ps ih => simp [sizeAll, ih]; omega

theorem size_pos (p : Prog) : 0 < p.size := by
  cases p <;> simp [size]

theorem length_flattenAll {ps : List Prog} (h : ∀ p ∈ ps, p.flatten.length = p.size) :
    (flattenAll ps).length = sizeAll ps := by
  induction ps with
  | nil => simp [flattenAll, sizeAll]
  | cons p ps ih =>
    simp only [flattenAll, sizeAll, List.length_append]
    rw [h p (by simp), ih fun q hq => h q (by simp [hq])]

theorem length_flatten (p : Prog) : p.flatten.length = p.size := by
  induction p using ind with
  | hterm v ty => simp [flatten, size]
  | happ f args ih => simp [flatten, size, length_flattenAll ih]; omega

theorem flatten_ne_nil (p : Prog) : p.flatten ≠ [] := by
  intro h
  have := length_flatten p
  rw [h] at this
  have := size_pos p
  simp_all

theorem haveTypes_length : ∀ {ps : List Prog} {τs}, HaveTypes ps τs → ps.length = τs.length
  | [], [], _ => rfl
  | p :: ps, τ :: τs, h => by simp [haveTypes_length (HaveTypes.eq_2 .. ▸ h : _ ∧ _).2]
  | [], _ :: _, h => by simp [HaveTypes] at h
  | _ :: _, [], h => by simp [HaveTypes] at h

theorem haveTypes_forall₂ : ∀ {ps : List Prog} {τs},
    HaveTypes ps τs ↔ List.Forall₂ HasType ps τs
  | [], [] => by simp [HaveTypes]
  | p :: ps, τ :: τs => by simp [HaveTypes, haveTypes_forall₂ (ps := ps)]
  | [], _ :: _ => by simp [HaveTypes]
  | _ :: _, [] => by simp [HaveTypes]

/-- A well-typed program has the right numbers of arguments. -/
theorem HasType.ok {p : Prog} : ∀ {τ}, p.HasType τ → p.Ok := by
  induction p using ind with
  | hterm v ty => intros; simp [Ok]
  | happ f args ih =>
    intro τ h
    simp only [HasType] at h
    refine ⟨haveTypes_length h.2, okAll_iff.2 fun a ha => ?_⟩
    have h2 := haveTypes_forall₂.1 h.2
    obtain ⟨i, hi, rfl⟩ := List.getElem_of_mem ha
    have := List.forall₂_iff_get.1 h2
    exact ih _ ha (this.2 i hi (by rw [← this.1]; exact hi))

/-- A program has at most one type. -/
theorem HasType.unique {p : Prog} {τ τ' : Option Ty} (h : p.HasType τ) (h' : p.HasType τ') :
    τ = τ' := by
  cases p with
  | term v ty => exact h.symm.trans h'
  | app f args => exact h.1.symm.trans h'.1

theorem mem_fnsAll {ps : List Prog} {f : Fn} : f ∈ fnsAll ps ↔ ∃ p ∈ ps, f ∈ p.fns := by
  induction ps with
  | nil => simp [fnsAll]
  | cons p ps ih => simp [fnsAll, ih]

theorem mem_termsAll {ps : List Prog} {f} : f ∈ termsAll ps ↔ ∃ p ∈ ps, f ∈ p.terms := by
  induction ps with
  | nil => simp [termsAll]
  | cons p ps ih => simp [termsAll, ih]

theorem mem_leafDepthsAll {ps : List Prog} {d} : d ∈ leafDepthsAll ps ↔ ∃ p ∈ ps, d ∈ p.leafDepths := by
  induction ps with
  | nil => simp [leafDepthsAll]
  | cons p ps ih => simp [leafDepthsAll, ih]

theorem mem_flattenAll {ps : List Prog} {n} : n ∈ flattenAll ps ↔ ∃ p ∈ ps, n ∈ p.flatten := by
  induction ps with
  | nil => simp [flattenAll]
  | cons p ps ih => simp [flattenAll, ih]

theorem mem_fns_iff {p : Prog} {f : Fn} : f ∈ p.fns ↔ Node.func f ∈ p.flatten := by
  induction p using ind with
  | hterm v ty => simp [fns, flatten]
  | happ g args ih =>
    simp only [fns, flatten, List.mem_cons, mem_fnsAll, mem_flattenAll, Node.func.injEq]
    constructor
    · rintro (h | ⟨p, hp, h⟩)
      · exact .inl h
      · exact .inr ⟨p, hp, (ih p hp).1 h⟩
    · rintro (h | ⟨p, hp, h⟩)
      · exact .inl h
      · exact .inr ⟨p, hp, (ih p hp).2 h⟩

end Prog

/-- Listings of legal programs form a prefix code. -/
theorem Prog.flatten_prefix (p : Prog) : p.Ok → ∀ (q : Prog) (a b : List Node), q.Ok →
    p.flatten ++ a = q.flatten ++ b → p = q ∧ a = b := by
  induction p using Prog.ind with
  | hterm v ty =>
    intro _ q a b _ h
    cases q with
    | term w ty' => simp [Prog.flatten] at h; simp [h]
    | app g args => simp [Prog.flatten] at h
  | happ f args ih =>
    intro hp q a b hq h
    cases q with
    | term w ty' => simp [Prog.flatten] at h
    | app g args' =>
      simp only [Prog.flatten, List.cons_append, List.cons.injEq, Node.func.injEq] at h
      obtain ⟨rfl, h⟩ := h
      simp only [Prog.Ok, Prog.okAll_iff] at hp hq
      have key : ∀ (ps qs : List Prog) (a b : List Node), ps.length = qs.length →
          (∀ p ∈ ps, p ∈ args) → (∀ p ∈ qs, p.Ok) →
          Prog.flattenAll ps ++ a = Prog.flattenAll qs ++ b → ps = qs ∧ a = b := by
        intro ps
        induction ps with
        | nil =>
          intro qs a b hl _ _ h
          cases qs with
          | nil => simpa [Prog.flattenAll] using h
          | cons => simp at hl
        | cons p ps ihp =>
          intro qs a b hl hs hok h
          cases qs with
          | nil => simp at hl
          | cons q qs =>
            simp only [Prog.flattenAll, List.append_assoc] at h
            obtain ⟨h1, h2⟩ := ih p (hs p (by simp)) (hp.2 p (hs p (by simp))) q _ _
              (hok q (by simp)) h
            obtain ⟨h3, h4⟩ := ihp qs a b (by simpa using hl) (fun r hr => hs r (by simp [hr]))
              (fun r hr => hok r (by simp [hr])) h2
            exact ⟨by rw [h1, h3], h4⟩
      obtain ⟨h1, h2⟩ := key args args' a b (by rw [hp.1, hq.1]) (fun p hp => hp) hq.2 h
      exact ⟨by rw [h1], h2⟩

/-- A node list is the listing of at most one legal program. -/
theorem Prog.flatten_injective {p q : Prog} (hp : p.Ok) (hq : q.Ok) (h : p.flatten = q.flatten) :
    p = q := (Prog.flatten_prefix p hp q [] [] hq (by simp [h])).1

namespace Ctx

theorem leafDepths_fill (c : Ctx) {p q : Prog} (h : p.leafDepths = q.leafDepths) :
    (c.fill p).leafDepths = (c.fill q).leafDepths := by
  induction c with
  | hole => exact h
  | app f l c r ih =>
    have happ : ∀ xs ys : List Prog, Prog.leafDepthsAll (xs ++ ys)
        = Prog.leafDepthsAll xs ++ Prog.leafDepthsAll ys := by
      intro xs ys
      induction xs with
      | nil => simp [Prog.leafDepthsAll]
      | cons x xs ihx => simp [Prog.leafDepthsAll, ihx]
    simp [fill, Prog.leafDepths, happ, Prog.leafDepthsAll, ih]

theorem fill_ok {c : Ctx} {p q : Prog} (h : (c.fill p).Ok) (hq : q.Ok) : (c.fill q).Ok := by
  induction c with
  | hole => exact hq
  | app f l c r ih =>
    simp only [fill, Prog.Ok, Prog.okAll_iff] at h ⊢
    refine ⟨by simpa using h.1, ?_⟩
    intro x hx
    simp only [List.append_assoc, List.cons_append, List.nil_append, List.mem_append,
      List.mem_cons] at hx
    rcases hx with hx | rfl | hx
    · exact h.2 x (by simp [hx])
    · exact ih (h.2 _ (by simp))
    · exact h.2 x (by simp [hx])

theorem ok_of_fill {c : Ctx} {p : Prog} (h : (c.fill p).Ok) : p.Ok := by
  induction c with
  | hole => exact h
  | app f l c r ih =>
    simp only [fill, Prog.Ok, Prog.okAll_iff] at h
    exact ih (h.2 _ (by simp))

/-- In a well-typed program every sub-program has a type, and may be replaced by any program of
that type. -/
theorem fill_hasType {c : Ctx} {p : Prog} {τ : Option Ty} (h : (c.fill p).HasType τ) :
    ∃ σ, p.HasType σ ∧ ∀ q : Prog, q.HasType σ → (c.fill q).HasType τ := by
  induction c generalizing τ with
  | hole => exact ⟨τ, h, fun q hq => hq⟩
  | app f l c r ih =>
    simp only [fill, Prog.HasType, Prog.haveTypes_forall₂] at h
    obtain ⟨h1, h2⟩ := h
    rw [List.append_assoc] at h2
    obtain ⟨τl, τs, hl, hs, heq⟩ : ∃ τl τs, List.Forall₂ Prog.HasType l τl ∧
        List.Forall₂ Prog.HasType ([c.fill p] ++ r) τs ∧ f.params = τl ++ τs := by
      refine ⟨f.params.take l.length, f.params.drop l.length, ?_, ?_, by simp⟩
      · have := List.forall₂_take l.length h2
        simpa using this
      · have := List.forall₂_drop l.length h2
        simpa using this
    cases hs with
    | cons hp hr =>
      rename_i τ0 τr
      obtain ⟨σ, hσ, hfill⟩ := ih hp
      refine ⟨σ, hσ, fun q hq => ?_⟩
      simp only [fill, Prog.HasType, Prog.haveTypes_forall₂]
      refine ⟨h1, ?_⟩
      rw [List.append_assoc, heq]
      exact List.rel_append hl (.cons (hfill q hq) hr)

theorem fill_sub (c : Ctx) (p : Prog) : p.Sub (c.fill p) := by
  induction c with
  | hole => exact .refl p
  | app f l c r ih => exact .arg (by simp) ih

/-- The listing of a filled context: a fixed prefix and a fixed suffix around the listing of the
program in the hole. -/
theorem flatten_fill (c : Ctx) : ∃ pre post : List Node, ∀ p : Prog,
    (c.fill p).flatten = pre ++ p.flatten ++ post := by
  induction c with
  | hole => exact ⟨[], [], fun p => by simp [fill]⟩
  | app f l c r ih =>
    obtain ⟨pre, post, h⟩ := ih
    refine ⟨.func f :: (Prog.flattenAll l ++ pre), post ++ Prog.flattenAll r, fun p => ?_⟩
    simp [fill, Prog.flatten, Prog.flattenAll_append, Prog.flattenAll, h]

/-- Every position of a listing is the start of the listing of a sub-program. -/
theorem exists_at_all {args : List Prog}
    (ih : ∀ a ∈ args, ∀ i < a.flatten.length, ∃ (c : Ctx) (q : Prog) (pre post : List Node),
      a = c.fill q ∧ pre.length = i ∧ ∀ r : Prog, (c.fill r).flatten = pre ++ r.flatten ++ post)
    (i : Nat) (hi : i < (Prog.flattenAll args).length) :
    ∃ (l : List Prog) (c : Ctx) (q : Prog) (r : List Prog) (pre post : List Node),
      args = l ++ [c.fill q] ++ r ∧ pre.length = i ∧
      ∀ s : Prog, Prog.flattenAll (l ++ [c.fill s] ++ r) = pre ++ s.flatten ++ post := by
  induction args generalizing i with
  | nil => simp [Prog.flattenAll] at hi
  | cons a args ihl =>
    by_cases h : i < a.flatten.length
    · obtain ⟨c, q, pre, post, rfl, hlen, hf⟩ := ih a (by simp) i h
      refine ⟨[], c, q, args, pre, post ++ Prog.flattenAll args, by simp, hlen, fun s => ?_⟩
      simp [Prog.flattenAll, hf]
    · simp only [Prog.flattenAll, List.length_append] at hi
      obtain ⟨l, c, q, r, pre, post, rfl, hlen, hf⟩ :=
        ihl (fun b hb => ih b (by simp [hb])) (i - a.flatten.length) (by omega)
      refine ⟨a :: l, c, q, r, a.flatten ++ pre, post, by simp, by simp; omega, fun s => ?_⟩
      simp only [List.cons_append, Prog.flattenAll, List.append_assoc] at hf ⊢
      rw [hf]

theorem exists_at (p : Prog) : ∀ i < p.flatten.length,
    ∃ (c : Ctx) (q : Prog) (pre post : List Node), p = c.fill q ∧ pre.length = i ∧
      ∀ r : Prog, (c.fill r).flatten = pre ++ r.flatten ++ post := by
  induction p using Prog.ind with
  | hterm v ty =>
    intro i hi
    refine ⟨.hole, .term v ty, [], [], rfl, ?_, fun r => by simp [fill]⟩
    simp [Prog.flatten] at hi; simp [hi]
  | happ f args ih =>
    intro i hi
    cases i with
    | zero => exact ⟨.hole, .app f args, [], [], rfl, rfl, fun r => by simp [fill]⟩
    | succ i =>
      simp only [Prog.flatten, List.length_cons, Nat.add_lt_add_iff_right] at hi
      obtain ⟨l, c, q, r, pre, post, rfl, hlen, hf⟩ := exists_at_all ih i hi
      refine ⟨.app f l c r, q, .func f :: pre, post, rfl, by simp [hlen], fun s => ?_⟩
      simp only [fill, Prog.flatten, List.cons_append]
      rw [hf]

end Ctx
end Verif.GP
