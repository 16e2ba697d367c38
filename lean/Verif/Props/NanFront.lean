import Verif.Props.NotANumber

/-!
# C163: objective values that are not numbers

The first front of NSGA-II when some objective values are infinite or NaN.
-/

namespace Verif.Score
open Verif.Evo

/-! ## What the words mean -/

/-- `a` is at least as good as `b` in an objective; NaN is not comparable. -/
def NoWorse (hib : Bool) (a b : F) : Prop :=
  a ≠ .nan ∧ b ≠ .nan ∧ if hib then b.place ≤ a.place else a.place ≤ b.place

/-- `a` is better than `b` in an objective; NaN is not comparable. -/
def Superior (hib : Bool) (a b : F) : Prop :=
  a ≠ .nan ∧ b ≠ .nan ∧ if hib then b.place < a.place else a.place < b.place

/-- Pareto dominance, objective by objective. -/
def Dominates (hib : List Bool) (f g : List F) : Prop :=
  (∀ (j : Nat) (d : Bool) (a b : F), hib[j]? = some d → f[j]? = some a → g[j]? = some b → NoWorse d a b) ∧
    ∃ (j : Nat) (d : Bool) (a b : F), hib[j]? = some d ∧ f[j]? = some a ∧ g[j]? = some b ∧ Superior d a b

/-- One of the objectives that count is NaN. -/
def Broken (hib : List Bool) (f : List F) : Prop := ∃ j < hib.length, f[j]? = some .nan

/-! ## Dominance -/

theorem F.le_iff {x y : F} (hx : x ≠ .nan) (hy : y ≠ .nan) : x.le y = true ↔ x.place ≤ y.place := by
  cases x <;> cases y <;> simp_all [F.le, F.place, WithBot.coe_le_coe, WithTop.coe_le_coe]

theorem F.le_valued {x y : F} (h : x.le y = true) : x ≠ .nan ∧ y ≠ .nan := by
  cases x <;> cases y <;> simp_all [F.le]

theorem F.lt_valued {x y : F} (h : x.lt y = true) : x ≠ .nan ∧ y ≠ .nan := by
  cases x <;> cases y <;> simp_all [F.lt]

theorem atLeast_iff {d : Bool} {a b : F} : atLeast d a b = true ↔ NoWorse d a b := by
  cases d <;> simp only [atLeast, NoWorse, if_true, Bool.false_eq_true, if_false]
  · exact ⟨fun h => ⟨(F.le_valued h).1, (F.le_valued h).2, (F.le_iff (F.le_valued h).1 (F.le_valued h).2).1 h⟩,
      fun h => (F.le_iff h.1 h.2.1).2 h.2.2⟩
  · exact ⟨fun h => ⟨(F.le_valued h).2, (F.le_valued h).1, (F.le_iff (F.le_valued h).1 (F.le_valued h).2).1 h⟩,
      fun h => (F.le_iff h.2.1 h.1).2 h.2.2⟩

theorem betterObj_iff {d : Bool} {a b : F} : betterObj d a b = true ↔ Superior d a b := by
  cases d <;> simp only [betterObj, Superior, if_true, Bool.false_eq_true, if_false]
  · exact ⟨fun h => ⟨(F.lt_valued h).1, (F.lt_valued h).2, (F.lt_iff (F.lt_valued h).1 (F.lt_valued h).2).1 h⟩,
      fun h => (F.lt_iff h.1 h.2.1).2 h.2.2⟩
  · exact ⟨fun h => ⟨(F.lt_valued h).2, (F.lt_valued h).1, (F.lt_iff (F.lt_valued h).1 (F.lt_valued h).2).1 h⟩,
      fun h => (F.lt_iff h.2.1 h.1).2 h.2.2⟩

theorem mem_zips {hib : List Bool} {f g : List F} {t : Bool × F × F} :
    t ∈ hib.zip (f.zip g) ↔ ∃ j : Nat, hib[j]? = some t.1 ∧ f[j]? = some t.2.1 ∧ g[j]? = some t.2.2 := by
  obtain ⟨d, a, b⟩ := t
  rw [List.mem_iff_getElem?]
  refine exists_congr fun j => ?_
  rw [List.getElem?_zip_eq_some, List.getElem?_zip_eq_some]

theorem dominate_iff {hib : List Bool} {f g : List F} (hl : g.length = f.length) :
    dominate hib f g = .ok true ↔ Dominates hib f g := by
  unfold dominate Dominates
  rw [if_neg (by simpa using hl)]
  simp only [Except.ok.injEq, Bool.and_eq_true, List.all_eq_true, List.any_eq_true, atLeast_iff, betterObj_iff]
  refine and_congr ⟨fun h j d a b h1 h2 h3 => h (d, a, b) (mem_zips.2 ⟨j, h1, h2, h3⟩), fun h t ht => ?_⟩
    ⟨fun ⟨t, ht, h⟩ => ?_, fun ⟨j, d, a, b, h1, h2, h3, h⟩ => ⟨(d, a, b), mem_zips.2 ⟨j, h1, h2, h3⟩, h⟩⟩
  · obtain ⟨j, h1, h2, h3⟩ := mem_zips.1 ht
    exact h j _ _ _ h1 h2 h3
  · obtain ⟨j, h1, h2, h3⟩ := mem_zips.1 ht
    exact ⟨j, _, _, _, h1, h2, h3, h⟩

theorem Dominates.asymm {hib : List Bool} {f g : List F} (h : Dominates hib f g) : ¬ Dominates hib g f := by
  rintro ⟨h', -⟩
  obtain ⟨-, j, d, a, b, h1, h2, h3, -, -, hs⟩ := h
  obtain ⟨-, -, hw⟩ := h' j d b a h1 h3 h2
  cases d
  · exact absurd hs (not_lt.2 hw)
  · exact absurd hs (not_lt.2 hw)

/-- An individual with a NaN among its objectives neither dominates nor is dominated. -/
theorem Broken.alone {hib : List Bool} {f g : List F} (hl : g.length = f.length) (h : Broken hib f) :
    ¬ Dominates hib f g ∧ ¬ Dominates hib g f := by
  obtain ⟨j, hj, hn⟩ := h
  have hd : hib[j]? = some hib[j] := List.getElem?_eq_getElem hj
  have hjf : j < f.length := (List.getElem?_eq_some_iff.1 hn).1
  have hg : g[j]? = some (g[j]'(hl ▸ hjf)) := List.getElem?_eq_getElem (hl ▸ hjf)
  exact ⟨fun h => (h.1 j _ _ _ hd hn hg).1 rfl, fun h => (h.1 j _ _ _ hd hg hn).2.1 rfl⟩

/-! ## The counters -/

/-- All individuals have the same number of objectives. -/
def SameLength (obj : Nat → List F) (l : List Nat) : Prop := ∀ x ∈ l, ∀ y ∈ l, (obj x).length = (obj y).length

theorem count_spec {hib : List Bool} {obj : Nat → List F} {d : Nat → Nat} {x y : Nat}
    (hl : (obj x).length = (obj y).length) : ∃ d', count hib obj d x y = .ok d' ∧ ∀ z,
      (d' z = 0 ↔ d z = 0 ∧ (z = x → ¬ Dominates hib (obj y) (obj x)) ∧ (z = y → ¬ Dominates hib (obj x) (obj y))) := by
  have e1 := dominate_iff (hib := hib) (f := obj y) (g := obj x) hl
  have e2 := dominate_iff (hib := hib) (f := obj x) (g := obj y) hl.symm
  have t : ∀ f g : List F, g.length = f.length → ∃ b, dominate hib f g = .ok b := fun f g h => by
    unfold dominate; rw [if_neg (by simpa using h)]; exact ⟨_, rfl⟩
  obtain ⟨b1, h1⟩ := t (obj y) (obj x) hl
  obtain ⟨b2, h2⟩ := t (obj x) (obj y) hl.symm
  rw [h1] at e1
  rw [h2] at e2
  unfold count
  rw [h1]
  cases b1
  · simp only [h2]
    have n1 : ¬ Dominates hib (obj y) (obj x) := fun h => by simpa using e1.2 h
    cases b2
    · have n2 : ¬ Dominates hib (obj x) (obj y) := fun h => by simpa using e2.2 h
      exact ⟨d, rfl, fun z => by simp [n1, n2]⟩
    · have y2 := e2.1 rfl
      refine ⟨_, rfl, fun z => ?_⟩
      by_cases hz : z = y
      · simp [hz, y2]
      · simp [hz, n1]
  · have y1 := e1.1 rfl
    refine ⟨_, rfl, fun z => ?_⟩
    by_cases hz : z = x
    · simp [hz, y1]
    · simp [hz, y1.asymm]

theorem countAll_spec {hib : List Bool} {obj : Nat → List F} {x : Nat} :
    ∀ {ys : List Nat} {d : Nat → Nat}, x ∉ ys → (∀ y ∈ ys, (obj x).length = (obj y).length) →
      ∃ d', countAll hib obj x ys d = .ok d' ∧ ∀ z, (d' z = 0 ↔ d z = 0 ∧
        (z = x → ∀ y ∈ ys, ¬ Dominates hib (obj y) (obj x)) ∧ (z ∈ ys → ¬ Dominates hib (obj x) (obj z)))
  | [], d, _, _ => ⟨d, rfl, fun z => by simp⟩
  | y :: ys, d, hx, hl => by
    obtain ⟨d1, h1, s1⟩ := count_spec (hib := hib) (obj := obj) (d := d)
      (hl y (.head _))
    obtain ⟨d2, h2, s2⟩ := countAll_spec (hib := hib) (obj := obj) (d := d1) (fun h => hx (.tail _ h))
      fun w hw => hl w (.tail _ hw)
    refine ⟨d2, by unfold countAll; rw [h1]; exact h2, fun z => ?_⟩
    rw [s2, s1]
    constructor
    · rintro ⟨⟨h0, ha, hb⟩, hc, hd⟩
      refine ⟨h0, fun hz w hw => ?_, fun hz => ?_⟩
      · rcases List.mem_cons.1 hw with rfl | hw
        · exact ha hz
        · exact hc hz w hw
      · rcases List.mem_cons.1 hz with rfl | hz
        · exact hb rfl
        · exact hd hz
    · rintro ⟨h0, ha, hb⟩
      exact ⟨⟨h0, fun hz => ha hz y (.head _), fun hz => hz ▸ hb (hz ▸ .head _)⟩,
        fun hz w hw => ha hz w (.tail _ hw), fun hz => hb (.tail _ hz)⟩

theorem counters_spec {hib : List Bool} {obj : Nat → List F} :
    ∀ {l : List Nat} {d : Nat → Nat}, l.Nodup → SameLength obj l →
      ∃ d', counters hib obj l d = .ok d' ∧ ∀ z, (d' z = 0 ↔ d z = 0 ∧
        (z ∈ l → ∀ y ∈ l, ¬ Dominates hib (obj y) (obj z)))
  | [], d, _, _ => ⟨d, rfl, fun z => by simp⟩
  | x :: xs, d, hn, hl => by
    obtain ⟨hx, hn'⟩ := List.nodup_cons.1 hn
    obtain ⟨d1, h1, s1⟩ := countAll_spec (hib := hib) (obj := obj) (d := d) hx
      fun y hy => hl x (.head _) y (.tail _ hy)
    obtain ⟨d2, h2, s2⟩ := counters_spec (hib := hib) (obj := obj) (d := d1) hn'
      fun a ha b hb => hl a (.tail _ ha) b (.tail _ hb)
    refine ⟨d2, by unfold counters; rw [h1]; exact h2, fun z => ?_⟩
    rw [s2, s1]
    have irr : ∀ f, ¬ Dominates hib f f := fun f h => h.asymm h
    constructor
    · rintro ⟨⟨h0, ha, hb⟩, hc⟩
      refine ⟨h0, fun hz y hy => ?_⟩
      rcases List.mem_cons.1 hz with rfl | hz
      · rcases List.mem_cons.1 hy with rfl | hy
        · exact irr _
        · exact ha rfl y hy
      · rcases List.mem_cons.1 hy with rfl | hy
        · exact hb (by assumption)
        · exact hc (by assumption) y hy
    · rintro ⟨h0, ha⟩
      exact ⟨⟨h0, fun hz y hy => hz ▸ ha (hz ▸ .head _) y (.tail _ hy), fun hz => ha (.tail _ hz) x (.head _)⟩,
        fun hz y hy => ha (.tail _ hz) y (.tail _ hy)⟩

/-! ## The property -/

/-- **C163**, the part that holds: sorting raises nothing, and the first front consists of the individuals that no individual
of the population dominates.  An individual with NaN among its objectives is always one of them, and whether another one
is depends only on the individuals without NaN. -/
theorem C163_partial {hib : List Bool} {obj : Nat → List F} {source : List Nat} (hn : source.Nodup)
    (hl : SameLength obj source) :
    ∃ front, firstFront hib obj source = .ok front ∧ front.Sublist source ∧
      (∀ r, r ∈ front ↔ r ∈ source ∧ ∀ y ∈ source, ¬ Dominates hib (obj y) (obj r)) ∧
      (∀ r ∈ source, Broken hib (obj r) → r ∈ front) ∧
      (∀ r ∈ source, (r ∈ front ↔ ∀ y ∈ source, ¬ Broken hib (obj y) → ¬ Dominates hib (obj y) (obj r))) := by
  obtain ⟨d, hd, s⟩ := counters_spec (hib := hib) (obj := obj) (d := fun _ => 0) hn hl
  have hm : ∀ r, r ∈ source.filter (fun r => decide (d r = 0)) ↔
      r ∈ source ∧ ∀ y ∈ source, ¬ Dominates hib (obj y) (obj r) := fun r => by
    rw [List.mem_filter, decide_eq_true_iff, s]
    exact ⟨fun ⟨h, _, h'⟩ => ⟨h, h' h⟩, fun ⟨h, h'⟩ => ⟨h, rfl, fun _ => h'⟩⟩
  refine ⟨_, by unfold firstFront; rw [hd], List.filter_sublist, hm, fun r hr hb => ?_, fun r hr => ?_⟩
  · exact (hm r).2 ⟨hr, fun y hy => (hb.alone (hl y hy r hr)).2⟩
  · rw [hm]
    refine ⟨fun h y hy _ => h.2 y hy, fun h => ⟨hr, fun y hy hd => ?_⟩⟩
    exact h y hy (fun hb => (hb.alone (hl r hr y hy)).1 hd) hd

/-- What users rely on: an individual of the first front is not worse in all the objectives in which it has a value (a number
or an infinity) than an individual that has values in all objectives. -/
def FrontIsBest (hib : List Bool) (obj : Nat → List F) (source front : List Nat) : Prop :=
  ∀ r ∈ front, ∀ y ∈ source, ¬ Broken hib (obj y) →
    ¬ ((∀ (j : Nat) (d : Bool) (a b : F), hib[j]? = some d → (obj y)[j]? = some a → (obj r)[j]? = some b → b ≠ .nan → Superior d a b) ∧
      0 < hib.length)

/-- It holds if no objective value is NaN and every individual has an objective. -/
theorem C163_numbers {hib : List Bool} {obj : Nat → List F} {source front : List Nat} (hn : source.Nodup)
    (hl : SameLength obj source) (hb : ∀ r ∈ source, ¬ Broken hib (obj r)) (he : ∀ r ∈ source, obj r ≠ [])
    (h : firstFront hib obj source = .ok front) : FrontIsBest hib obj source front := by
  obtain ⟨fr, h', -, hm, -⟩ := C163_partial (hib := hib) hn hl
  obtain rfl : fr = front := Except.ok.inj (h'.symm.trans h)
  rintro r hr y hy - ⟨hs, h0⟩
  obtain ⟨hrs, hd⟩ := (hm r).1 hr
  have hval : ∀ (j : Nat) (d : Bool) (b : F), hib[j]? = some d → (obj r)[j]? = some b → b ≠ .nan := fun j d b h1 h2 e =>
    hb r hrs ⟨j, (List.getElem?_eq_some_iff.1 h1).1, e ▸ h2⟩
  refine hd y hy ⟨fun j d a b h1 h2 h3 => ?_, ?_⟩
  · obtain ⟨p, q, hlt⟩ := hs j d a b h1 h2 h3 (hval j d b h1 h3)
    refine ⟨p, q, ?_⟩
    cases d
    · exact le_of_lt hlt
    · exact le_of_lt hlt
  · have hr0 : 0 < (obj r).length := List.length_pos_iff.2 (he r hrs)
    have hy0 : 0 < (obj y).length := List.length_pos_iff.2 (he y hy)
    have h1 : hib[0]? = some hib[0] := List.getElem?_eq_getElem h0
    have h2 : (obj y)[0]? = some (obj y)[0] := List.getElem?_eq_getElem hy0
    have h3 : (obj r)[0]? = some (obj r)[0] := List.getElem?_eq_getElem hr0
    exact ⟨0, _, _, _, h1, h2, h3, hs 0 _ _ _ h1 h2 h3 (hval 0 _ _ h1 h3)⟩

/-- Two objectives to be minimised; individual 1 has failed in the first and is bad in the second. -/
def failed : Nat → List F
  | 0 => [.num 0, .num 0]
  | _ => [.nan, .num 100]

theorem failed_length (l : List Nat) : SameLength failed l := by
  have : ∀ x, (failed x).length = 2 := fun x => by cases x <;> rfl
  intro x _ y _
  rw [this, this]

/-- **C163** is false of the code with NaN. -/
theorem C163_refuted :
    ¬ ∀ (hib : List Bool) (obj : Nat → List F) (source front : List Nat), source.Nodup → SameLength obj source →
      (∀ r ∈ source, (obj r).length = hib.length) → firstFront hib obj source = .ok front →
      FrontIsBest hib obj source front := by
  intro h
  refine h [false, false] failed [0, 1] [0, 1] (by decide) (failed_length _) (by decide) (by decide +kernel) 1 (by decide) 0 (by decide)
    ?_ ⟨?_, by decide⟩
  · rintro ⟨j, hj, hn⟩
    match j, hj with
    | 0, _ => simp [failed] at hn
    | 1, _ => simp [failed] at hn
  · intro j d a b h1 h2 h3 hb
    match j with
    | 0 => exact (hb (Option.some.inj h3).symm).elim
    | 1 =>
      obtain rfl := Option.some.inj h1
      obtain rfl := Option.some.inj h2
      obtain rfl := Option.some.inj h3
      exact betterObj_iff.1 (by decide +kernel)
    | j + 2 => simp at h1

/-- Four individuals, one of them with NaN, one dominated, one with an infinity. -/
def four : Nat → List F
  | 0 => [.num 1, .num 3]
  | 1 => [.nan, .num 100]
  | 2 => [.num 2, .num 4]
  | _ => [.num 0, .posInf]

theorem four_front : firstFront [false, false] four [2, 1, 0, 3] = .ok [1, 0, 3] := by decide +kernel

theorem four_length (l : List Nat) : SameLength four l := by
  have : ∀ x, (four x).length = 2 := fun x => by
    match x with
    | 0 => rfl
    | 1 => rfl
    | 2 => rfl
    | _ + 3 => rfl
  intro x _ y _
  rw [this, this]

/-- `C163_partial` for them: individual 2 is dominated by one without NaN. -/
example : ∃ y ∈ [2, 1, 0, 3], ¬ Broken [false, false] (four y) ∧ Dominates [false, false] (four y) (four 2) := by
  obtain ⟨front, h, -, -, -, hm⟩ := C163_partial (hib := [false, false]) (source := [2, 1, 0, 3]) (by decide) (four_length _)
  obtain rfl : [1, 0, 3] = front := Except.ok.inj (four_front.symm.trans h)
  by_contra hn
  have := (hm 2 (by decide)).2 fun y hy hb hd => hn ⟨y, hy, hb, hd⟩
  exact absurd this (by decide)

/-- The three without NaN. -/
example : FrontIsBest [false, false] four [2, 0, 3] [0, 3] := by
  refine C163_numbers (by decide) (four_length _) ?_ (by decide) (by decide +kernel)
  rintro r hr ⟨j, hj, hn⟩
  have : r = 2 ∨ r = 0 ∨ r = 3 := by simpa using hr
  have hj : j = 0 ∨ j = 1 := by simp at hj; omega
  rcases this with rfl | rfl | rfl <;> rcases hj with rfl | rfl <;> simp [four] at hn

end Verif.Score
