import Verif.Props.Primitives

/-! # C77 — the functions compute what their names say, C78 — trees are executed row by row -/

namespace Verif.Prim
open GP

/-- The documented meaning of the functions, for one item of each argument and the item of the result.
Arithmetic is described for numbers other than the infinities and NaN. -/
def Op.Means (rnd : ℝ → Num) : Op → List Num → Num → Prop
  | .add, [x, y], r => ∀ a b, x = .fin a → y = .fin b → r = rnd (a + b)
  | .sub, [x, y], r => ∀ a b, x = .fin a → y = .fin b → r = rnd (a - b)
  | .mul, [x, y], r => ∀ a b, x = .fin a → y = .fin b → r = rnd (a * b)
  | .div, [x, y], r => ∀ a b, x = .fin a → y = .fin b → (tiny < |b| → r = rnd (a / b)) ∧ (|b| ≤ tiny → r = .fin 0)
  | .inv, [x], r => ∀ a, x = .fin a → (tiny < |a| → r = rnd (1 / a)) ∧ (|a| ≤ tiny → r = .fin 0)
  | .sqrt, [x], r => ∀ a, x = .fin a → r = rnd (Real.sqrt |a|)
  | .log, [x], r => ∀ a, x = .fin a → (tiny < |a| → r = rnd (Real.log |a|)) ∧ (|a| ≤ tiny → r = .fin 0)
  | .abs, [x], r => ∀ a, x = .fin a → r = .fin |a|
  | .neg, [x], r => ∀ a, x = .fin a → r = .fin (-a)
  | .sin, [x], r => ∀ a, x = .fin a → r = rnd (Real.sin a)
  | .cos, [x], r => ∀ a, x = .fin a → r = rnd (Real.cos a)
  | .tan, [x], r => ∀ a, x = .fin a → r = rnd (Real.tan a)
  | .max, [x, y], r => (x = .nan ∨ y = .nan → r = .nan) ∧
      (x ≠ .nan → y ≠ .nan → (r = x ∨ r = y) ∧ NumLe x r ∧ NumLe y r)
  | .min, [x, y], r => (x = .nan ∨ y = .nan → r = .nan) ∧
      (x ≠ .nan → y ≠ .nan → (r = x ∨ r = y) ∧ NumLe r x ∧ NumLe r y)
  | .iflte0, [x, y, z], r => (NumLe x (.fin 0) → r = y) ∧ (¬ NumLe x (.fin 0) → r = z)
  | .ifgt0, [x, y, z], r => (NumGt x (.fin 0) → r = y) ∧ (¬ NumGt x (.fin 0) → r = z)
  | .iflte, [x, y, z, w], r => (NumLe x y → r = z) ∧ (¬ NumLe x y → r = w)
  | .ifgt, [x, y, z, w], r => (NumGt x y → r = z) ∧ (¬ NumGt x y → r = w)
  | .ifThenElse, [x, y, z], r => (x ≠ .fin 0 → r = y) ∧ (x = .fin 0 → r = z)
  | .not, [x], r => (x = .fin 0 → r = .fin 1) ∧ (x ≠ .fin 0 → r = .fin 0)
  | .logicalAnd, [x, y], r => (x ≠ .fin 0 ∧ y ≠ .fin 0 → r = .fin 1) ∧ (x = .fin 0 ∨ y = .fin 0 → r = .fin 0)
  | .logicalOr, [x, y], r => (x ≠ .fin 0 ∨ y ≠ .fin 0 → r = .fin 1) ∧ (x = .fin 0 ∧ y = .fin 0 → r = .fin 0)
  | .argmax, [x, y], r => x ≠ .nan → y ≠ .nan → (NumGt y x → r = .fin 1) ∧ (¬ NumGt y x → r = .fin 0)
  | _, _, _ => False

theorem Of.inShape {n i : Nat} {a : Arr Num} (h : Of n a) (hi : i < n) : InShape a.shape i := by
  intro m hm
  rcases h with h | h
  · rw [h] at hm; cases hm
  · rw [h] at hm; cases hm; exact hi

theorem truthy_iff (x : Num) : truthy x = true ↔ x ≠ .fin 0 := by
  cases x <;> simp [truthy]

theorem max_means (x y : Num) : (x = .nan ∨ y = .nan → maximum x y = .nan) ∧
    (x ≠ .nan → y ≠ .nan → (maximum x y = x ∨ maximum x y = y) ∧ NumLe x (maximum x y) ∧ NumLe y (maximum x y)) := by
  unfold NumLe
  rw [← le_iff, ← le_iff]
  cases x <;> cases y <;> simp [maximum, le]
  rename_i a b
  by_cases h : a ≤ b
  · simp [h, le]
  · simp [h, le, (not_le.1 h).le]

theorem min_means (x y : Num) : (x = .nan ∨ y = .nan → minimum x y = .nan) ∧
    (x ≠ .nan → y ≠ .nan → (minimum x y = x ∨ minimum x y = y) ∧ NumLe (minimum x y) x ∧ NumLe (minimum x y) y) := by
  unfold NumLe
  rw [← le_iff, ← le_iff]
  cases x <;> cases y <;> simp [minimum, le]
  rename_i a b
  by_cases h : a ≤ b
  · simp [h, le]
  · simp [h, le, (not_le.1 h).le]

/-- What the functions do to items. -/
noncomputable def Op.items (rnd : ℝ → Num) : Op → List Num → Num
  | .add, [x, y] => Prim.add rnd x y
  | .sub, [x, y] => Prim.sub rnd x y
  | .mul, [x, y] => Prim.mul rnd x y
  | .div, [x, y] => bif gt (Prim.abs y) (.fin tiny) then Prim.div rnd x y else .fin 0
  | .sqrt, [x] => Prim.sqrt rnd (Prim.abs x)
  | .log, [x] => bif gt (Prim.abs x) (.fin tiny) then Prim.log rnd (Prim.abs x) else .fin 0
  | .abs, [x] => Prim.abs x
  | .neg, [x] => Prim.neg x
  | .inv, [x] => bif gt (Prim.abs x) (.fin tiny) then Prim.div rnd (.fin 1) x else .fin 0
  | .max, [x, y] => maximum x y
  | .min, [x, y] => minimum x y
  | .sin, [x] => periodic rnd Real.sin x
  | .cos, [x] => periodic rnd Real.cos x
  | .tan, [x] => periodic rnd Real.tan x
  | .iflte0, [x, y, z] => bif le x (.fin 0) then y else z
  | .ifgt0, [x, y, z] => bif gt x (.fin 0) then y else z
  | .iflte, [x, y, z, w] => bif le x y then z else w
  | .ifgt, [x, y, z, w] => bif gt x y then z else w
  | .not, [x] => ofBool (!truthy x)
  | .ifThenElse, [x, y, z] => bif truthy x then y else z
  | .logicalAnd, [x, y] => ofBool (truthy x && truthy y)
  | .logicalOr, [x, y] => ofBool (truthy x || truthy y)
  | .argmax, [x, y] => argmaxItem x y
  | _, _ => .nan

theorem Op.items_means (rnd : ℝ → Num) (op : Op) (xs : List Num) (h : xs.length = op.arity) :
    op.Means rnd xs (op.items rnd xs) := by
  have hlog : ∀ a : ℝ, tiny < |a| → ¬ |a| < 0 ∧ ¬ |a| = 0 := by
    intro a ha
    have h0 : (0 : ℝ) < tiny := by unfold tiny; positivity
    constructor
    · have := h0.trans ha; exact not_lt.2 this.le
    · have := h0.trans ha; exact this.ne'
  match xs, op, h with
  | [x], .sqrt, _ => rintro a rfl; simp [Op.items, Prim.abs, Prim.sqrt, not_lt.2 (abs_nonneg a)]
  | [x], .log, _ =>
    rintro a rfl
    refine ⟨fun ha => ?_, fun ha => ?_⟩
    · simp only [Op.items, Prim.abs, gt, Prim.log, decide_eq_true ha, cond_true, if_neg (hlog a ha).1, if_neg (hlog a ha).2]
    · simp [Op.items, Prim.abs, gt, not_lt.2 ha]
  | [x], .abs, _ => rintro a rfl; rfl
  | [x], .neg, _ => rintro a rfl; rfl
  | [x], .inv, _ =>
    rintro a rfl
    refine ⟨fun ha => ?_, fun ha => ?_⟩
    · have : a ≠ 0 := by rintro rfl; exact (hlog 0 ha).2 abs_zero
      simp only [Op.items, Prim.abs, gt, Prim.div, decide_eq_true ha, cond_true, if_neg this]
    · simp [Op.items, Prim.abs, gt, not_lt.2 ha]
  | [x], .sin, _ => rintro a rfl; rfl
  | [x], .cos, _ => rintro a rfl; rfl
  | [x], .tan, _ => rintro a rfl; rfl
  | [x], .not, _ =>
    refine ⟨fun hx => ?_, fun hx => ?_⟩
    · simp [Op.items, hx, truthy, ofBool]
    · simp [Op.items, (truthy_iff x).2 hx, ofBool]
  | [x, y], .add, _ => rintro a b rfl rfl; rfl
  | [x, y], .sub, _ => rintro a b rfl rfl; simp [Op.items, Prim.sub, Prim.add, Prim.neg, sub_eq_add_neg]
  | [x, y], .mul, _ => rintro a b rfl rfl; rfl
  | [x, y], .div, _ =>
    rintro a b rfl rfl
    refine ⟨fun ha => ?_, fun ha => ?_⟩
    · have : b ≠ 0 := by rintro rfl; exact (hlog 0 ha).2 abs_zero
      simp only [Op.items, Prim.abs, gt, Prim.div, decide_eq_true ha, cond_true, if_neg this]
    · simp [Op.items, Prim.abs, gt, not_lt.2 ha]
  | [x, y], .max, _ => exact max_means x y
  | [x, y], .min, _ => exact min_means x y
  | [x, y], .logicalAnd, _ =>
    refine ⟨fun hx => ?_, fun hx => ?_⟩
    · simp [Op.items, (truthy_iff x).2 hx.1, (truthy_iff y).2 hx.2, ofBool]
    · rcases hx with rfl | rfl <;> simp [Op.items, truthy, ofBool]
  | [x, y], .logicalOr, _ =>
    refine ⟨fun hx => ?_, fun hx => ?_⟩
    · rcases hx with hx | hx
      · simp [Op.items, (truthy_iff x).2 hx, ofBool]
      · simp [Op.items, (truthy_iff y).2 hx, ofBool]
    · rcases hx with ⟨rfl, rfl⟩; simp [Op.items, truthy, ofBool]
  | [x, y], .argmax, _ =>
    intro hx hy
    have e : argmaxItem x y = bif gt y x then .fin 1 else .fin 0 := by
      cases x <;> cases y <;> simp_all [argmaxItem]
    simp only [Op.items, e]
    unfold NumGt
    rw [← gt_iff]
    cases gt y x <;> simp
  | [x, y, z], .iflte0, _ =>
    simp only [Op.items, Op.Means]; unfold NumLe; rw [← le_iff]; cases le x (.fin 0) <;> simp
  | [x, y, z], .ifgt0, _ =>
    simp only [Op.items, Op.Means]; unfold NumGt; rw [← gt_iff]; cases gt x (.fin 0) <;> simp
  | [x, y, z], .ifThenElse, _ =>
    simp only [Op.items, Op.Means]
    refine ⟨fun hx => by rw [(truthy_iff x).2 hx]; rfl, ?_⟩
    rintro rfl; simp [truthy]
  | [x, y, z, w], .iflte, _ =>
    simp only [Op.items, Op.Means]; unfold NumLe; rw [← le_iff]; cases le x y <;> simp
  | [x, y, z, w], .ifgt, _ =>
    simp only [Op.items, Op.Means]; unfold NumGt; rw [← gt_iff]; cases gt x y <;> simp

section lift
variable {n : Nat}

/-- The shape of a result. -/
def shapes (args : List (Arr Num)) : Option Nat := (args.map Arr.shape).foldr Option.or none

/-- `r` is the result of applying `f` to the items of `args`, row by row. -/
def Lifts (n : Nat) (args : List (Arr Num)) (f : List Num → Num) (r : Arr Num) : Prop :=
  Of n r ∧ r.shape = shapes args ∧ ∀ i, InShape r.shape i → r.item i = f (args.map fun a => a.item i)

theorem Lifts.mk' {args : List (Arr Num)} {f : List Num → Num} {g : Nat → Num} {r : Arr Num} {ss : List (Option Nat)}
    (hargs : ∀ a ∈ args, Of n a) (h : Gives ss g r) (hs : ss.foldr Option.or none = shapes args)
    (hg : ∀ i, g i = f (args.map fun a => a.item i)) : Lifts n args f r := by
  have hsh : r.shape = shapes args := by rw [h.shape, hs]
  refine ⟨?_, hsh, fun i hi => by rw [h.item i hi, hg]⟩
  unfold Of
  rw [hsh]
  clear hsh hs h hg
  unfold shapes
  induction args with
  | nil => exact .inl rfl
  | cons a as ih => exact or_of (hargs a (by simp)) (ih fun b hb => hargs b (by simp [hb]))

theorem lift1 (f : Num → Num) {F : List Num → Num} {x : Arr Num} (hx : Of n x) (hF : ∀ a, F [a] = f a) :
    Lifts n [x] F (map1 f x) :=
  .mk' (by simpa using hx) (map1_gives f x) rfl fun i => (hF _).symm

theorem lift2 (f : Num → Num → Num) {F : List Num → Num} {x y : Arr Num} (hx : Of n x) (hy : Of n y)
    (hF : ∀ a b, F [a, b] = f a b) : ∃ r, map2 f x y = .ok r ∧ Lifts n [x, y] F r := by
  obtain ⟨r, hr, hg⟩ := map2_gives f hx hy
  exact ⟨r, hr, .mk' (by simp [hx, hy]) hg rfl fun i => (hF _ _).symm⟩

theorem shape1 {α β : Type} [Inhabited α] [Inhabited β] (f : α → β) (x : Arr α) : (map1 f x).shape = x.shape := by
  simp [map1, shape_build]

theorem or_comm' {s t : Option Nat} (hs : s = none ∨ s = some n) (ht : t = none ∨ t = some n) : s.or t = t.or s := by
  rcases hs with rfl | rfl <;> rcases ht with rfl | rfl <;> rfl

theorem liftDiv (rnd : ℝ → Num) {F : List Num → Num} {args : List (Arr Num)} {x y : Arr Num} (hx : Of n x) (hy : Of n y)
    (hargs : ∀ a ∈ args, Of n a) (hs : shapes args = x.shape.or y.shape)
    (hF : ∀ i, F (args.map fun a => a.item i) = bif gt (Prim.abs (y.item i)) (.fin tiny) then Prim.div rnd (x.item i) (y.item i) else .fin 0) :
    ∃ r, fDiv rnd x y = .ok r ∧ Lifts n args F r := by
  obtain ⟨r, hr, hsh, hi⟩ := C61_div rnd hx hy
  refine ⟨r, hr, by unfold Of; rw [hsh]; exact or_of hx hy, by rw [hsh, hs], fun i h => ?_⟩
  rw [hF]
  by_cases hb : Big (y.item i)
  · rw [(hi i h).1 hb, (gt_abs _).2 hb]; rfl
  · rw [(hi i h).2 hb, Bool.eq_false_iff.2 fun h' => hb ((gt_abs _).1 h')]; rfl

theorem liftWhere {F : List Num → Num} {args : List (Arr Num)} {c : Arr Bool} {g : Nat → Bool} {x y : Arr Num}
    {ss : List (Option Nat)} (hc : Gives ss g c) (hco : Of n c) (hx : Of n x) (hy : Of n y)
    (hargs : ∀ a ∈ args, Of n a) (hs : shapes args = c.shape.or (x.shape.or y.shape))
    (hF : ∀ i, F (args.map fun a => a.item i) = bif g i then x.item i else y.item i) :
    ∃ r, npWhere c x y = .ok r ∧ Lifts n args F r := by
  obtain ⟨r, hr, hg⟩ := npWhere_gives hco hx hy
  have hsh : r.shape = c.shape.or (x.shape.or y.shape) := by rw [hg.shape]; simp
  refine ⟨r, hr, by unfold Of; rw [hsh]; exact or_of hco (or_of hx hy), by rw [hsh, hs], fun i h => ?_⟩
  rw [hg.item i h, hF, hc.item i ((inShape_or hco (or_of hx hy) (hsh ▸ h)).1)]

/-- Every function is applied to the items row by row (`argmax2floats` only if the arguments have the same shape). -/
theorem call_lifts (rnd : ℝ → Num) (op : Op) (args : List (Arr Num)) (hlen : args.length = op.arity)
    (hargs : ∀ a ∈ args, Of n a) (hop : op = .argmax → ∀ a ∈ args, ∀ b ∈ args, a.shape = b.shape) :
    ∃ r, op.call rnd args = .ok r ∧ Lifts n args (op.items rnd) r := by
  match args, op, hlen with
  | [x], .sqrt, _ =>
    have hx := hargs x (by simp)
    refine ⟨_, rfl, by unfold Of fSqrt; rw [shape1, shape1]; exact hx, by simp [fSqrt, shape1, shapes], fun i hi => ?_⟩
    unfold fSqrt at hi ⊢
    rw [(map1_gives _ _).item i hi, (map1_gives _ _).item i (by rwa [shape1] at hi)]
    rfl
  | [x], .log, _ =>
    have hx := hargs x (by simp)
    have hx1 : Of n (map1 Prim.abs x) := by unfold Of; rw [shape1]; exact hx
    obtain ⟨r, h1, h2, h3⟩ := C61_log rnd x
    refine ⟨r, h1, by unfold Of; rw [h2]; exact hx, by simp [h2, shapes], fun i hi => ?_⟩
    obtain ⟨a1, a2, a3, a4⟩ := h3 i hi
    simp only [Op.items, List.map_cons, List.map_nil]
    have hb := gt_abs (x.item i)
    cases hv : x.item i with
    | fin v =>
      rw [hv] at hb
      by_cases ht : tiny < |v|
      · have h0 : (0 : ℝ) < tiny := by unfold tiny; positivity
        rw [a1 v hv ht, hb.2 ht]
        simp only [Prim.abs, Prim.log, cond_true, if_neg (not_lt.2 (h0.trans ht).le), if_neg (h0.trans ht).ne']
      · rw [a2 v hv ht, Bool.eq_false_iff.2 fun h' => ht (hb.1 h')]; rfl
    | posInf => rw [a3 (.inl hv)]; simp [Prim.abs, gt, Prim.log]
    | negInf => rw [a3 (.inr hv)]; simp [Prim.abs, gt, Prim.log]
    | nan => rw [a4 hv]; simp [Prim.abs, gt]
  | [x], .abs, _ => exact ⟨_, rfl, lift1 _ (hargs x (by simp)) fun _ => rfl⟩
  | [x], .neg, _ => exact ⟨_, rfl, lift1 _ (hargs x (by simp)) fun _ => rfl⟩
  | [x], .inv, _ => exact liftDiv rnd (.inl rfl) (hargs x (by simp)) hargs (by simp [shapes, Arr.shape]) fun _ => rfl
  | [x], .sin, _ => exact ⟨_, rfl, lift1 _ (hargs x (by simp)) fun _ => rfl⟩
  | [x], .cos, _ => exact ⟨_, rfl, lift1 _ (hargs x (by simp)) fun _ => rfl⟩
  | [x], .tan, _ => exact ⟨_, rfl, lift1 _ (hargs x (by simp)) fun _ => rfl⟩
  | [x], .not, _ => exact ⟨_, rfl, lift1 (fun v => ofBool (!truthy v)) (hargs x (by simp)) fun _ => rfl⟩
  | [x, y], .add, _ => exact lift2 _ (hargs x (by simp)) (hargs y (by simp)) fun _ _ => rfl
  | [x, y], .sub, _ => exact lift2 _ (hargs x (by simp)) (hargs y (by simp)) fun _ _ => rfl
  | [x, y], .mul, _ => exact lift2 _ (hargs x (by simp)) (hargs y (by simp)) fun _ _ => rfl
  | [x, y], .div, _ => exact liftDiv rnd (hargs x (by simp)) (hargs y (by simp)) hargs (by simp [shapes]) fun _ => rfl
  | [x, y], .max, _ => exact lift2 _ (hargs x (by simp)) (hargs y (by simp)) fun _ _ => rfl
  | [x, y], .min, _ => exact lift2 _ (hargs x (by simp)) (hargs y (by simp)) fun _ _ => rfl
  | [x, y], .logicalAnd, _ =>
    exact lift2 (fun a b => ofBool (truthy a && truthy b)) (hargs x (by simp)) (hargs y (by simp)) fun _ _ => rfl
  | [x, y], .logicalOr, _ =>
    exact lift2 (fun a b => ofBool (truthy a || truthy b)) (hargs x (by simp)) (hargs y (by simp)) fun _ _ => rfl
  | [x, y], .argmax, _ =>
    have := lift2 argmaxItem (F := Op.items rnd .argmax) (hargs x (by simp)) (hargs y (by simp)) fun _ _ => rfl
    simp only [Op.call, argmax2]
    rw [if_pos (hop rfl x (by simp) y (by simp))]
    exact this
  | [x, y, z], .iflte0, _ =>
    have hx := hargs x (by simp); have hy := hargs y (by simp); have hz := hargs z (by simp)
    exact liftWhere (map1_gives _ x) (by unfold Of; rw [shape1]; exact hx) hy hz hargs (by simp [shapes, shape1]) fun _ => rfl
  | [x, y, z], .ifgt0, _ =>
    have hx := hargs x (by simp); have hy := hargs y (by simp); have hz := hargs z (by simp)
    exact liftWhere (map1_gives _ x) (by unfold Of; rw [shape1]; exact hx) hy hz hargs (by simp [shapes, shape1]) fun _ => rfl
  | [x, y, z], .ifThenElse, _ =>
    have hx := hargs x (by simp); have hy := hargs y (by simp); have hz := hargs z (by simp)
    exact liftWhere (map1_gives _ x) (by unfold Of; rw [shape1]; exact hx) hy hz hargs (by simp [shapes, shape1]) fun _ => rfl
  | [x, y, z, w], .iflte, _ =>
    have hx := hargs x (by simp); have hy := hargs y (by simp); have hz := hargs z (by simp); have hw := hargs w (by simp)
    obtain ⟨c, hc, hg⟩ := map2_gives le hx hy
    have hsc : c.shape = x.shape.or y.shape := by rw [hg.shape]; simp
    simp only [Op.call, fIflte, hc, bind, Except.bind]
    exact liftWhere hg (by unfold Of; rw [hsc]; exact or_of hx hy) hz hw hargs (by simp [shapes, hsc, Option.or_assoc]) fun _ => rfl
  | [x, y, z, w], .ifgt, _ =>
    have hx := hargs x (by simp); have hy := hargs y (by simp); have hz := hargs z (by simp); have hw := hargs w (by simp)
    obtain ⟨c, hc, hg⟩ := map2_gives gt hx hy
    have hsc : c.shape = x.shape.or y.shape := by rw [hg.shape]; simp
    simp only [Op.call, fIfgt, hc, bind, Except.bind]
    exact liftWhere hg (by unfold Of; rw [hsc]; exact or_of hx hy) hz hw hargs (by simp [shapes, hsc, Option.or_assoc]) fun _ => rfl

/-- **C77.** Called with scalars and arrays of `n` items, every numeric function (`argmax2floats` with arguments of
one shape) returns a scalar or an array of `n` items, and every item of the result is what the name of the function
says of the corresponding items of the arguments. -/
theorem C77_meaning (rnd : ℝ → Num) (op : Op) (args : List (Arr Num)) (hlen : args.length = op.arity)
    (hargs : ∀ a ∈ args, Of n a) (hop : op = .argmax → ∀ a ∈ args, ∀ b ∈ args, a.shape = b.shape) :
    ∃ r, op.call rnd args = .ok r ∧ Of n r ∧ (r.shape = none ↔ ∀ a ∈ args, a.shape = none) ∧
      ∀ i, InShape r.shape i → op.Means rnd (args.map fun a => a.item i) (r.item i) := by
  obtain ⟨r, hr, h1, h2, h3⟩ := call_lifts rnd op args hlen hargs hop
  refine ⟨r, hr, h1, ?_, fun i hi => by rw [h3 i hi]; exact Op.items_means rnd op _ (by simpa using hlen)⟩
  rw [h2]
  clear h1 h2 h3 hr hlen hargs hop
  unfold shapes
  induction args with
  | nil => simp
  | cons a as ih => simp [ih]

/-- **C77.** The bound below which a divisor or the argument of a logarithm counts as zero is the double nearest to 0.001:
its significand has 53 bits, and the distance from 0.001 is at most half a unit in the last place. -/
theorem C77_tiny : (∃ m : ℕ, 2 ^ 52 ≤ m ∧ m < 2 ^ 53 ∧ tiny = m / 2 ^ 62) ∧ |tiny - 1 / 1000| ≤ 1 / 2 ^ 63 := by
  refine ⟨⟨4611686018427388, by norm_num, by norm_num, by unfold tiny; norm_num⟩, ?_⟩
  unfold tiny
  rw [abs_le]
  constructor <;> norm_num

example : tiny < 2 / 1000 := by
  have := (abs_le.1 C77_tiny.2).2
  norm_num at this ⊢
  linarith

example := C77_meaning (n := 2) .fin .max [.scalar (.fin 1), .vec [.fin 0, .fin 2]] rfl (by simp [Of, Arr.shape]) (by simp)

/-- Every function gives on rows what it gives on columns. -/
theorem call_rows (rnd : ℝ → Num) (op : Op) (hop : op ≠ .argmax) (args : List (Arr Num)) (hlen : args.length = op.arity)
    (hargs : ∀ a ∈ args, Of n a) : ∃ r, op.call rnd args = .ok r ∧ Of n r ∧ ∀ i < n,
      op.call rnd (args.map fun a => .scalar (a.item i)) = .ok (.scalar (r.item i)) := by
  obtain ⟨r, hr, h1, h2, h3⟩ := call_lifts rnd op args hlen hargs fun h => absurd h hop
  refine ⟨r, hr, h1, fun i hi => ?_⟩
  obtain ⟨q, hq, k1, k2, k3⟩ := call_lifts (n := n) rnd op (args.map fun a => .scalar (a.item i)) (by simpa using hlen)
    (by simp only [List.mem_map]; rintro _ ⟨a, -, rfl⟩; exact .inl rfl) fun h => absurd h hop
  have hsh : q.shape = none := by
    rw [k2]
    unfold shapes
    clear * -
    induction args with
    | nil => rfl
    | cons a as ih => simp only [List.map_cons, List.foldr_cons, ih]; rfl
  have hqe : q = .scalar (q.item 0) := by
    cases q with
    | scalar x => rfl
    | vec xs => simp [Arr.shape] at hsh
  rw [hq, hqe, k3 0 (by rw [hsh]; intro m hm; cases hm), h3 i (h1.inShape hi), List.map_map]
  rfl

end lift

mutual
/-- Two ways of running a program whose leaves and functions are related have related results. -/
theorem denote_rel {V W : Type} {sem : Fn → List V → Except Err V} {sem' : Fn → List W → Except Err W} {leaf : Val → V}
    {leaf' : Val → W} {R : V → W → Prop} {P : Fn → Prop} (hleaf : ∀ v, R (leaf v) (leaf' v))
    (hsem : ∀ f vs ws, P f → vs.length = f.params.length → List.Forall₂ R vs ws →
      ∃ v w, sem f vs = .ok v ∧ sem' f ws = .ok w ∧ R v w) :
    ∀ (p : Prog), p.Ok → (∀ f ∈ p.fns, P f) → ∃ v w, p.denote sem leaf = .ok v ∧ p.denote sem' leaf' = .ok w ∧ R v w
  | .term v _, _, _ => ⟨_, _, rfl, rfl, hleaf v⟩
  | .app f args, hok, hP => by
    simp only [Prog.Ok] at hok
    simp only [Prog.fns, List.mem_cons, forall_eq_or_imp] at hP
    obtain ⟨vs, ws, h1, h2, h3, h4⟩ := denoteAll_rel hleaf hsem args hok.2 hP.2
    obtain ⟨v, w, k1, k2, k3⟩ := hsem f vs ws hP.1 (by rw [h3]; exact hok.1) h4
    exact ⟨v, w, by simp only [Prog.denote, h1, bind, Except.bind, k1], by simp only [Prog.denote, h2, bind, Except.bind, k2], k3⟩
theorem denoteAll_rel {V W : Type} {sem : Fn → List V → Except Err V} {sem' : Fn → List W → Except Err W} {leaf : Val → V}
    {leaf' : Val → W} {R : V → W → Prop} {P : Fn → Prop} (hleaf : ∀ v, R (leaf v) (leaf' v))
    (hsem : ∀ f vs ws, P f → vs.length = f.params.length → List.Forall₂ R vs ws →
      ∃ v w, sem f vs = .ok v ∧ sem' f ws = .ok w ∧ R v w) :
    ∀ (ps : List Prog), Prog.OkAll ps → (∀ f ∈ Prog.fnsAll ps, P f) → ∃ vs ws, Prog.denoteAll sem leaf ps = .ok vs ∧
      Prog.denoteAll sem' leaf' ps = .ok ws ∧ vs.length = ps.length ∧ List.Forall₂ R vs ws
  | [], _, _ => ⟨[], [], rfl, rfl, rfl, .nil⟩
  | p :: ps, hok, hP => by
    simp only [Prog.OkAll] at hok
    simp only [Prog.fnsAll, List.mem_append] at hP
    obtain ⟨v, w, k1, k2, k3⟩ := denote_rel hleaf hsem p hok.1 fun f hf => hP f (.inl hf)
    obtain ⟨vs, ws, h1, h2, h3, h4⟩ := denoteAll_rel hleaf hsem ps hok.2 fun f hf => hP f (.inr hf)
    exact ⟨v :: vs, w :: ws, by simp only [Prog.denoteAll, k1, h1, bind, Except.bind],
      by simp only [Prog.denoteAll, k2, h2, bind, Except.bind], by simp [h3], .cons k3 h4⟩
end

/-- **C78.** Executing a tree over the numeric functions (without `argmax2floats`, see C73, and the
logical functions of floats and ints, see C168) on columns of `n` items gives
one value per row (or one value for all rows), namely what executing it on the numbers of that row gives.  In
particular the value for a row does not depend on the other rows. -/
theorem C78_rows (rnd : ℝ → Num) (op : Fn → Op) (lit : Val → Num) (c : Cfg) (p : Prog)
    (kwargs : List (String × Arr Num)) (n : Nat) (hp : p.Ok) (har : ∀ f ∈ p.fns, f.params.length = (op f).arity)
    (hno : ∀ f ∈ p.fns, (op f).Numeric) (hk : ∀ kx ∈ kwargs, Of n kx.2)
    (h1 : ∀ kx ∈ kwargs, ∃ kv ∈ c.terminalSet, kv.1.data = .str kx.1)
    (h2 : ∀ kv ∈ c.terminalSet, ∃ kx ∈ kwargs, kv.1.data = .str kx.1) :
    ∃ r, execute (fun f => (op f).call rnd) (fun v => .scalar (lit v)) c p.flatten kwargs = .ok r ∧ Of n r ∧
      ∀ i < n, execute (fun f => (op f).call rnd) (fun v => .scalar (lit v)) c p.flatten
        (kwargs.map fun kx => (kx.1, .scalar (kx.2.item i))) = .ok (.scalar (r.item i)) := by
  obtain ⟨r, hr, hof⟩ := C73_numeric_partial rnd op lit c p kwargs n hp har hno hk h1 h2
  refine ⟨r, hr, hof, fun i hi => ?_⟩
  rw [(C14_execute_kwargs_partial _ _ c p hp kwargs).1 ⟨h1, h2⟩] at hr
  rw [(C14_execute_kwargs_partial _ _ c p hp _).1 ⟨?_, ?_⟩]
  · have key : ∃ v w, p.denote (fun f => (op f).call rnd) (leafVal (fun v => .scalar (lit v)) (kwFun kwargs)) = .ok v ∧
        p.denote (fun f => (op f).call rnd)
          (leafVal (fun v => .scalar (lit v)) (kwFun (kwargs.map fun kx => (kx.1, .scalar (kx.2.item i))))) = .ok w ∧
        Of n v ∧ w = .scalar (v.item i) := by
      refine denote_rel (R := fun (a b : Arr Num) => Of n a ∧ b = Arr.scalar (a.item i))
        (P := fun f => f.params.length = (op f).arity ∧ (op f).Numeric) ?_ ?_ p hp fun f hf => ⟨har f hf, hno f hf⟩
      · intro v
        unfold leafVal
        split
        · rename_i name _
          have e : kwFun (kwargs.map fun kx => (kx.1, Arr.scalar (kx.2.item i))) name
              = (kwFun kwargs name).map fun a => .scalar (a.item i) := by
            unfold kwFun
            rw [List.find?_map, Option.map_map, Option.map_map]
            rfl
          rw [e]
          cases hkw : kwFun kwargs name with
          | none => exact ⟨.inl rfl, rfl⟩
          | some a =>
            unfold kwFun at hkw
            rw [Option.map_eq_some_iff] at hkw
            obtain ⟨kx, hf, rfl⟩ := hkw
            exact ⟨hk kx (List.mem_of_find?_eq_some hf), rfl⟩
        · exact ⟨.inl rfl, rfl⟩
      · intro f vs ws hP hl hvw
        have hws : ws = vs.map fun a => .scalar (a.item i) := by
          clear hl
          induction hvw with
          | nil => rfl
          | cons h _ ih => rw [h.2, ih]; rfl
        have hof' : ∀ a ∈ vs, Of n a := by
          clear hl hws
          induction hvw with
          | nil => simp
          | cons h _ ih => simpa using ⟨h.1, ih⟩
        obtain ⟨r, a1, a2, a3⟩ := call_rows rnd (op f) hP.2.1 vs (by rw [hl]; exact hP.1) hof'
        exact ⟨r, _, a1, by rw [hws]; exact a3 i hi, a2, rfl⟩
    obtain ⟨v, w, k1, k2, k3⟩ := key
    rw [hr] at k1
    cases k1
    rw [k2, k3.2]
  · simp only [List.mem_map]
    rintro _ ⟨kx, hkx, rfl⟩
    exact h1 kx hkx
  · intro kv hkv
    obtain ⟨kx, hkx, e⟩ := h2 kv hkv
    exact ⟨_, List.mem_map.2 ⟨kx, hkx, rfl⟩, e⟩

/-- `1 / x0` on a column with a zero: also row by row. -/
example := C78_rows .fin (fun _ => .div) (fun _ => .fin 1) ⟨[], [(⟨1, .str "x0"⟩, none)], none, none⟩
  (.app ⟨0, [none, none], none⟩ [.term ⟨0, .int 1⟩ none, .term ⟨1, .str "x0"⟩ none]) [("x0", .vec [.fin 0, .fin 2])] 2
  (by simp [Prog.Ok, Prog.OkAll]) (by simp [Prog.fns, Prog.fnsAll, Op.arity]) (by simp [Op.Numeric]) (by simp [Of, Arr.shape]) (by simp) (by simp)

end Verif.Prim
