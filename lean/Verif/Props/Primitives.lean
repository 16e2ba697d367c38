import Verif.Model.Primitives
import Verif.Props.GPExec
import Mathlib.Tactic.Linarith

/-! # C61 — protected functions, C73 — trees run on every data set, C74 — logical functions -/

namespace Verif.Prim

/-! ## Broadcasting -/

section arr
variable {α β γ : Type} [Inhabited α] [Inhabited β] [Inhabited γ]

/-- `a` is a scalar or an array of `n` items. -/
def Of (n : Nat) (a : Arr α) : Prop := a.shape = none ∨ a.shape = some n

/-- The index exists in an array of the shape. -/
def InShape (s : Option Nat) (i : Nat) : Prop := ∀ m, s = some m → i < m

/-- `r` has the items `f i`: it is an array of `n` items if one of the arguments (with the shapes `ss`) is, and a
scalar if they all are. -/
structure Gives (ss : List (Option Nat)) (f : Nat → α) (r : Arr α) : Prop where
  shape : r.shape = ss.foldr Option.or none
  item : ∀ i, InShape r.shape i → r.item i = f i

theorem shape_build (s : Option Nat) (f : Nat → α) : (Arr.build s f).shape = s := by
  cases s <;> simp [Arr.build, Arr.shape]

/-- Arrays of one item are constant. -/
theorem item_const {a : Arr α} (h : a.shape = none) (i : Nat) : a.item i = a.item 0 := by
  cases a with
  | scalar x => rfl
  | vec xs => simp [Arr.shape] at h

theorem item_build {s : Option Nat} {f : Nat → α} {i : Nat} (hi : InShape s i) (hc : s = none → f i = f 0) :
    (Arr.build s f).item i = f i := by
  cases s with
  | none => simp [Arr.build, Arr.item, hc]
  | some n =>
    have hi := hi n rfl
    by_cases hn : n = 1
    · subst hn
      have : i = 0 := by omega
      subst this
      simp [Arr.build, Arr.item]
    · simp [Arr.build, Arr.item, hn, hi]

theorem broadcast_of {n : Nat} {s t : Option Nat} (hs : s = none ∨ s = some n) (ht : t = none ∨ t = some n) :
    broadcast s t = .ok (s.or t) := by
  rcases hs with rfl | rfl <;> rcases ht with rfl | rfl <;> simp [broadcast]

theorem or_of {n : Nat} {s t : Option Nat} (hs : s = none ∨ s = some n) (ht : t = none ∨ t = some n) :
    s.or t = none ∨ s.or t = some n := by
  rcases hs with rfl | rfl <;> rcases ht with rfl | rfl <;> simp

theorem inShape_or {n : Nat} {s t : Option Nat} (hs : s = none ∨ s = some n) (ht : t = none ∨ t = some n) {i : Nat}
    (h : InShape (s.or t) i) : InShape s i ∧ InShape t i := by
  rcases hs with rfl | rfl <;> rcases ht with rfl | rfl <;> simp_all [InShape]

theorem map1_gives (f : α → β) (a : Arr α) : Gives [a.shape] (fun i => f (a.item i)) (map1 f a) := by
  refine ⟨by simp [map1, shape_build], fun i hi => ?_⟩
  unfold map1 at hi ⊢
  rw [shape_build] at hi
  exact item_build (f := fun i => f (a.item i)) hi fun h => by rw [item_const h]

theorem map2_gives {n : Nat} (f : α → β → γ) {a : Arr α} {b : Arr β} (ha : Of n a) (hb : Of n b) :
    ∃ r, map2 f a b = .ok r ∧ Gives [a.shape, b.shape] (fun i => f (a.item i) (b.item i)) r := by
  unfold map2
  rw [broadcast_of ha hb]
  refine ⟨_, rfl, by simp [shape_build], fun i hi => ?_⟩
  rw [shape_build] at hi
  refine item_build (f := fun i => f (a.item i) (b.item i)) hi fun h => ?_
  rw [Option.or_eq_none_iff] at h
  rw [item_const h.1, item_const h.2]

theorem npWhere_gives {n : Nat} {c : Arr Bool} {x y : Arr α} (hc : Of n c) (hx : Of n x) (hy : Of n y) :
    ∃ r, npWhere c x y = .ok r ∧
      Gives [c.shape, x.shape, y.shape] (fun i => bif c.item i then x.item i else y.item i) r := by
  unfold npWhere
  rw [broadcast_of hc hx]
  dsimp only
  rw [broadcast_of (or_of hc hx) hy]
  refine ⟨_, rfl, by simp [shape_build, Option.or_assoc], fun i hi => ?_⟩
  rw [shape_build] at hi
  refine item_build (f := fun i => bif c.item i then x.item i else y.item i) hi fun h => ?_
  simp only [Option.or_eq_none_iff] at h
  rw [item_const h.1.1, item_const h.1.2, item_const h.2]

theorem Gives.of {n : Nat} {ss : List (Option Nat)} {f : Nat → α} {r : Arr α} (h : Gives ss f r)
    (hs : ∀ s ∈ ss, s = none ∨ s = some n) : Of n r := by
  unfold Of
  rw [h.shape]
  clear h
  induction ss with
  | nil => exact .inl rfl
  | cons s ss ih => exact or_of (hs s (by simp)) (ih fun t ht => hs t (by simp [ht]))

end arr

/-! ## C61 -/

theorem gt_iff (x y : Num) : gt x y = true ↔ ∃ p q, x.ereal = some p ∧ y.ereal = some q ∧ q < p := by
  cases x <;> cases y <;> simp [gt, Num.ereal]

theorem le_iff (x y : Num) : le x y = true ↔ ∃ p q, x.ereal = some p ∧ y.ereal = some q ∧ p ≤ q := by
  cases x <;> cases y <;> simp [le, Num.ereal]

/-- The magnitude exceeds the float 0.001. -/
def Big : Num → Prop
  | .fin x => tiny < |x|
  | .nan => False
  | _ => True

theorem gt_abs (x : Num) : gt (abs x) (.fin tiny) = true ↔ Big x := by
  cases x <;> simp [gt, abs, Big]

theorem tiny_gt : (1 : ℝ) / 1000 < tiny := by unfold tiny; norm_num

theorem foldr_two (s t : Option Nat) : [s, t].foldr Option.or none = s.or t := by simp

/-- C61, protected division: for scalars and arrays of one length, every item is the quotient where the
magnitude of the divisor exceeds 0.001 and 0 elsewhere. -/
theorem C61_div (rnd : ℝ → Num) {n : Nat} {x y : Arr Num} (hx : Of n x) (hy : Of n y) :
    ∃ r, fDiv rnd x y = .ok r ∧ r.shape = x.shape.or y.shape ∧ ∀ i, InShape r.shape i →
      (Big (y.item i) → r.item i = div rnd (x.item i) (y.item i)) ∧ (¬ Big (y.item i) → r.item i = .fin 0) := by
  obtain ⟨q, hq, hqs⟩ := map2_gives (div rnd) hx hy
  have h1 := map1_gives abs y
  have h2 := map1_gives (fun v => gt v (.fin tiny)) (map1 abs y)
  have hs1 : (map1 abs y).shape = y.shape := by simpa using h1.shape
  have hs2 : (map1 (fun v => gt v (.fin tiny)) (map1 abs y)).shape = y.shape := by simpa [hs1] using h2.shape
  have hsq : q.shape = x.shape.or y.shape := by simpa using hqs.shape
  obtain ⟨r, hr, hrs⟩ := npWhere_gives (c := map1 (fun v => gt v (.fin tiny)) (map1 abs y)) (x := q)
    (y := .scalar (.fin 0)) (n := n) (by unfold Of; rw [hs2]; exact hy) (by unfold Of; rw [hsq]; exact or_of hx hy) (.inl rfl)
  have hshape : r.shape = x.shape.or y.shape := by
    rw [hrs.shape, hs2, hsq]
    rcases hx with hx | hx <;> rcases hy with hy | hy <;> rw [hx, hy] <;> simp [Arr.shape]
  refine ⟨r, ?_, hshape, fun i hi => ?_⟩
  · unfold fDiv
    rw [hq]
    exact hr
  · have hi' := inShape_or hx hy (hshape ▸ hi)
    have e1 := hrs.item i hi
    rw [h2.item i (by rw [hs2]; exact hi'.2), h1.item i (by rw [hs1]; exact hi'.2)] at e1
    constructor
    · intro hb
      rw [e1, (gt_abs _).2 hb, cond_true, hqs.item i (by rw [hsq, ← hshape]; exact hi)]
    · intro hb
      rw [e1, Bool.eq_false_iff.2 (fun h => hb ((gt_abs _).1 h))]
      rfl

/-- C61: the quotients that protected division and inverse return are quotients of numbers that are at most a
thousandfold of the dividend: finite numbers never give an infinity or NaN except by rounding. -/
theorem C61_bounded (rnd : ℝ → Num) (x y : ℝ) (h : Big (.fin y)) :
    div rnd (.fin x) (.fin y) = rnd (x / y) ∧ |x / y| ≤ 1000 * |x| := by
  have hy : 1 / 1000 < |y| := tiny_gt.trans h
  have hy0 : y ≠ 0 := by intro h0; rw [h0] at hy; norm_num at hy
  constructor
  · simp [div, hy0]
  · rw [abs_div, div_le_iff₀ (by linarith)]
    have := abs_nonneg x
    nlinarith

/-- C61, protected inverse. -/
theorem C61_inv (rnd : ℝ → Num) (x : Arr Num) :
    ∃ r, fInv rnd x = .ok r ∧ r.shape = x.shape ∧ ∀ i, InShape r.shape i →
      (Big (x.item i) → r.item i = div rnd (.fin 1) (x.item i)) ∧ (¬ Big (x.item i) → r.item i = .fin 0) := by
  have hx : ∃ n, Of n x := by
    cases hs : x.shape with
    | none => exact ⟨0, .inl hs⟩
    | some n => exact ⟨n, .inr hs⟩
  obtain ⟨n, hx⟩ := hx
  obtain ⟨r, h1, h2, h3⟩ := C61_div rnd (x := .scalar (.fin 1)) (n := n) (.inl rfl) hx
  exact ⟨r, h1, by rw [h2]; simp [Arr.shape], h3⟩

/-- C61, protected logarithm: the logarithm of the magnitude if that exceeds 0.001, else 0. -/
theorem C61_log (rnd : ℝ → Num) (x : Arr Num) :
    ∃ r, fLog rnd x = .ok r ∧ r.shape = x.shape ∧ ∀ i, InShape r.shape i →
      (∀ v, x.item i = .fin v → tiny < |v| → r.item i = rnd (Real.log |v|)) ∧
      (∀ v, x.item i = .fin v → ¬ tiny < |v| → r.item i = .fin 0) ∧
      (x.item i = .posInf ∨ x.item i = .negInf → r.item i = .posInf) ∧ (x.item i = .nan → r.item i = .fin 0) := by
  have hx : ∃ n, Of n x := by
    cases hs : x.shape with
    | none => exact ⟨0, .inl hs⟩
    | some n => exact ⟨n, .inr hs⟩
  obtain ⟨n, hx⟩ := hx
  have h1 := map1_gives abs x
  have h2 := map1_gives (fun v => gt v (.fin tiny)) (map1 abs x)
  have h3 := map1_gives (log rnd) (map1 abs x)
  have hs1 : (map1 abs x).shape = x.shape := by simpa using h1.shape
  have hs2 : (map1 (fun v => gt v (.fin tiny)) (map1 abs x)).shape = x.shape := by simpa [hs1] using h2.shape
  have hs3 : (map1 (log rnd) (map1 abs x)).shape = x.shape := by simpa [hs1] using h3.shape
  obtain ⟨r, hr, hrs⟩ := npWhere_gives (c := map1 (fun v => gt v (.fin tiny)) (map1 abs x)) (x := map1 (log rnd) (map1 abs x))
    (y := .scalar (.fin 0)) (n := n) (by unfold Of; rw [hs2]; exact hx) (by unfold Of; rw [hs3]; exact hx) (.inl rfl)
  have hshape : r.shape = x.shape := by
    rw [hrs.shape, hs2, hs3]
    cases x.shape <;> simp [Arr.shape]
  refine ⟨r, hr, hshape, fun i hi => ?_⟩
  have hi' : InShape x.shape i := hshape ▸ hi
  have e1 := hrs.item i hi
  rw [h2.item i (by rw [hs2]; exact hi'), h3.item i (by rw [hs3]; exact hi'), h1.item i (by rw [hs1]; exact hi')] at e1
  refine ⟨fun v hv hb => ?_, fun v hv hb => ?_, ?_, fun hv => ?_⟩
  · rw [e1, hv, (gt_abs (.fin v)).2 hb, cond_true]
    have h0 : (0 : ℝ) < |v| := lt_trans (by have := tiny_gt; linarith) hb
    simp only [abs, log]
    rw [if_neg (not_lt.2 h0.le), if_neg h0.ne']
  · rw [e1, hv, Bool.eq_false_iff.2 (fun h => hb ((gt_abs (.fin v)).1 h))]
    rfl
  · rintro (hv | hv)
    · rw [e1, hv, (gt_abs .posInf).2 trivial]; rfl
    · rw [e1, hv, (gt_abs .negInf).2 trivial]; rfl
  · rw [e1, hv, Bool.eq_false_iff.2 (fun h => (gt_abs .nan).1 h)]
    rfl

/-- C61, protected square root: the root of the magnitude, never NaN for a number. -/
theorem C61_sqrt (rnd : ℝ → Num) (x : Arr Num) :
    (fSqrt rnd x).shape = x.shape ∧ ∀ i, InShape x.shape i →
      (∀ v, x.item i = .fin v → (fSqrt rnd x).item i = rnd (Real.sqrt |v|)) ∧
      (x.item i = .posInf ∨ x.item i = .negInf → (fSqrt rnd x).item i = .posInf) ∧
      (x.item i = .nan → (fSqrt rnd x).item i = .nan) := by
  have h1 := map1_gives abs x
  have h2 := map1_gives (sqrt rnd) (map1 abs x)
  have hs1 : (map1 abs x).shape = x.shape := by simpa using h1.shape
  have hs2 : (map1 (sqrt rnd) (map1 abs x)).shape = x.shape := by simpa [hs1] using h2.shape
  refine ⟨hs2, fun i hi => ?_⟩
  have e : (fSqrt rnd x).item i = sqrt rnd (abs (x.item i)) := by
    unfold fSqrt
    rw [h2.item i (by rw [hs2]; exact hi), h1.item i (by rw [hs1]; exact hi)]
  rw [e]
  refine ⟨fun v hv => ?_, ?_, fun hv => by rw [hv]; rfl⟩
  · rw [hv]
    simp only [abs, sqrt]
    rw [if_neg (not_lt.2 (abs_nonneg v))]
  · rintro (hv | hv) <;> rw [hv] <;> rfl

/-- `x ≤ y` as numbers; false if one of them is NaN. -/
def NumLe (x y : Num) : Prop := ∃ p q, x.ereal = some p ∧ y.ereal = some q ∧ p ≤ q

/-- `x > y` as numbers; false if one of them is NaN. -/
def NumGt (x y : Num) : Prop := ∃ p q, x.ereal = some p ∧ y.ereal = some q ∧ q < p

/-- The result of a conditional primitive: item by item one of the branches. -/
def Chooses (cond : Nat → Prop) (y z r : Arr Num) : Prop :=
  ∀ i, InShape r.shape i → (cond i → r.item i = y.item i) ∧ (¬ cond i → r.item i = z.item i)

theorem choose_aux {n : Nat} {c : Arr Bool} {y z : Arr Num} {cond : Nat → Prop} (hc : Of n c) (hy : Of n y) (hz : Of n z)
    (hcond : ∀ i, InShape c.shape i → (c.item i = true ↔ cond i)) :
    ∃ r, npWhere c y z = .ok r ∧ r.shape = c.shape.or (y.shape.or z.shape) ∧ Chooses cond y z r := by
  obtain ⟨r, hr, hrs⟩ := npWhere_gives hc hy hz
  have hshape : r.shape = c.shape.or (y.shape.or z.shape) := by rw [hrs.shape]; simp
  refine ⟨r, hr, hshape, fun i hi => ?_⟩
  have hi' := (inShape_or hc (or_of hy hz) (hshape ▸ hi)).1
  rw [hrs.item i hi]
  constructor
  · intro h; rw [(hcond i hi').2 h]; rfl
  · intro h; rw [Bool.eq_false_iff.2 (fun h' => h ((hcond i hi').1 h'))]; rfl

theorem choose_map1 {n : Nat} {x y z : Arr Num} (f : Num → Bool) {cond : Nat → Prop} (hx : Of n x) (hy : Of n y) (hz : Of n z)
    (hcond : ∀ i, f (x.item i) = true ↔ cond i) :
    ∃ r, npWhere (map1 f x) y z = .ok r ∧ r.shape = x.shape.or (y.shape.or z.shape) ∧ Chooses cond y z r := by
  have h := map1_gives f x
  have hs : (map1 f x).shape = x.shape := by simpa using h.shape
  have := choose_aux (c := map1 f x) (cond := cond) (by unfold Of; rw [hs]; exact hx) hy hz
    (fun i hi => by rw [h.item i hi]; exact hcond i)
  rwa [hs] at this

theorem choose_map2 {n : Nat} {x y z w : Arr Num} (f : Num → Num → Bool) {cond : Nat → Prop} (hx : Of n x) (hy : Of n y)
    (hz : Of n z) (hw : Of n w) (hcond : ∀ i, f (x.item i) (y.item i) = true ↔ cond i) :
    ∃ r, (map2 f x y >>= fun c => npWhere c z w) = .ok r ∧ r.shape = (x.shape.or y.shape).or (z.shape.or w.shape) ∧
      Chooses cond z w r := by
  obtain ⟨c, hc, hcs⟩ := map2_gives f hx hy
  have hs : c.shape = x.shape.or y.shape := by simpa using hcs.shape
  have := choose_aux (c := c) (cond := cond) (by unfold Of; rw [hs]; exact or_of hx hy) hz hw
    (fun i hi => by rw [hcs.item i hi]; exact hcond i)
  rw [hs] at this
  rw [hc]
  exact this

/-- C61, the conditional primitives: every item is the item of the first branch where the documented condition
holds, and of the second elsewhere (also where NaN makes the comparison false). -/
theorem C61_conditionals {n : Nat} {x y z w : Arr Num} (hx : Of n x) (hy : Of n y) (hz : Of n z) (hw : Of n w) :
    (∃ r, fIflte0 x y z = .ok r ∧ r.shape = x.shape.or (y.shape.or z.shape) ∧
      Chooses (fun i => NumLe (x.item i) (.fin 0)) y z r) ∧
    (∃ r, fIfgt0 x y z = .ok r ∧ r.shape = x.shape.or (y.shape.or z.shape) ∧
      Chooses (fun i => NumGt (x.item i) (.fin 0)) y z r) ∧
    (∃ r, fIflte x y z w = .ok r ∧ r.shape = (x.shape.or y.shape).or (z.shape.or w.shape) ∧
      Chooses (fun i => NumLe (x.item i) (y.item i)) z w r) ∧
    (∃ r, fIfgt x y z w = .ok r ∧ r.shape = (x.shape.or y.shape).or (z.shape.or w.shape) ∧
      Chooses (fun i => NumGt (x.item i) (y.item i)) z w r) ∧
    (∃ r, fIfThenElse x y z = .ok r ∧ r.shape = x.shape.or (y.shape.or z.shape) ∧
      Chooses (fun i => x.item i ≠ .fin 0) y z r) := by
  refine ⟨choose_map1 _ hx hy hz fun i => le_iff _ _, choose_map1 _ hx hy hz fun i => gt_iff _ _,
    choose_map2 _ hx hy hz hw fun i => le_iff _ _, choose_map2 _ hx hy hz hw fun i => gt_iff _ _,
    choose_map1 _ hx hy hz fun i => ?_⟩
  cases x.item i <;> simp [truthy]

/-- C61, arrays of different lengths: numpy raises `ValueError`. -/
theorem C61_lengths (rnd : ℝ → Num) {xs ys : List Num} (h : xs.length ≠ ys.length) (hx : xs.length ≠ 1) (hy : ys.length ≠ 1) :
    fDiv rnd (.vec xs) (.vec ys) = .error .valueError := by
  simp [fDiv, map2, broadcast, Arr.shape, h, hx, hy, bind, Except.bind]

example : ∃ r, fDiv (.fin ·) (.scalar (.fin 3)) (.vec [.fin 2, .fin 0]) = .ok r ∧ r.item 0 = .fin (3 / 2) ∧ r.item 1 = .fin 0 := by
  obtain ⟨r, h1, h2, h3⟩ := C61_div (.fin ·) (x := .scalar (.fin 3)) (y := .vec [.fin 2, .fin 0]) (n := 2) (.inl rfl) (.inr rfl)
  refine ⟨r, h1, ?_, ?_⟩
  · rw [(h3 0 (by rw [h2]; simp [InShape, Arr.shape])).1 (by simp [Big, Arr.item, tiny]; norm_num)]
    simp [div, Arr.item]
  · rw [(h3 1 (by rw [h2]; simp [InShape, Arr.shape])).2 (by simp [Big, Arr.item, tiny]; norm_num)]

/-! ## C73 -/

/-- Every numeric function except `argmax2floats` returns for scalars and arrays of `n` items, whatever the numbers. -/
theorem call_total (rnd : ℝ → Num) {n : Nat} (op : Op) (hop : op ≠ .argmax) (args : List (Arr Num)) (hlen : args.length = op.arity)
    (hargs : ∀ a ∈ args, Of n a) : ∃ r, op.call rnd args = .ok r ∧ Of n r := by
  have h1 : ∀ (f : Num → Num) a, Of n a → Of n (map1 f a) := fun f a ha =>
    (map1_gives f a).of (n := n) (by intro s hs; simp only [List.mem_singleton] at hs; subst hs; exact ha)
  have h2 : ∀ (f : Num → Num → Num) a b, Of n a → Of n b → ∃ r, map2 f a b = .ok r ∧ Of n r := by
    intro f a b ha hb
    obtain ⟨r, hr, hg⟩ := map2_gives f ha hb
    refine ⟨r, hr, hg.of ?_⟩
    intro s hs
    simp only [List.mem_cons, List.not_mem_nil, or_false] at hs
    rcases hs with rfl | rfl
    · exact ha
    · exact hb
  have hdiv : ∀ a b, Of n a → Of n b → ∃ r, fDiv rnd a b = .ok r ∧ Of n r := by
    intro a b ha hb
    obtain ⟨r, hr, hs, _⟩ := C61_div rnd ha hb
    exact ⟨r, hr, by unfold Of; rw [hs]; exact or_of ha hb⟩
  match args, op, hop, hlen with
  | [x], .sqrt, _, _ => exact ⟨_, rfl, h1 _ _ (by apply h1; exact hargs x (by simp))⟩
  | [x], .log, _, _ =>
    obtain ⟨r, hr, hs, _⟩ := C61_log rnd x
    exact ⟨r, hr, by unfold Of; rw [hs]; exact hargs x (by simp)⟩
  | [x], .abs, _, _ => exact ⟨_, rfl, h1 _ _ (hargs x (by simp))⟩
  | [x], .neg, _, _ => exact ⟨_, rfl, h1 _ _ (hargs x (by simp))⟩
  | [x], .inv, _, _ => exact hdiv _ _ (.inl rfl) (hargs x (by simp))
  | [x], .sin, _, _ => exact ⟨_, rfl, h1 _ _ (hargs x (by simp))⟩
  | [x], .cos, _, _ => exact ⟨_, rfl, h1 _ _ (hargs x (by simp))⟩
  | [x], .tan, _, _ => exact ⟨_, rfl, h1 _ _ (hargs x (by simp))⟩
  | [x], .not, _, _ => exact ⟨_, rfl, h1 _ _ (hargs x (by simp))⟩
  | [x, y], .add, _, _ => exact h2 _ _ _ (hargs x (by simp)) (hargs y (by simp))
  | [x, y], .sub, _, _ => exact h2 _ _ _ (hargs x (by simp)) (hargs y (by simp))
  | [x, y], .mul, _, _ => exact h2 _ _ _ (hargs x (by simp)) (hargs y (by simp))
  | [x, y], .div, _, _ => exact hdiv _ _ (hargs x (by simp)) (hargs y (by simp))
  | [x, y], .max, _, _ => exact h2 _ _ _ (hargs x (by simp)) (hargs y (by simp))
  | [x, y], .min, _, _ => exact h2 _ _ _ (hargs x (by simp)) (hargs y (by simp))
  | [x, y], .logicalAnd, _, _ => exact h2 (fun a b => ofBool (truthy a && truthy b)) _ _ (hargs x (by simp)) (hargs y (by simp))
  | [x, y], .logicalOr, _, _ => exact h2 (fun a b => ofBool (truthy a || truthy b)) _ _ (hargs x (by simp)) (hargs y (by simp))
  | [x, y, z], .iflte0, _, _ =>
    have hx := hargs x (by simp); have hy := hargs y (by simp); have hz := hargs z (by simp)
    obtain ⟨r, hr, hs, _⟩ := (C61_conditionals hx hy hz hz).1
    exact ⟨r, hr, by unfold Of; rw [hs]; exact or_of hx (or_of hy hz)⟩
  | [x, y, z], .ifgt0, _, _ =>
    have hx := hargs x (by simp); have hy := hargs y (by simp); have hz := hargs z (by simp)
    obtain ⟨r, hr, hs, _⟩ := (C61_conditionals hx hy hz hz).2.1
    exact ⟨r, hr, by unfold Of; rw [hs]; exact or_of hx (or_of hy hz)⟩
  | [x, y, z], .ifThenElse, _, _ =>
    have hx := hargs x (by simp); have hy := hargs y (by simp); have hz := hargs z (by simp)
    obtain ⟨r, hr, hs, _⟩ := (C61_conditionals hx hy hz hz).2.2.2.2
    exact ⟨r, hr, by unfold Of; rw [hs]; exact or_of hx (or_of hy hz)⟩
  | [x, y, z, w], .iflte, _, _ =>
    have hx := hargs x (by simp); have hy := hargs y (by simp); have hz := hargs z (by simp); have hw := hargs w (by simp)
    obtain ⟨r, hr, hs, _⟩ := (C61_conditionals hx hy hz hw).2.2.1
    exact ⟨r, hr, by unfold Of; rw [hs]; exact or_of (or_of hx hy) (or_of hz hw)⟩
  | [x, y, z, w], .ifgt, _, _ =>
    have hx := hargs x (by simp); have hy := hargs y (by simp); have hz := hargs z (by simp); have hw := hargs w (by simp)
    obtain ⟨r, hr, hs, _⟩ := (C61_conditionals hx hy hz hw).2.2.2.1
    exact ⟨r, hr, by unfold Of; rw [hs]; exact or_of (or_of hx hy) (or_of hz hw)⟩

open GP

mutual
theorem denote_total {sem : Fn → List (Arr Num) → Except Err (Arr Num)} {leaf : Val → Arr Num} {n : Nat} {P : Fn → Prop}
    (hleaf : ∀ v, Of n (leaf v))
    (hsem : ∀ f args, P f → args.length = f.params.length → (∀ a ∈ args, Of n a) → ∃ r, sem f args = .ok r ∧ Of n r) :
    ∀ (p : Prog), p.Ok → (∀ f ∈ p.fns, P f) → ∃ r, p.denote sem leaf = .ok r ∧ Of n r
  | .term v _, _, _ => ⟨_, rfl, hleaf v⟩
  | .app f args, hok, hP => by
    simp only [Prog.Ok] at hok
    simp only [Prog.fns, List.mem_cons, forall_eq_or_imp] at hP
    obtain ⟨vs, hvs, hl, ha⟩ := denoteAll_total hleaf hsem args hok.2 hP.2
    obtain ⟨r, hr, ho⟩ := hsem f vs hP.1 (by rw [hl]; exact hok.1) ha
    refine ⟨r, ?_, ho⟩
    simp only [Prog.denote, hvs, bind, Except.bind, hr]
theorem denoteAll_total {sem : Fn → List (Arr Num) → Except Err (Arr Num)} {leaf : Val → Arr Num} {n : Nat} {P : Fn → Prop}
    (hleaf : ∀ v, Of n (leaf v))
    (hsem : ∀ f args, P f → args.length = f.params.length → (∀ a ∈ args, Of n a) → ∃ r, sem f args = .ok r ∧ Of n r) :
    ∀ (ps : List Prog), Prog.OkAll ps → (∀ f ∈ Prog.fnsAll ps, P f) →
      ∃ vs, Prog.denoteAll sem leaf ps = .ok vs ∧ vs.length = ps.length ∧ ∀ a ∈ vs, Of n a
  | [], _, _ => ⟨[], rfl, rfl, by simp⟩
  | p :: ps, hok, hP => by
    simp only [Prog.OkAll] at hok
    simp only [Prog.fnsAll, List.mem_append] at hP
    obtain ⟨v, hv, ho⟩ := denote_total hleaf hsem p hok.1 fun f hf => hP f (.inl hf)
    obtain ⟨vs, hvs, hl, ha⟩ := denoteAll_total hleaf hsem ps hok.2 fun f hf => hP f (.inr hf)
    refine ⟨v :: vs, ?_, by simp [hl], ?_⟩
    · simp only [Prog.denoteAll, hv, hvs, bind, Except.bind]
    · intro a ha'
      simp only [List.mem_cons] at ha'
      rcases ha' with rfl | ha'
      · exact ho
      · exact ha a ha'
end

/-- C73: a tree over the numeric functions (`op` tells which function of the modules a function is), whose
variables are bound to arrays of `n` items or scalars, and whose constants are scalars, returns a scalar or an array
of `n` items. -/
def C73_statement : Prop :=
  ∀ (rnd : ℝ → Num) (op : Fn → Op) (lit : Val → Num) (c : Cfg) (p : Prog) (kwargs : List (String × Arr Num)) (n : Nat),
    p.Ok → (∀ f ∈ p.fns, f.params.length = (op f).arity) → (∀ kx ∈ kwargs, Of n kx.2) →
    (∀ kx ∈ kwargs, ∃ kv ∈ c.terminalSet, kv.1.data = .str kx.1) →
    (∀ kv ∈ c.terminalSet, ∃ kx ∈ kwargs, kv.1.data = .str kx.1) →
    ∃ r, execute (fun f => (op f).call rnd) (fun v => .scalar (lit v)) c p.flatten kwargs = .ok r ∧ Of n r

/-- C73, without `argmax2floats` and the logical functions of floats and ints (for which see C168). -/
theorem C73_numeric_partial (rnd : ℝ → Num) (op : Fn → Op) (lit : Val → Num) (c : Cfg) (p : Prog)
    (kwargs : List (String × Arr Num)) (n : Nat) (hp : p.Ok) (har : ∀ f ∈ p.fns, f.params.length = (op f).arity)
    (hno : ∀ f ∈ p.fns, (op f).Numeric) (hk : ∀ kx ∈ kwargs, Of n kx.2)
    (h1 : ∀ kx ∈ kwargs, ∃ kv ∈ c.terminalSet, kv.1.data = .str kx.1)
    (h2 : ∀ kv ∈ c.terminalSet, ∃ kx ∈ kwargs, kv.1.data = .str kx.1) :
    ∃ r, execute (fun f => (op f).call rnd) (fun v => .scalar (lit v)) c p.flatten kwargs = .ok r ∧ Of n r := by
  rw [(C14_execute_kwargs_partial _ _ c p hp kwargs).1 ⟨h1, h2⟩]
  refine denote_total (P := fun f => f.params.length = (op f).arity ∧ (op f).Numeric) ?_ ?_ p hp fun f hf => ⟨har f hf, hno f hf⟩
  · intro v
    unfold leafVal
    split
    · cases hkw : kwFun kwargs _ with
      | none => exact .inl rfl
      | some a =>
        unfold kwFun at hkw
        rw [Option.map_eq_some_iff] at hkw
        obtain ⟨kx, hf, rfl⟩ := hkw
        exact hk kx (List.mem_of_find?_eq_some hf)
    · exact .inl rfl
  · intro f args hP hl ha
    exact call_total rnd (op f) hP.2.1 args (by rw [hl]; exact hP.1) ha

/-- `1 / x0` on a column with a zero. -/
example : ∃ r, execute (fun _ => Op.call .fin .div) (fun _ => .scalar (.fin 1)) ⟨[], [(⟨1, .str "x0"⟩, none)], none, none⟩
    (Prog.app ⟨0, [none, none], none⟩ [.term ⟨0, .int 1⟩ none, .term ⟨1, .str "x0"⟩ none]).flatten
    [("x0", .vec [.fin 0, .fin 2])] = .ok r ∧ Of 2 r :=
  C73_numeric_partial .fin (fun _ => .div) (fun _ => .fin 1) ⟨[], [(⟨1, .str "x0"⟩, none)], none, none⟩ _ _ 2
    (by simp [Prog.Ok, Prog.OkAll]) (by simp [Prog.fns, Prog.fnsAll, Op.arity]) (by simp [Op.Numeric]) (by simp [Of, Arr.shape]) (by simp) (by simp)

/-- The tree `argmax2floats(1, x0)`. -/
def exFn : Fn := ⟨0, [none, none], none⟩
def exTree : Prog := .app exFn [.term ⟨0, .int 1⟩ none, .term ⟨1, .str "x0"⟩ none]

/-- C73 is false: `argmax2floats` of a constant and a column raises `ValueError`. -/
theorem C73_refuted : ¬ C73_statement := by
  intro h
  obtain ⟨r, hr, _⟩ := h .fin (fun _ => .argmax) (fun _ => .fin 1) ⟨[exFn], [(⟨1, .str "x0"⟩, none)], none, none⟩ exTree
    [("x0", .vec [.fin 1, .fin 2])] 2 (by simp [exTree, Prog.Ok, Prog.OkAll, exFn])
    (by simp [exTree, Prog.fns, Prog.fnsAll, exFn, Op.arity]) (by simp [Of, Arr.shape]) (by simp) (by simp)
  rw [(C14_execute_kwargs_partial _ _ _ exTree (by simp [exTree, Prog.Ok, Prog.OkAll, exFn]) _).1 ⟨by simp, by simp⟩] at hr
  simp [exTree, Prog.denote, Prog.denoteAll, leafVal, kwFun, bind, Except.bind, Op.call, argmax2, Arr.shape] at hr

/-- C73, `argmax2floats` of two scalars or two arrays of one length: 1 where the second is greater, else 0. -/
theorem C73_argmax_partial {x y : Arr Num} (h : x.shape = y.shape) :
    ∃ r, argmax2 x y = .ok r ∧ r.shape = x.shape ∧ ∀ i, InShape r.shape i → x.item i ≠ .nan → y.item i ≠ .nan →
      (NumGt (y.item i) (x.item i) → r.item i = .fin 1) ∧ (¬ NumGt (y.item i) (x.item i) → r.item i = .fin 0) := by
  have hx : ∃ n, Of n x := by
    cases hs : x.shape with
    | none => exact ⟨0, .inl hs⟩
    | some n => exact ⟨n, .inr hs⟩
  obtain ⟨n, hx⟩ := hx
  unfold argmax2
  rw [if_pos h]
  have hy : Of n y := by unfold Of; rw [← h]; exact hx
  obtain ⟨r, hr, hg⟩ := map2_gives argmaxItem hx hy
  refine ⟨r, hr, by rw [hg.shape, ← h]; cases x.shape <;> simp, fun i hi h1 h2 => ?_⟩
  rw [hg.item i hi]
  have e : argmaxItem (x.item i) (y.item i) = bif gt (y.item i) (x.item i) then .fin 1 else .fin 0 := by
    cases hxi : x.item i <;> cases hyi : y.item i <;> simp_all [argmaxItem]
  rw [e]
  constructor
  · intro hc; rw [(gt_iff _ _).2 hc]; rfl
  · intro hc; rw [Bool.eq_false_iff.2 (fun h' => hc ((gt_iff _ _).1 h'))]; rfl

/-! ## C74 -/

/-- C74: the documentation of the logical functions: "x and y", "x or y", "not x". -/
def C74_statement : Prop :=
  ∀ x y : Item, (∃ r, fAnd x y = .ok r ∧ (r.truthy = true ↔ x.truthy = true ∧ y.truthy = true)) ∧
    (∃ r, fOr x y = .ok r ∧ (r.truthy = true ↔ x.truthy = true ∨ y.truthy = true)) ∧
    ((fNot x).truthy = true ↔ ¬ x.truthy = true)

/-- C74 is false: `f_and(1, 2)` is 0, although 1 and 2 are both true. -/
theorem C74_refuted : ¬ C74_statement := by
  intro h
  obtain ⟨r, hr, ht⟩ := (h (.int 1) (.int 2)).1
  have e : fAnd (.int 1) (.int 2) = .ok (.int 0) := by decide +kernel
  rw [e] at hr
  cases hr
  exact absurd (ht.2 ⟨by decide, by decide⟩) (by decide)

/-- C74 is false: with a float, `f_and` and `f_or` raise `TypeError`. -/
theorem C74_refuted_float (q : ℚ) (x : Item) : fAnd (.float q) x = .error .typeError ∧ fAnd x (.float q) = .error .typeError ∧
    fOr (.float q) x = .error .typeError ∧ fOr x (.float q) = .error .typeError := by
  cases x <;> exact ⟨rfl, rfl, rfl, rfl⟩

theorem lor_zero (a b : ℤ) : a.lor b = 0 ↔ a = 0 ∧ b = 0 := by
  cases a with
  | ofNat a =>
    cases b with
    | ofNat b =>
      simp only [Int.lor]
      constructor
      · intro h
        have h : a ||| b = 0 := by exact_mod_cast h
        rw [Nat.or_eq_zero_iff] at h
        simp [h]
      · rintro ⟨h1, h2⟩
        have h1 : a = 0 := Int.ofNat_eq_zero.1 h1
        have h2 : b = 0 := Int.ofNat_eq_zero.1 h2
        subst h1 h2
        rfl
    | negSucc b => simp only [Int.lor]; constructor <;> intro h <;> simp at h
  | negSucc a =>
    cases b with
    | ofNat b => simp only [Int.lor]; constructor <;> intro h <;> simp at h
    | negSucc b => simp only [Int.lor]; constructor <;> intro h <;> simp at h

/-- A truth value: a bool, or one of the integers 0 and 1. -/
def Item.IsTruth : Item → Prop
  | .bool _ => True
  | .int z => z = 0 ∨ z = 1
  | .float _ => False

/-- C74, what holds: `f_and` on truth values, `f_or` on all integers and bools, `f_not` on everything. -/
theorem C74_truth_partial (x y : Item) :
    (x.IsTruth → y.IsTruth → ∃ r, fAnd x y = .ok r ∧ r.IsTruth ∧ (r.truthy = true ↔ x.truthy = true ∧ y.truthy = true)) ∧
    ((∀ q, x ≠ .float q) → (∀ q, y ≠ .float q) → ∃ r, fOr x y = .ok r ∧ (r.truthy = true ↔ x.truthy = true ∨ y.truthy = true)) ∧
    ((fNot x).IsTruth ∧ ((fNot x).truthy = true ↔ ¬ x.truthy = true)) := by
  refine ⟨?_, ?_, ?_⟩
  · intro hx hy
    cases x with
    | float q => exact absurd hx id
    | bool a =>
      cases y with
      | float q => exact absurd hy id
      | bool b => exact ⟨_, rfl, trivial, by simp [Item.truthy]⟩
      | int w =>
        refine ⟨_, rfl, ?_⟩
        rcases hy with rfl | rfl <;> cases a <;> simp [Item.IsTruth, Item.truthy, Item.toInt] <;> decide
    | int z =>
      cases y with
      | float q => exact absurd hy id
      | bool b =>
        refine ⟨_, rfl, ?_⟩
        rcases hx with rfl | rfl <;> cases b <;> simp [Item.IsTruth, Item.truthy, Item.toInt] <;> decide
      | int w =>
        refine ⟨_, rfl, ?_⟩
        rcases hx with rfl | rfl <;> rcases hy with rfl | rfl <;> simp [Item.IsTruth, Item.truthy, Item.toInt] <;> decide
  · intro hx hy
    cases x with
    | float q => exact absurd rfl (hx q)
    | bool a =>
      cases y with
      | float q => exact absurd rfl (hy q)
      | bool b => exact ⟨_, rfl, by simp [Item.truthy]⟩
      | int w =>
        refine ⟨_, rfl, ?_⟩
        simp only [Item.truthy, decide_eq_true_eq, ne_eq, lor_zero, Item.toInt]
        cases a <;> simp
    | int z =>
      cases y with
      | float q => exact absurd rfl (hy q)
      | bool b =>
        refine ⟨_, rfl, ?_⟩
        simp only [Item.truthy, decide_eq_true_eq, ne_eq, lor_zero, Item.toInt]
        cases b <;> simp
      | int w =>
        refine ⟨_, rfl, ?_⟩
        simp only [Item.truthy, decide_eq_true_eq, ne_eq, lor_zero, Item.toInt]
        tauto
  · unfold fNot
    cases h : x.truthy <;> simp [Item.truthy, Item.IsTruth]

end Verif.Prim
