import Verif.Model.Dtypes
import Verif.Props.Functions
namespace Verif.Prim
open GP

/-! # C168: numeric programs return numbers -/

/-- A scalar or an array of `n` items. -/
def TArr.Of (n : Nat) : TArr → Prop
  | .bools a => Prim.Of n a
  | .nums a => Prim.Of n a

/-- The value for one row. -/
noncomputable def TArr.row (i : Nat) : TArr → TArr
  | .bools a => .bools (.scalar (a.item i))
  | .nums a => .nums (.scalar (a.item i))

/-- Whether a function returns truth values, given which of its arguments are truth values. -/
def Op.boolResult : Op → List Bool → Bool
  | .logicalAnd, _ | .logicalOr, _ => true
  | .add, [a, b] | .mul, [a, b] | .max, [a, b] | .min, [a, b] => a && b
  | .abs, [a] => a
  | .iflte0, [_, b, c] | .ifgt0, [_, b, c] | .ifThenElse, [_, b, c] => b && c
  | .iflte, [_, _, c, d] | .ifgt, [_, _, c, d] => c && d
  | _, _ => false

/-- A difference of truth values or the negative of one. -/
def Op.clash : Op → List Bool → Bool
  | .sub, [a, b] => a && b
  | .neg, [a] => a
  | _, _ => false

mutual
/-- The program returns truth values on numeric data. -/
def logical (op : Fn → Op) : Prog → Bool
  | .term _ _ => false
  | .app f args => (op f).boolResult (logicalAll op args)
def logicalAll (op : Fn → Op) : List Prog → List Bool
  | [] => []
  | p :: ps => logical op p :: logicalAll op ps
end

mutual
/-- The program subtracts truth values from each other, or negates truth values, somewhere. -/
def clashes (op : Fn → Op) : Prog → Bool
  | .term _ _ => false
  | .app f args => (op f).clash (logicalAll op args) || clashesAny op args
def clashesAny (op : Fn → Op) : List Prog → Bool
  | [] => false
  | p :: ps => clashes op p || clashesAny op ps
end

section call
variable {n : Nat}

theorem of1 {α β : Type} [Inhabited α] [Inhabited β] (f : α → β) {a : Arr α} (h : Of n a) : Of n (map1 f a) := by
  unfold Of; rw [shape1]; exact h

theorem inShape_lt {α : Type} {a : Arr α} (h : Of n a) {i : Nat} (hi : i < n) : InShape a.shape i := by
  intro m hm
  rcases h with h | h <;> rw [h] at hm <;> cases hm
  exact hi

theorem item1 {α β : Type} [Inhabited α] [Inhabited β] (f : α → β) {a : Arr α} (h : Of n a) {i : Nat} (hi : i < n) :
    (map1 f a).item i = f (a.item i) :=
  (map1_gives f a).item i (inShape_lt (of1 f h) hi)

theorem toNum_of {a : TArr} (h : a.Of n) : Of n a.toNum := by
  cases a with
  | bools a => exact of1 _ h
  | nums a => exact h

theorem truth_of {a : TArr} (h : a.Of n) : Of n a.truth := by
  cases a with
  | bools a => exact h
  | nums a => exact of1 _ h

theorem row_bools (a : Arr Bool) (i : Nat) : (TArr.bools a).row i = .bools (.scalar (a.item i)) := rfl

theorem toNum_row {a : TArr} (h : a.Of n) {i : Nat} (hi : i < n) : (a.row i).toNum = .scalar (a.toNum.item i) := by
  cases a with
  | bools a => simp only [TArr.row, TArr.toNum]; rw [item1 _ h hi]; rfl
  | nums a => rfl

theorem truth_row {a : TArr} (h : a.Of n) {i : Nat} (hi : i < n) : (a.row i).truth = .scalar (a.truth.item i) := by
  cases a with
  | bools a => rfl
  | nums a => simp only [TArr.row, TArr.truth]; rw [item1 _ h hi]; rfl

theorem bool2 {α : Type} [Inhabited α] (f : α → α → Bool) {x y : Arr α} (hx : Of n x) (hy : Of n y) :
    ∃ r, map2 f x y = .ok r ∧ Of n r ∧
      ∀ i < n, map2 f (.scalar (x.item i)) (.scalar (y.item i)) = .ok (.scalar (r.item i)) := by
  obtain ⟨r, hr, hg⟩ := map2_gives f hx hy
  have ho : Of n r := hg.of (by simpa using ⟨hx, hy⟩)
  refine ⟨r, hr, ho, fun i hi => ?_⟩
  rw [hg.item i (inShape_lt ho hi)]
  rfl

theorem where3 {α : Type} [Inhabited α] {c : Arr Bool} {x y : Arr α} (hc : Of n c) (hx : Of n x) (hy : Of n y) :
    ∃ r, npWhere c x y = .ok r ∧ Of n r ∧
      ∀ i < n, npWhere (.scalar (c.item i)) (.scalar (x.item i)) (.scalar (y.item i)) = .ok (.scalar (r.item i)) := by
  obtain ⟨r, hr, hg⟩ := npWhere_gives hc hx hy
  have ho : Of n r := hg.of (by simpa using ⟨hc, hx, hy⟩)
  refine ⟨r, hr, ho, fun i hi => ?_⟩
  rw [hg.item i (inShape_lt ho hi)]
  rfl

/-- What a call promises: the type of the result is known beforehand, and rows are treated separately. -/
def Promise (rnd : ℝ → Num) (n : Nat) (op : Op) (args : List TArr) : Prop :=
  if op.clash (args.map TArr.isBool) = true then
    op.callT rnd args = .error .typeError ∧ ∀ i < n, op.callT rnd (args.map (TArr.row i)) = .error .typeError
  else
    ∃ r, op.callT rnd args = .ok r ∧ r.isBool = op.boolResult (args.map TArr.isBool) ∧ r.Of n ∧
      ∀ i < n, op.callT rnd (args.map (TArr.row i)) = .ok (r.row i)

theorem promise_nums (rnd : ℝ → Num) (op : Op) (hop : op ≠ .argmax) (args : List TArr) (hlen : args.length = op.arity)
    (hargs : ∀ a ∈ args, a.Of n) (h1 : op.clash (args.map TArr.isBool) = false)
    (h2 : op.boolResult (args.map TArr.isBool) = false)
    (h3 : op.callT rnd args = (op.call rnd (args.map TArr.toNum)).map .nums)
    (h4 : ∀ i, op.callT rnd (args.map (TArr.row i)) = (op.call rnd ((args.map (TArr.row i)).map TArr.toNum)).map .nums) :
    Promise rnd n op args := by
  unfold Promise
  rw [h1, if_neg (by simp), h2, h3]
  obtain ⟨r, a1, a2, a3⟩ := call_rows (n := n) rnd op hop (args.map TArr.toNum) (by simpa using hlen)
    (by simp only [List.mem_map]; rintro _ ⟨a, ha, rfl⟩; exact toNum_of (hargs a ha))
  refine ⟨.nums r, by rw [a1]; rfl, rfl, a2, fun i hi => ?_⟩
  rw [h4 i]
  have e : (args.map (TArr.row i)).map TArr.toNum = (args.map TArr.toNum).map fun a => .scalar (a.item i) := by
    rw [List.map_map, List.map_map]
    exact List.map_congr_left fun a ha => toNum_row (hargs a ha) hi
  rw [e, a3 i hi]
  rfl

theorem promise_bools (rnd : ℝ → Num) (op : Op) (args : List TArr) (h1 : op.clash (args.map TArr.isBool) = false)
    (h2 : op.boolResult (args.map TArr.isBool) = true) {e : Except Err (Arr Bool)} {e' : Nat → Except Err (Arr Bool)}
    (h3 : op.callT rnd args = e.map .bools) (h4 : ∀ i < n, op.callT rnd (args.map (TArr.row i)) = (e' i).map .bools)
    (h : ∃ r, e = .ok r ∧ Of n r ∧ ∀ i < n, e' i = .ok (.scalar (r.item i))) : Promise rnd n op args := by
  obtain ⟨r, a1, a2, a3⟩ := h
  unfold Promise
  rw [h1, if_neg (by simp), h2, h3]
  exact ⟨.bools r, by rw [a1]; rfl, rfl, a2, fun i hi => by rw [h4 i hi, a3 i hi]; rfl⟩

theorem promise_error (rnd : ℝ → Num) (op : Op) (args : List TArr) (h1 : op.clash (args.map TArr.isBool) = true)
    (h3 : op.callT rnd args = .error .typeError)
    (h4 : ∀ i < n, op.callT rnd (args.map (TArr.row i)) = .error .typeError) : Promise rnd n op args := by
  unfold Promise
  rw [if_pos h1]
  exact ⟨h3, h4⟩

theorem callT_promise (rnd : ℝ → Num) (op : Op) (hop : op ≠ .argmax) (args : List TArr) (hlen : args.length = op.arity)
    (hargs : ∀ a ∈ args, a.Of n) : Promise rnd n op args := by
  match args, op, hop, hlen with
  | [x], .sqrt, hop, hlen => exact promise_nums rnd _ hop _ hlen hargs rfl rfl rfl fun _ => rfl
  | [x], .log, hop, hlen => exact promise_nums rnd _ hop _ hlen hargs rfl rfl rfl fun _ => rfl
  | [x], .inv, hop, hlen => exact promise_nums rnd _ hop _ hlen hargs rfl rfl rfl fun _ => rfl
  | [x], .sin, hop, hlen => exact promise_nums rnd _ hop _ hlen hargs rfl rfl rfl fun _ => rfl
  | [x], .cos, hop, hlen => exact promise_nums rnd _ hop _ hlen hargs rfl rfl rfl fun _ => rfl
  | [x], .tan, hop, hlen => exact promise_nums rnd _ hop _ hlen hargs rfl rfl rfl fun _ => rfl
  | [x], .not, hop, hlen => exact promise_nums rnd _ hop _ hlen hargs rfl rfl rfl fun _ => rfl
  | [x, y], .div, hop, hlen => exact promise_nums rnd _ hop _ hlen hargs rfl rfl rfl fun _ => rfl
  | [x], .abs, hop, hlen =>
    cases x with
    | bools x =>
      exact promise_bools rnd _ _ rfl rfl (e := .ok x) (e' := fun i => .ok (.scalar (x.item i))) rfl
        (fun _ _ => rfl) ⟨x, rfl, hargs (.bools x) (by simp), fun _ _ => rfl⟩
    | nums x => exact promise_nums rnd _ hop _ hlen hargs rfl rfl rfl fun _ => rfl
  | [x], .neg, hop, hlen =>
    cases x with
    | bools x => exact promise_error rnd _ _ rfl rfl fun _ _ => rfl
    | nums x => exact promise_nums rnd _ hop _ hlen hargs rfl rfl rfl fun _ => rfl
  | [x, y], .sub, hop, hlen =>
    cases x <;> cases y
    · exact promise_error rnd _ _ rfl rfl fun _ _ => rfl
    all_goals exact promise_nums rnd _ hop _ hlen hargs rfl rfl rfl fun _ => rfl
  | [x, y], .add, hop, hlen | [x, y], .mul, hop, hlen | [x, y], .max, hop, hlen | [x, y], .min, hop, hlen =>
    cases x <;> cases y
    · exact promise_bools rnd _ _ rfl rfl rfl (fun _ _ => rfl) (bool2 _ (hargs (.bools _) (by simp)) (hargs (.bools _) (by simp)))
    all_goals exact promise_nums rnd _ hop _ hlen hargs rfl rfl rfl fun _ => rfl
  | [x, y], .logicalAnd, hop, hlen | [x, y], .logicalOr, hop, hlen =>
    refine promise_bools rnd _ _ rfl rfl rfl (fun i hi => ?_) (bool2 _ (truth_of (hargs x (by simp))) (truth_of (hargs y (by simp))))
    rw [← truth_row (hargs x (by simp)) hi, ← truth_row (hargs y (by simp)) hi]
    rfl
  | [x, y, z], .ifThenElse, hop, hlen =>
    cases y <;> cases z
    · refine promise_bools rnd _ _ rfl rfl rfl (fun i hi => ?_)
        (where3 (truth_of (hargs x (by simp))) (hargs (.bools _) (by simp)) (hargs (.bools _) (by simp)))
      rw [← truth_row (hargs x (by simp)) hi]
      rfl
    all_goals exact promise_nums rnd _ hop _ hlen hargs rfl rfl rfl fun _ => rfl
  | [x, y, z], .iflte0, hop, hlen | [x, y, z], .ifgt0, hop, hlen =>
    have hx := toNum_of (hargs x (by simp))
    cases y <;> cases z
    · refine promise_bools rnd _ _ rfl rfl rfl (fun i hi => ?_)
        (where3 (of1 _ hx) (hargs (.bools _) (by simp)) (hargs (.bools _) (by simp)))
      rw [item1 _ hx hi]
      simp only [List.map_cons, List.map_nil, row_bools, Op.callT]
      rw [toNum_row (hargs x (by simp)) hi]
      rfl
    all_goals exact promise_nums rnd _ hop _ hlen hargs rfl rfl rfl fun _ => rfl
  | [x, y, z, w], .iflte, hop, hlen | [x, y, z, w], .ifgt, hop, hlen =>
    have hx := toNum_of (hargs x (by simp))
    have hy := toNum_of (hargs y (by simp))
    cases z <;> cases w
    · obtain ⟨c, c1, c2, c3⟩ := bool2 _ hx hy
      refine promise_bools rnd _ _ rfl rfl (by simp only [Op.callT]; rw [c1]; rfl) (fun i hi => ?_)
        (where3 c2 (hargs (.bools _) (by simp)) (hargs (.bools _) (by simp)))
      simp only [List.map_cons, List.map_nil, row_bools, Op.callT]
      rw [toNum_row (hargs x (by simp)) hi, toNum_row (hargs y (by simp)) hi, c3 i hi]
      rfl
    all_goals exact promise_nums rnd _ hop _ hlen hargs rfl rfl rfl fun _ => rfl

end call

section run
variable {n : Nat} {rnd : ℝ → Num} {op : Fn → Op}

mutual
theorem denoteT {leaf : Val → TArr} {leaf' : Nat → Val → TArr} (hleaf : ∀ v, (leaf v).Of n ∧ (leaf v).isBool = false)
    (hrow : ∀ v, ∀ i < n, leaf' i v = (leaf v).row i) :
    ∀ p : Prog, p.Ok → (∀ f ∈ p.fns, f.params.length = (op f).arity ∧ op f ≠ .argmax) →
      if clashes op p = true then p.denote (fun f => (op f).callT rnd) leaf = .error .typeError ∧
        ∀ i < n, p.denote (fun f => (op f).callT rnd) (leaf' i) = .error .typeError
      else ∃ r, p.denote (fun f => (op f).callT rnd) leaf = .ok r ∧ r.isBool = logical op p ∧ r.Of n ∧
        ∀ i < n, p.denote (fun f => (op f).callT rnd) (leaf' i) = .ok (r.row i)
  | .term v t, _, _ => by
    rw [clashes, if_neg (by simp)]
    exact ⟨_, rfl, (hleaf v).2, (hleaf v).1, fun i hi => by simp only [Prog.denote]; rw [hrow v i hi]⟩
  | .app f args, hok, hP => by
    simp only [Prog.Ok] at hok
    simp only [Prog.fns, List.mem_cons, forall_eq_or_imp] at hP
    have ih := denoteAllT hleaf hrow args hok.2 hP.2
    rw [clashes]
    by_cases hc : clashesAny op args = true
    · rw [if_pos hc] at ih
      rw [if_pos (by simp [hc])]
      exact ⟨by simp only [Prog.denote, ih.1, bind, Except.bind],
        fun i hi => by simp only [Prog.denote, ih.2 i hi, bind, Except.bind]⟩
    · rw [if_neg hc] at ih
      obtain ⟨vs, a1, a2, a3, a4⟩ := ih
      have hlen : vs.length = (op f).arity := by
        rw [← hP.1.1, ← hok.1, ← List.length_map (f := TArr.isBool), a2]
        exact logicalAll_length args
      have hp := callT_promise rnd (op f) hP.1.2 vs hlen a3
      unfold Promise at hp
      rw [a2] at hp
      rw [Bool.eq_false_iff.2 hc, Bool.or_false]
      by_cases hf : (op f).clash (logicalAll op args) = true
      · rw [if_pos hf] at hp ⊢
        exact ⟨by simp only [Prog.denote, a1, bind, Except.bind, hp.1],
          fun i hi => by simp only [Prog.denote, a4 i hi, bind, Except.bind, hp.2 i hi]⟩
      · rw [if_neg hf] at hp ⊢
        obtain ⟨r, b1, b2, b3, b4⟩ := hp
        exact ⟨r, by simp only [Prog.denote, a1, bind, Except.bind, b1], by rw [b2, logical], b3,
          fun i hi => by simp only [Prog.denote, a4 i hi, bind, Except.bind, b4 i hi]⟩
theorem denoteAllT {leaf : Val → TArr} {leaf' : Nat → Val → TArr} (hleaf : ∀ v, (leaf v).Of n ∧ (leaf v).isBool = false)
    (hrow : ∀ v, ∀ i < n, leaf' i v = (leaf v).row i) :
    ∀ ps : List Prog, Prog.OkAll ps → (∀ f ∈ Prog.fnsAll ps, f.params.length = (op f).arity ∧ op f ≠ .argmax) →
      if clashesAny op ps = true then Prog.denoteAll (fun f => (op f).callT rnd) leaf ps = .error .typeError ∧
        ∀ i < n, Prog.denoteAll (fun f => (op f).callT rnd) (leaf' i) ps = .error .typeError
      else ∃ vs, Prog.denoteAll (fun f => (op f).callT rnd) leaf ps = .ok vs ∧ vs.map TArr.isBool = logicalAll op ps ∧
        (∀ a ∈ vs, a.Of n) ∧
        ∀ i < n, Prog.denoteAll (fun f => (op f).callT rnd) (leaf' i) ps = .ok (vs.map (TArr.row i))
  | [], _, _ => by
    rw [clashesAny, if_neg (by simp)]
    exact ⟨[], rfl, rfl, by simp, fun i hi => rfl⟩
  | p :: ps, hok, hP => by
    simp only [Prog.OkAll] at hok
    simp only [Prog.fnsAll, List.mem_append] at hP
    have i1 := denoteT hleaf hrow p hok.1 fun f hf => hP f (.inl hf)
    have i2 := denoteAllT hleaf hrow ps hok.2 fun f hf => hP f (.inr hf)
    rw [clashesAny]
    by_cases hc : clashes op p = true
    · rw [if_pos hc] at i1
      rw [if_pos (by simp [hc])]
      exact ⟨by simp only [Prog.denoteAll, i1.1, bind, Except.bind],
        fun i hi => by simp only [Prog.denoteAll, i1.2 i hi, bind, Except.bind]⟩
    · rw [if_neg hc] at i1
      obtain ⟨r, a1, a2, a3, a4⟩ := i1
      rw [Bool.eq_false_iff.2 hc, Bool.false_or]
      by_cases hd : clashesAny op ps = true
      · rw [if_pos hd] at i2 ⊢
        exact ⟨by simp only [Prog.denoteAll, a1, i2.1, bind, Except.bind],
          fun i hi => by simp only [Prog.denoteAll, a4 i hi, i2.2 i hi, bind, Except.bind]⟩
      · rw [if_neg hd] at i2 ⊢
        obtain ⟨vs, b1, b2, b3, b4⟩ := i2
        refine ⟨r :: vs, by simp only [Prog.denoteAll, a1, b1, bind, Except.bind], by rw [logicalAll, ← a2, ← b2]; rfl, ?_,
          fun i hi => by simp only [Prog.denoteAll, a4 i hi, b4 i hi, bind, Except.bind, List.map_cons]⟩
        simpa using ⟨a3, b3⟩
theorem logicalAll_length : ∀ ps : List Prog, (logicalAll op ps).length = ps.length
  | [] => rfl
  | p :: ps => by rw [logicalAll, List.length_cons, List.length_cons, logicalAll_length ps]
end

/-- The arguments of a program, as numbers. -/
def numeric (kwargs : List (String × Arr Num)) : List (String × TArr) := kwargs.map fun kx => (kx.1, .nums kx.2)

/-- The numbers of one row. -/
noncomputable def rowOf (kwargs : List (String × Arr Num)) (i : Nat) : List (String × Arr Num) :=
  kwargs.map fun kx => (kx.1, .scalar (kx.2.item i))

/-- C168: a tree over the functions for floats (without `argmax2floats`, see C73), on columns of numbers, returns
numbers. -/
def C168_statement : Prop :=
  ∀ (rnd : ℝ → Num) (op : Fn → Op) (lit : Val → Num) (c : Cfg) (p : Prog) (kwargs : List (String × Arr Num)) (n : Nat),
    p.Ok → (∀ f ∈ p.fns, f.params.length = (op f).arity) → (∀ f ∈ p.fns, op f ≠ .argmax) → (∀ kx ∈ kwargs, Of n kx.2) →
    (∀ kx ∈ kwargs, ∃ kv ∈ c.terminalSet, kv.1.data = .str kx.1) →
    (∀ kv ∈ c.terminalSet, ∃ kx ∈ kwargs, kv.1.data = .str kx.1) →
    ∃ r, execute (fun f => (op f).callT rnd) (fun v => .nums (.scalar (lit v))) c p.flatten (numeric kwargs) = .ok (.nums r)

/-- **C168 (partial): exactly what happens.**  A tree in which truth values are subtracted or negated raises
`TypeError`, whatever the data.  Every other tree returns truth values or numbers, depending on the tree alone, one per
row (or one for all rows), and the value for a row is what the tree returns for the numbers of that row. -/
theorem C168_exact_partial (rnd : ℝ → Num) (op : Fn → Op) (lit : Val → Num) (c : Cfg) (p : Prog)
    (kwargs : List (String × Arr Num)) (n : Nat) (hp : p.Ok) (har : ∀ f ∈ p.fns, f.params.length = (op f).arity)
    (hno : ∀ f ∈ p.fns, op f ≠ .argmax) (hk : ∀ kx ∈ kwargs, Of n kx.2)
    (h1 : ∀ kx ∈ kwargs, ∃ kv ∈ c.terminalSet, kv.1.data = .str kx.1)
    (h2 : ∀ kv ∈ c.terminalSet, ∃ kx ∈ kwargs, kv.1.data = .str kx.1) :
    let run := fun kw => execute (fun f => (op f).callT rnd) (fun v => .nums (.scalar (lit v))) c p.flatten (numeric kw)
    (clashes op p = true → run kwargs = .error .typeError ∧ ∀ i < n, run (rowOf kwargs i) = .error .typeError) ∧
    (clashes op p = false → ∃ r, run kwargs = .ok r ∧ r.isBool = logical op p ∧ r.Of n ∧
      ∀ i < n, run (rowOf kwargs i) = .ok (r.row i)) := by
  have hn : ∀ kw : List (String × Arr Num), (∀ kx ∈ kw, ∃ kv ∈ c.terminalSet, kv.1.data = .str kx.1) →
      (∀ kv ∈ c.terminalSet, ∃ kx ∈ kw, kv.1.data = .str kx.1) →
      execute (fun f => (op f).callT rnd) (fun v => .nums (.scalar (lit v))) c p.flatten (numeric kw)
      = p.denote (fun f => (op f).callT rnd) (leafVal (fun v => .nums (.scalar (lit v))) (kwFun (numeric kw))) := by
    intro kw k1 k2
    refine (C14_execute_kwargs_partial _ _ c p hp _).1 ⟨?_, ?_⟩
    · intro kx hkx
      obtain ⟨kx', hkx', rfl⟩ := List.mem_map.1 hkx
      exact k1 kx' hkx'
    · intro kv hkv
      obtain ⟨kx, hkx, he⟩ := k2 kv hkv
      exact ⟨(kx.1, .nums kx.2), List.mem_map.2 ⟨kx, hkx, rfl⟩, he⟩
  have e1 := hn kwargs h1 h2
  have e2 : ∀ i, execute (fun f => (op f).callT rnd) (fun v => .nums (.scalar (lit v))) c p.flatten (numeric (rowOf kwargs i))
      = p.denote (fun f => (op f).callT rnd) (leafVal (fun v => .nums (.scalar (lit v))) (kwFun (numeric (rowOf kwargs i)))) := by
    intro i
    refine hn _ ?_ ?_
    · intro kx hkx
      obtain ⟨kx', hkx', rfl⟩ := List.mem_map.1 hkx
      exact h1 kx' hkx'
    · intro kv hkv
      obtain ⟨kx, hkx, he⟩ := h2 kv hkv
      exact ⟨(kx.1, _), List.mem_map.2 ⟨kx, hkx, rfl⟩, he⟩
  have k0 : ∀ (kw : List (String × Arr Num)) name, kwFun (numeric kw) name = (kwFun kw name).map .nums := by
    intro kw name
    unfold kwFun numeric
    rw [List.find?_map, Option.map_map, Option.map_map]
    rfl
  have k1 : ∀ i name, kwFun (rowOf kwargs i) name = (kwFun kwargs name).map fun a => .scalar (a.item i) := by
    intro i name
    unfold kwFun rowOf
    rw [List.find?_map, Option.map_map, Option.map_map]
    rfl
  have key := denoteT (n := n) (rnd := rnd) (op := op)
    (leaf := leafVal (fun v => .nums (.scalar (lit v))) (kwFun (numeric kwargs)))
    (leaf' := fun i => leafVal (fun v => .nums (.scalar (lit v))) (kwFun (numeric (rowOf kwargs i))))
    (by
      intro v
      unfold leafVal
      split
      · rename_i name _
        rw [k0]
        cases hkw : kwFun kwargs name with
        | none => exact ⟨.inl rfl, rfl⟩
        | some a =>
          unfold kwFun at hkw
          rw [Option.map_eq_some_iff] at hkw
          obtain ⟨kx, hf, rfl⟩ := hkw
          exact ⟨hk kx (List.mem_of_find?_eq_some hf), rfl⟩
      · exact ⟨.inl rfl, rfl⟩)
    (by
      intro v i _
      unfold leafVal
      split
      · rename_i name _
        rw [k0, k0, k1]
        cases kwFun kwargs name <;> rfl
      · rfl)
    p hp fun f hf => ⟨har f hf, hno f hf⟩
  dsimp only
  rw [e1]
  simp only [e2]
  constructor
  · intro hc
    rwa [if_pos hc] at key
  · intro hc
    rwa [if_neg (by simp [hc])] at key

/-- On numbers, the functions that return numbers are those of `Primitives`. -/
theorem callT_numeric (rnd : ℝ → Num) (op : Op) (h : op ≠ .logicalAnd ∧ op ≠ .logicalOr) (args : List (Arr Num)) :
    op.callT rnd (args.map .nums) = (op.call rnd args).map .nums := by
  have e : (args.map TArr.nums).map TArr.toNum = args := by rw [List.map_map]; exact List.map_id args
  have hb : ∀ t ∈ args.map TArr.nums, t.isBool = false := by
    intro t ht
    obtain ⟨a, -, rfl⟩ := List.mem_map.1 ht
    rfl
  have d : op.callT rnd (args.map .nums) = (op.call rnd ((args.map TArr.nums).map TArr.toNum)).map .nums := by
    generalize args.map TArr.nums = ts at hb
    unfold Op.callT
    split <;> simp_all [TArr.isBool]
  rw [d, e]


/-- **C168 (partial): functions that return numbers.**  A tree without the logical functions of floats and ints (and
without `argmax2floats`) returns the numbers that it returns when types are not considered, so that C73, C77 and C78
tell what they are. -/
theorem C168_numbers_partial (rnd : ℝ → Num) (op : Fn → Op) (lit : Val → Num) (c : Cfg) (p : Prog)
    (kwargs : List (String × Arr Num)) (n : Nat) (hp : p.Ok) (har : ∀ f ∈ p.fns, f.params.length = (op f).arity)
    (hno : ∀ f ∈ p.fns, (op f).Numeric) (hk : ∀ kx ∈ kwargs, Of n kx.2)
    (h1 : ∀ kx ∈ kwargs, ∃ kv ∈ c.terminalSet, kv.1.data = .str kx.1)
    (h2 : ∀ kv ∈ c.terminalSet, ∃ kx ∈ kwargs, kv.1.data = .str kx.1) :
    ∃ r, execute (fun f => (op f).callT rnd) (fun v => .nums (.scalar (lit v))) c p.flatten (numeric kwargs) = .ok (.nums r) ∧
      execute (fun f => (op f).call rnd) (fun v => .scalar (lit v)) c p.flatten kwargs = .ok r ∧ Of n r := by
  rw [(C14_execute_kwargs_partial _ _ c p hp kwargs).1 ⟨h1, h2⟩, (C14_execute_kwargs_partial _ _ c p hp (numeric kwargs)).1 ⟨?_, ?_⟩]
  · obtain ⟨v, w, k1, k2, k3, k4⟩ := denote_rel (sem := fun f => (op f).callT rnd) (sem' := fun f => (op f).call rnd)
      (leaf := leafVal (fun v => .nums (.scalar (lit v))) (kwFun (numeric kwargs)))
      (leaf' := leafVal (fun v => .scalar (lit v)) (kwFun kwargs))
      (R := fun (a : TArr) (b : Arr Num) => a = .nums b ∧ Of n b)
      (P := fun f => f.params.length = (op f).arity ∧ (op f).Numeric) (by
        intro v
        unfold leafVal
        split
        · rename_i name _
          have k0 : kwFun (numeric kwargs) name = (kwFun kwargs name).map .nums := by
            unfold kwFun numeric
            rw [List.find?_map, Option.map_map, Option.map_map]
            rfl
          rw [k0]
          cases hkw : kwFun kwargs name with
          | none => exact ⟨rfl, .inl rfl⟩
          | some a =>
            unfold kwFun at hkw
            rw [Option.map_eq_some_iff] at hkw
            obtain ⟨kx, hf, rfl⟩ := hkw
            exact ⟨rfl, hk kx (List.mem_of_find?_eq_some hf)⟩
        · exact ⟨rfl, .inl rfl⟩)
      (by
        intro f vs ws hP hl hvw
        have e : vs = ws.map .nums ∧ ∀ a ∈ ws, Of n a := by
          clear hl
          induction hvw with
          | nil => simp
          | cons h _ ih => obtain ⟨rfl, h⟩ := h; obtain ⟨rfl, ih⟩ := ih; exact ⟨rfl, by simpa using ⟨h, ih⟩⟩
        obtain ⟨rfl, e⟩ := e
        obtain ⟨r, hr, ho⟩ := call_total rnd (op f) hP.2.1 ws (by rw [← hP.1, ← hl, List.length_map]) e
        exact ⟨.nums r, r, by rw [callT_numeric rnd (op f) hP.2.2, hr]; rfl, hr, rfl, ho⟩)
      p hp fun f hf => ⟨har f hf, hno f hf⟩
    subst k3
    exact ⟨w, k1, k2, k4⟩
  · intro kx hkx
    obtain ⟨kx', hkx', rfl⟩ := List.mem_map.1 hkx
    exact h1 kx' hkx'
  · intro kv hkv
    obtain ⟨kx, hkx, he⟩ := h2 kv hkv
    exact ⟨(kx.1, .nums kx.2), List.mem_map.2 ⟨kx, hkx, rfl⟩, he⟩

/-- **C168 (partial): the trees that return numbers.**  A tree returns numbers for every data set exactly if it neither
subtracts nor negates truth values and its own value is not one of truth. -/
theorem C168_iff_partial (rnd : ℝ → Num) (op : Fn → Op) (lit : Val → Num) (c : Cfg) (p : Prog)
    (kwargs : List (String × Arr Num)) (n : Nat) (hp : p.Ok) (har : ∀ f ∈ p.fns, f.params.length = (op f).arity)
    (hno : ∀ f ∈ p.fns, op f ≠ .argmax) (hk : ∀ kx ∈ kwargs, Of n kx.2)
    (h1 : ∀ kx ∈ kwargs, ∃ kv ∈ c.terminalSet, kv.1.data = .str kx.1)
    (h2 : ∀ kv ∈ c.terminalSet, ∃ kx ∈ kwargs, kv.1.data = .str kx.1) :
    (∃ r, execute (fun f => (op f).callT rnd) (fun v => .nums (.scalar (lit v))) c p.flatten (numeric kwargs) = .ok (.nums r)) ↔
      clashes op p = false ∧ logical op p = false := by
  have h := C168_exact_partial rnd op lit c p kwargs n hp har hno hk h1 h2
  dsimp only at h
  cases hc : clashes op p with
  | true =>
    rw [(h.1 hc).1]
    simp
  | false =>
    obtain ⟨r, hr, hb, -, -⟩ := h.2 hc
    rw [hr, ← hb]
    cases r <;> simp [TArr.isBool]

/-- **C168 (partial): sums and products of truth values.**  They are not the sums and products of the numbers 0 and 1
that C77 promises: the sum is the disjunction, so that adding two arrays of truths gives truths and not twos. -/
theorem C168_sums_partial (rnd : ℝ → Num) {n : Nat} (x y : Arr Bool) (hx : Of n x) (hy : Of n y) :
    (∃ r, Op.callT rnd .add [.bools x, .bools y] = .ok (.bools r) ∧ Of n r ∧
      ∀ i < n, r.item i = (x.item i || y.item i)) ∧
    (∃ r, Op.callT rnd .mul [.bools x, .bools y] = .ok (.bools r) ∧ Of n r ∧
      ∀ i < n, r.item i = (x.item i && y.item i)) := by
  have key : ∀ f : Bool → Bool → Bool, ∃ r, map2 f x y = .ok r ∧ Of n r ∧ ∀ i < n, r.item i = f (x.item i) (y.item i) := by
    intro f
    obtain ⟨r, hr, hg⟩ := map2_gives f hx hy
    have ho : Of n r := hg.of (by simpa using ⟨hx, hy⟩)
    exact ⟨r, hr, ho, fun i hi => hg.item i (inShape_lt ho hi)⟩
  obtain ⟨r, h1, h2, h3⟩ := key (· || ·)
  obtain ⟨q, k1, k2, k3⟩ := key (· && ·)
  exact ⟨⟨r, by simp only [Op.callT]; rw [h1]; rfl, h2, h3⟩, ⟨q, by simp only [Op.callT]; rw [k1]; rfl, k2, k3⟩⟩

/-! ## A tree that raises -/

/-- `sub2floats` and `and2floats`. -/
def subFn : Fn := ⟨0, [none, none], none⟩
def andFn : Fn := ⟨1, [none, none], none⟩
def notFn : Fn := ⟨2, [none], none⟩

/-- Which functions they are. -/
def exOp (f : Fn) : Op := if f = subFn then .sub else if f = notFn then .not else .logicalAnd

/-- The terminal `x0`. -/
def exX : Prog := .term ⟨1, .str "x0"⟩ none

/-- `sub2floats(and2floats(x0, x0), and2floats(x0, x0))` -/
def exBad : Prog := .app subFn [.app andFn [exX, exX], .app andFn [exX, exX]]

/-- `sub2floats(not2floats(and2floats(x0, x0)), and2floats(x0, x0))` -/
def exGood : Prog := .app subFn [.app notFn [.app andFn [exX, exX]], .app andFn [exX, exX]]

/-- The configuration with the variable `x0`. -/
def exCfg : Cfg := ⟨[subFn, andFn, notFn], [(⟨1, .str "x0"⟩, none)], none, none⟩

/-- C168 is false: the difference of two conjunctions raises `TypeError`. -/
theorem C168_refuted : ¬ C168_statement := by
  intro h
  have h := h .fin exOp (fun _ => .fin 1) exCfg exBad [("x0", .vec [.fin 1, .fin 2])] 2
    (by simp [exBad, exX, Prog.Ok, Prog.OkAll, subFn, andFn]) (by decide +kernel) (by decide +kernel) (by simp [Of, Arr.shape])
    (by simp [exCfg]) (by simp [exCfg])
  rw [C168_iff_partial .fin exOp (fun _ => .fin 1) exCfg exBad [("x0", .vec [.fin 1, .fin 2])] 2
    (by simp [exBad, exX, Prog.Ok, Prog.OkAll, subFn, andFn]) (by decide +kernel) (by decide +kernel) (by simp [Of, Arr.shape])
    (by simp [exCfg]) (by simp [exCfg])] at h
  revert h
  decide +kernel

example := (C168_exact_partial .fin exOp (fun _ => .fin 1) exCfg exGood [("x0", .vec [.fin 1, .fin 2])] 2
    (by simp [exGood, exX, Prog.Ok, Prog.OkAll, subFn, andFn, notFn]) (by decide +kernel) (by decide +kernel) (by simp [Of, Arr.shape])
    (by simp [exCfg]) (by simp [exCfg])).2 (by decide +kernel)
example := (C168_iff_partial .fin exOp (fun _ => .fin 1) exCfg exGood [("x0", .vec [.fin 1, .fin 2])] 2
    (by simp [exGood, exX, Prog.Ok, Prog.OkAll, subFn, andFn, notFn]) (by decide +kernel) (by decide +kernel) (by simp [Of, Arr.shape])
    (by simp [exCfg]) (by simp [exCfg])).2 (by decide +kernel)
example := C168_numbers_partial .fin (fun _ => .div) (fun _ => .fin 1) ⟨[], [(⟨1, .str "x0"⟩, none)], none, none⟩
  (.app ⟨0, [none, none], none⟩ [.term ⟨0, .int 1⟩ none, .term ⟨1, .str "x0"⟩ none]) [("x0", .vec [.fin 0, .fin 2])] 2
    (by simp [Prog.Ok, Prog.OkAll]) (by simp [Prog.fns, Prog.fnsAll, Op.arity]) (by simp [Op.Numeric]) (by simp [Of, Arr.shape]) (by simp) (by simp)
example := C168_sums_partial (n := 2) .fin (.vec [true, false]) (.scalar true) (by simp [Of, Arr.shape]) (by simp [Of, Arr.shape])

end run
end Verif.Prim
