import Verif.Lemmas.Depth
import Verif.Lemmas.Subtree

/-!
# C01–C04: executing, measuring and editing a GP tree
-/

namespace Verif.GP
open PyM

/-! ## Sample data used in the examples -/
namespace Sample

/-- an untyped binary function -/
def add : Fn := ⟨0, [none, none], none⟩
/-- an untyped binary function -/
def mul : Fn := ⟨1, [none, none], none⟩
/-- an untyped unary function -/
def neg : Fn := ⟨2, [none], none⟩
def x : Val := ⟨0, .str "x"⟩
def y : Val := ⟨1, .str "y"⟩
def two : Val := ⟨2, .int 2⟩
/-- `add(mul(x, 2), neg(x))` -/
def prog : Prog :=
  .app add [.app mul [.term x none, .term two none], .app neg [.term x none]]

/-- A meaning for the functions; `neg` raises on negative numbers. -/
def sem (f : Fn) (vs : List ℤ) : Except Err ℤ :=
  match f.id, vs with
  | 0, [a, b] => .ok (a + b)
  | 1, [a, b] => .ok (a * b)
  | 2, [a] => if a < 0 then .error (.user 7) else .ok (-a)
  | _, _ => .error .typeError

def lit (v : Val) : ℤ := match v.data with
  | .int z => z
  | _ => 0

def cfg : Cfg := ⟨[add, mul, neg], [(x, none), (y, none)], none, none⟩

end Sample

/-! ## C01 -/

/-- **C01.** Executing the listing of a program yields the value of the program: arguments evaluated
left to right, bound names replaced by their bindings, other terminals standing for themselves,
exceptions propagating (both sides are `Except`).  The cursor ends on the last node, i.e. exactly the
whole list is consumed. -/
theorem C01_execute_denotes {V : Type} (sem : Fn → List V → Except Err V) (lit : Val → V)
    (kw : String → Option V) (p : Prog) (hp : p.Ok) :
    executeKw sem lit kw p.flatten = p.denote sem (leafVal lit kw) ∧
    executeAt sem lit kw p.flatten (p.flatten.length + 1) 0 =
      (p.denote sem (leafVal lit kw)).map fun v => (v, p.flatten.length - 1) := by
  have h := executeAt_listing sem lit kw p.flatten (p.flatten.length + 1) p hp
    (by rw [Prog.length_flatten]; omega) [] [] (by simp)
  simp only [List.length_nil, Nat.zero_add] at h
  refine ⟨?_, by rw [h, Prog.length_flatten]⟩
  unfold executeKw
  rw [if_neg p.flatten_ne_nil, h]
  cases p.denote sem (leafVal lit kw) <;> rfl

/-- Non-vacuity of C01: `add(mul(x, 2), neg(x))` at `x = 5` is `5`, at `x = -1` the exception of
`neg` propagates. -/
example : Sample.prog.Ok ∧
    executeKw Sample.sem Sample.lit (fun s => if s = "x" then some 5 else none)
      Sample.prog.flatten = .ok 5 ∧
    executeKw Sample.sem Sample.lit (fun s => if s = "x" then some (-1) else none)
      Sample.prog.flatten = .error (.user 7) := by
  refine ⟨?_, ?_, ?_⟩
  · simp [Sample.prog, Prog.Ok, Prog.OkAll, Sample.add, Sample.mul, Sample.neg]
  · rfl
  · rfl

/-- Nodes after a complete program are never visited. -/
theorem C01_trailing_ignored {V : Type} (sem : Fn → List V → Except Err V) (lit : Val → V)
    (kw : String → Option V) (p : Prog) (hp : p.Ok) (junk : List Node) :
    executeKw sem lit kw (p.flatten ++ junk) = p.denote sem (leafVal lit kw) := by
  have h := executeAt_listing sem lit kw (p.flatten ++ junk) ((p.flatten ++ junk).length + 1) p hp
    (by rw [List.length_append, Prog.length_flatten]; omega) [] junk (by simp)
  simp only [List.length_nil] at h
  unfold executeKw
  rw [if_neg (by simp [p.flatten_ne_nil]), h]
  cases p.denote sem (leafVal lit kw) <;> rfl

/-! ## C02 -/

/-- **C02.** `size()` is the number of nodes. -/
theorem C02_size (p : Prog) : size p.flatten = p.size := Prog.length_flatten p

/-- **C02.** If no function is nullary, `depth()` is the largest distance of a leaf from the root, and
it is smaller than the size. -/
theorem C02_depth (p : Prog) (hp : p.Ok) (hf : ∀ f ∈ p.fns, f.params ≠ []) :
    ∃ d, depth p.flatten = .ok d ∧ d ∈ p.leafDepths ∧ (∀ e ∈ p.leafDepths, e ≤ d) ∧ d < p.size := by
  obtain ⟨d, h1, h2, h3⟩ := depthE_ok p hp hf
  have h := depthAt_listing p.flatten (p.flatten.length + 1) p hp
    (by rw [Prog.length_flatten]; omega) [] [] (by simp)
  refine ⟨d, ?_, h2, h3, leafDepth_lt_size p d h2⟩
  simp only [List.length_nil] at h
  unfold depth
  rw [h, h1]; rfl

/-- **C02.** With a zero-argument function anywhere in the tree `depth()` raises `ValueError`
(`max()` of an empty list), and on the empty tree `IndexError`. -/
theorem C02_depth_raises (p : Prog) (hp : p.Ok) (hf : ∃ f ∈ p.fns, f.params = []) :
    depth p.flatten = .error .valueError ∧ depth [] = .error .indexError := by
  have h := depthAt_listing p.flatten (p.flatten.length + 1) p hp
    (by rw [Prog.length_flatten]; omega) [] [] (by simp)
  simp only [List.length_nil] at h
  refine ⟨?_, rfl⟩
  unfold depth
  rw [h, depthE_nullary p hp hf]; rfl

example : Sample.prog.Ok ∧ (∀ f ∈ Sample.prog.fns, f.params ≠ []) ∧
    depth Sample.prog.flatten = .ok 2 ∧ size Sample.prog.flatten = 6 := by
  refine ⟨?_, ?_, rfl, rfl⟩
  · simp [Sample.prog, Prog.Ok, Prog.OkAll, Sample.add, Sample.mul, Sample.neg]
  · simp [Sample.prog, Prog.fns, Prog.fnsAll, Sample.add, Sample.mul, Sample.neg]

example : let p : Prog := .app Sample.neg [.app ⟨9, [], none⟩ []]
    p.Ok ∧ (∃ f ∈ p.fns, f.params = []) := by
  simp [Prog.Ok, Prog.OkAll, Prog.fns, Prog.fnsAll, Sample.neg]

/-! ## C03 -/

/-- **C03.** On a legal program, whatever is drawn, `random_subtree` returns the listing of one
complete sub-program — a contiguous block of the node list — whose root node qualifies for the
requested type; it returns `None` exactly when no node qualifies; it never raises. -/
theorem C03_randomSubtree (fs : List Fn) (p : Prog) (hp : p.Ok) (hfs : ∀ f ∈ p.fns, f ∈ fs)
    (τ : Option Ty) (tape : Tape) :
    ∃ (res : Option (List Node)) (tape' : Tape),
      randomSubtree fs p.flatten τ tape = (.ok res, tape') ∧
      (res = none ↔ ∀ root n, p.flatten.head? = some root → n ∈ p.flatten →
        ¬ Qualifies τ root n) ∧
      ∀ st, res = some st → ∃ (q : Prog) (pre post : List Node) (root r : Node),
        q.Sub p ∧ st = q.flatten ∧ p.flatten = pre ++ st ++ post ∧
        p.flatten.head? = some root ∧ st.head? = some r ∧ Qualifies τ root r := by
  obtain ⟨res, tape', hrun⟩ := randomSubtree_total hp hfs τ tape
  refine ⟨res, tape', hrun, ?_, ?_⟩
  · have hpost := randomSubtree_listing hp hfs τ tape res tape' hrun
    constructor
    · rintro rfl root n hroot hn hq
      have hpost : relevantNodes p.flatten τ = [] := hpost
      have : n ∈ relevantNodes p.flatten τ :=
        mem_relevantNodes.2 ⟨hn, fun r hr => by
          rw [hroot] at hr; cases hr; exact hq⟩
      rw [hpost] at this; simp at this
    · intro hno
      cases res with
      | none => rfl
      | some st =>
        obtain ⟨c, q, n, -, -, -, hrel, -⟩ := hpost
        obtain ⟨h1, h2⟩ := mem_relevantNodes.1 hrel
        obtain ⟨r, tl, hr⟩ := List.exists_cons_of_ne_nil p.flatten_ne_nil
        exact absurd (h2 r (by simp [hr])) (hno r n (by simp [hr]) h1)
  · rintro st rfl
    obtain ⟨c, q, n, hpc, rfl, hhead, hrel, -⟩ :=
      randomSubtree_listing hp hfs τ tape _ tape' hrun
    obtain ⟨h1, h2⟩ := mem_relevantNodes.1 hrel
    obtain ⟨r, tl, hr⟩ := List.exists_cons_of_ne_nil p.flatten_ne_nil
    obtain ⟨pre, post, hfill⟩ := c.flatten_fill
    refine ⟨q, pre, post, r, n, hpc ▸ c.fill_sub q, rfl, by rw [hpc]; exact hfill q, by simp [hr],
      hhead, h2 r (by simp [hr])⟩

/-- **C03, typed form.** If all nodes of the tree are typed, a sub-program returned for a requested
type `τ` has root type `τ`; and it is never the whole program. -/
theorem C03_randomSubtree_typed (fs : List Fn) (p : Prog) (hp : p.Ok) (hfs : ∀ f ∈ p.fns, f ∈ fs)
    (hl : ∀ f ∈ p.fns, f.Legal) (hty : ∀ n ∈ p.flatten, n.type ≠ none) (τ : Ty)
    (tape tape' : Tape) (st : List Node)
    (hrun : randomSubtree fs p.flatten (some τ) tape = (.ok (some st), tape')) :
    ∃ q : Prog, q.Sub p ∧ q ≠ p ∧ st = q.flatten ∧ q.rootType = some τ := by
  obtain ⟨c, q, n, hpc, rfl, hhead, hrel, -⟩ := randomSubtree_listing hp hfs _ tape _ tape' hrun
  obtain ⟨h1, h2⟩ := mem_relevantNodes.1 hrel
  obtain ⟨r, tl, hr⟩ := List.exists_cons_of_ne_nil p.flatten_ne_nil
  have hq := h2 r (by simp [hr])
  have hnt : n.type ≠ none := hty n h1
  have hqt : n.type = q.rootType := by
    refine head_type (fun f hf => hl f ?_) hhead
    rw [Prog.mem_fns_iff] at hf ⊢
    obtain ⟨pre, post, hfill⟩ := c.flatten_fill
    rw [hpc, hfill q]; simp [hf]
  refine ⟨q, hpc ▸ c.fill_sub q, ?_, rfl, ?_⟩
  · rintro rfl
    rcases hq with h | ⟨h, -⟩
    · exact hnt h
    · rw [hr] at hhead; simp at hhead; exact h hhead.symm
  · rcases hq with h | ⟨-, h⟩
    · exact absurd h hnt
    · simp only [reduceCtorEq, false_or] at h
      rw [← hqt, h]

example : Sample.prog.Ok ∧ (∀ f ∈ Sample.prog.fns, f ∈ Sample.cfg.functionSet) ∧
    (randomSubtree Sample.cfg.functionSet Sample.prog.flatten none (fun _ => 1)).1
      = .ok (some [.func Sample.mul, .term Sample.x none, .term Sample.two none]) := by
  refine ⟨?_, ?_, rfl⟩
  · simp [Sample.prog, Prog.Ok, Prog.OkAll, Sample.add, Sample.mul, Sample.neg]
  · simp [Sample.prog, Prog.fns, Prog.fnsAll, Sample.cfg]

/-! ## C04 -/

/-- **C04.** Replace a subtree that `random_subtree` returned by the listing of any legal program `r`:
the result is the listing of the program in which exactly that sub-program was exchanged for `r`
(everything else untouched); it is legal again; its size changes by the difference of the blocks. -/
theorem C04_replaceSubtree (fs : List Fn) (p : Prog) (hp : p.Ok) (hfs : ∀ f ∈ p.fns, f ∈ fs)
    (τ : Option Ty) (tape tape' : Tape) (st : List Node)
    (hrun : randomSubtree fs p.flatten τ tape = (.ok (some st), tape')) (r : Prog) (hr : r.Ok) :
    ∃ (c : Ctx) (q : Prog), p = c.fill q ∧ st = q.flatten ∧ (c.fill r).Ok ∧
      replaceSubtree p.flatten st r.flatten = .ok (c.fill r).flatten ∧
      (c.fill r).size + q.size = p.size + r.size := by
  obtain ⟨c, q, n, hpc, rfl, -, -, hrep⟩ := randomSubtree_listing hp hfs _ tape _ tape' hrun
  refine ⟨c, q, hpc, rfl, Ctx.fill_ok (hpc ▸ hp) hr, hrep r, ?_⟩
  obtain ⟨pre, post, hfill⟩ := c.flatten_fill
  have h1 := congrArg List.length (hfill r)
  have h2 := congrArg List.length (hfill q)
  rw [← hpc] at h2
  simp only [List.length_append, Prog.length_flatten] at h1 h2
  omega

/-- **C04, typed form.** In a well-typed tree of legal functions, replacing the returned sub-program
by any program of the same root type gives a tree of the same type. -/
theorem C04_replaceSubtree_typed (fs : List Fn) (p : Prog) (ρ : Option Ty) (hp : p.HasType ρ)
    (hfs : ∀ f ∈ p.fns, f ∈ fs) (hl : ∀ f ∈ p.fns, f.Legal)
    (τ : Option Ty) (tape tape' : Tape) (st : List Node)
    (hrun : randomSubtree fs p.flatten τ tape = (.ok (some st), tape')) (r : Prog) (s0 : Node)
    (hs0 : st.head? = some s0) (hr : r.HasType s0.type) :
    ∃ p' : Prog, replaceSubtree p.flatten st r.flatten = .ok p'.flatten ∧ p'.HasType ρ := by
  obtain ⟨c, q, n, hpc, rfl, hhead, -, hrep⟩ := randomSubtree_listing hp.ok hfs _ tape _ tape' hrun
  refine ⟨c.fill r, hrep r, ?_⟩
  obtain ⟨σ, h1, h2⟩ := Ctx.fill_hasType (hpc ▸ hp)
  refine h2 r ?_
  have hqt : s0.type = q.rootType := by
    refine head_type (fun f hf => hl f ?_) hs0
    rw [Prog.mem_fns_iff] at hf ⊢
    obtain ⟨pre, post, hfill⟩ := c.flatten_fill
    rw [hpc, hfill q]; simp [hf]
  rw [HasType.rootType h1, ← hqt]; exact hr

/-- Non-vacuity of C04: replacing `mul(x, 2)` by `y` in `add(mul(x, 2), neg(x))`. -/
example : (∃ t', randomSubtree Sample.cfg.functionSet Sample.prog.flatten none (fun _ => 1)
      = (.ok (some [.func Sample.mul, .term Sample.x none, .term Sample.two none]), t')) ∧
    Sample.prog.HasType none ∧
    replaceSubtree Sample.prog.flatten
      [.func Sample.mul, .term Sample.x none, .term Sample.two none] [.term Sample.y none]
    = .ok [.func Sample.add, .term Sample.y none, .func Sample.neg, .term Sample.x none] := by
  refine ⟨⟨_, rfl⟩, ?_, rfl⟩
  simp [Sample.prog, Prog.HasType, Prog.HaveTypes, Sample.add, Sample.mul, Sample.neg]

end Verif.GP
