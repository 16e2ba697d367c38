import Verif.Lemmas.AddTree
import Verif.Lemmas.Typing
import Verif.Model.Matrix
import Verif.Props.GPTree
import Mathlib.Algebra.Order.Field.Basic
import Mathlib.Algebra.Order.Group.Abs
import Mathlib.Tactic.Linarith
import Mathlib.Tactic.Positivity
import Std.Data.String.ToNat

/-!
# C13, C14, C15: building trees node by node, keyword arguments, data matrices
-/

namespace Verif.GP
open PyM

/-! ## C13 -/

/-- The full form of C13: a node is accepted exactly when its type is the declared type of the open
slot, otherwise `ValueError`. -/
def C13_statement : Prop :=
  ∀ (root : Option Ty) (p : Part) (n : Node), p.Ok → (∀ f ∈ p.path, f.Legal) →
    addTree root p.flatten n =
      if n.type = p.slotType root then .ok (p.flatten ++ [n]) else .error .valueError

/-- What `add_tree` really does on a partially built tree. -/
theorem addTree_part (root : Option Ty) (p : Part) (n : Node) (hp : p.Ok)
    (hl : ∀ f ∈ p.path, f.Legal) :
    addTree root p.flatten n =
      if p.codeAccepts n.type then .ok (p.flatten ++ [n]) else .error .valueError := by
  obtain ⟨k, hk⟩ := shouldAdd_part p.flatten p hp hl (p.flatten.length + 2) n.type []
    (by omega) (by simp)
  unfold addTree
  simp only [List.length_nil] at hk
  rw [hk]
  by_cases h0 : p.flatten.length = 0 ∧ n.type = root
  · rw [if_pos h0]
    cases p with
    | slot => simp [Part.codeAccepts]
    | app f done p => simp [Part.flatten] at h0
  · rw [if_neg h0]
    simp only [bind, Except.bind]
    cases hb : p.codeAccepts n.type <;> simp

/-- **C13 (partial).** (1) A complete tree accepts no further node.  (2) For an argument of the root
function the test is exact: the node is accepted exactly when it has the declared type.  (3) In
untyped mode every partially built tree accepts every untyped node.  In all cases the outcome is
either the tree with the node appended or `ValueError`.
Missing: the root of a typed tree and slots below the second level, where the code's test is wrong
(`C13_refuted_root`, `C13_refuted_deep`). -/
theorem C13_addTree_partial :
    (∀ (root : Option Ty) (p : Prog) (n : Node), p.Ok →
      addTree root p.flatten n = .error .valueError) ∧
    (∀ (root : Option Ty) (f : Fn) (done : List Prog) (n : Node), f.Legal →
      (Part.app f done .slot).Ok →
      addTree root (Part.app f done .slot).flatten n =
        if n.type = (Part.app f done .slot).slotType root
        then .ok ((Part.app f done .slot).flatten ++ [n]) else .error .valueError) ∧
    (∀ (root : Option Ty) (p : Part) (n : Node), p.Ok →
      (∀ f ∈ p.path, (∀ t ∈ f.params, t = none) ∧ f.ret = none) → n.type = none →
      addTree root p.flatten n = .ok (p.flatten ++ [n])) := by
  refine ⟨?_, ?_, ?_⟩
  · intro root p n hp
    have h := shouldAdd_complete p.flatten p hp (p.flatten.length + 2) n.type [] []
      (by rw [Prog.length_flatten]; omega) (by simp)
    unfold addTree
    simp only [List.length_nil] at h
    rw [if_neg (by
      intro h0
      exact p.flatten_ne_nil (List.length_eq_zero_iff.1 h0.1)), h]
    simp [bind, Except.bind]
  · intro root f done n hl hok
    rw [addTree_part root _ n hok (by simp [Part.path, hl])]
    have hs : (Part.app f done .slot).slotType root = f.params[done.length]?.join := rfl
    rw [hs]
    simp only [Part.codeAccepts, Bool.true_and, decide_eq_true_eq]
    by_cases h : n.type = f.params[done.length]?.join
    · rw [if_pos h.symm, if_pos h]
    · rw [if_neg (fun e => h e.symm), if_neg h]
  · intro root p n hok hu hn
    rw [addTree_part root p n hok fun f hf => .inr (hu f hf)]
    have : ∀ p : Part, p.Ok → (∀ f ∈ p.path, (∀ t ∈ f.params, t = none) ∧ f.ret = none) →
        p.codeAccepts none = true := by
      intro p
      induction p with
      | slot => intros; rfl
      | app f done p ih =>
        intro hok hu
        have hf := hu f (by simp [Part.path])
        simp only [Part.codeAccepts, hf.2, ih hok.2.2 fun g hg => hu g (by simp [Part.path, hg]),
          Bool.true_and, decide_eq_true_eq]
        have h1 := hok.1
        rw [List.getElem?_eq_getElem h1, hf.1 _ (List.getElem_mem h1)]
        rfl
    rw [hn, if_pos (this p hok hu)]

namespace Build

/-- `g(x: float) -> int` -/
def g : Fn := ⟨0, [some .float], some .int⟩
/-- `h(i: int) -> str` -/
def h : Fn := ⟨1, [some .int], some .str⟩
def v : Val := ⟨0, .str "v"⟩

/-- `h(g(_))` under construction: the open slot has type `float`. -/
def part : Part := .app h [] (.app g [] .slot)

/-- Hypotheses of C13 are satisfiable at depth 1 and 2. -/
example : part.Ok ∧ (∀ f ∈ part.path, f.Legal) ∧ part.slotType (some .str) = some .float ∧
    (Part.app h [] .slot).Ok ∧
    addTree (some .str) (Part.app h [] .slot).flatten (.term v (some .int)) =
      .ok [.func h, .term v (some .int)] := by
  refine ⟨by simp [part, Part.Ok, Prog.OkAll, g, h], ?_, rfl,
    by simp [Part.Ok, Prog.OkAll, h], rfl⟩
  simp [part, Part.path, Fn.Legal, g, h]

end Build

/-- **C13 is false for the root.** An empty tree with root type `str` accepts an `int` terminal. -/
theorem C13_refuted_root :
    addTree (some .str) Part.slot.flatten (.term Build.v (some .int)) =
      .ok [.term Build.v (some .int)] ∧ Part.slot.slotType (some .str) = some .str := ⟨rfl, rfl⟩

/-- **C13 is false below the second level.** In `h(g(_))` the open slot has type `float`, but a
`float` terminal is rejected. -/
theorem C13_refuted_deep :
    addTree (some .str) Build.part.flatten (.term Build.v (some .float)) = .error .valueError ∧
      Build.part.slotType (some .str) = some .float := ⟨rfl, rfl⟩

/-- **C13 in full is false.** -/
theorem C13_refuted : ¬ C13_statement := by
  intro h
  have := h (some .str) .slot (.term Build.v (some .int)) trivial (by simp [Part.path])
  rw [C13_refuted_root.1, if_neg (by simp [Node.type, Part.slotType])] at this
  simp at this

/-! ## C14 -/

theorem pyEq_str {d : Data} {s : String} : d.pyEq (.str s) = true ↔ d = .str s := by
  unfold Data.pyEq
  cases d <;> simp [Data.num?]

theorem pyEq_str' {d : Data} {s : String} : d.pyEq (.str s) = false ↔ d ≠ .str s := by
  rw [← Bool.not_eq_true, pyEq_str]

/-- **C14 (partial).** On a non-empty tree `execute` accepts the keyword arguments exactly when every
keyword is a terminal and every terminal is (the name of) a keyword; then it computes the value of
the program under the bindings.  Otherwise, and on the empty tree, it raises `ValueError`.
Missing: a constant in the terminal set makes every call fail (`C14_refuted`). -/
theorem C14_execute_kwargs_partial {V : Type} (sem : Fn → List V → Except Err V) (lit : Val → V)
    (c : Cfg) (p : Prog) (hp : p.Ok) (kwargs : List (String × V)) :
    (((∀ kx ∈ kwargs, ∃ kv ∈ c.terminalSet, kv.1.data = .str kx.1) ∧
      (∀ kv ∈ c.terminalSet, ∃ kx ∈ kwargs, kv.1.data = .str kx.1)) →
      execute sem lit c p.flatten kwargs = p.denote sem (leafVal lit (kwFun kwargs))) ∧
    (¬ ((∀ kx ∈ kwargs, ∃ kv ∈ c.terminalSet, kv.1.data = .str kx.1) ∧
      (∀ kv ∈ c.terminalSet, ∃ kx ∈ kwargs, kv.1.data = .str kx.1)) →
      execute sem lit c p.flatten kwargs = .error .valueError) ∧
    execute sem lit c [] kwargs = .error .valueError := by
  have hbad : ((kwargs.map (·.1)).any fun k => !(c.terminalSet.any fun kv => kv.1.data.pyEq (.str k)))
      = true ↔ ¬ ∀ kx ∈ kwargs, ∃ kv ∈ c.terminalSet, kv.1.data = .str kx.1 := by
    simp [pyEq_str']
  have hmiss : (c.terminalSet.any fun kv => !((kwargs.map (·.1)).any fun k => kv.1.data.pyEq (.str k)))
      = true ↔ ¬ ∀ kv ∈ c.terminalSet, ∃ kx ∈ kwargs, kv.1.data = .str kx.1 := by
    simp [pyEq_str']
  refine ⟨?_, ?_, by simp [execute]⟩
  · rintro ⟨h1, h2⟩
    unfold execute checkKwargs
    rw [if_neg p.flatten_ne_nil, if_neg (by rw [hbad]; exact not_not_intro h1),
      if_neg (by rw [hmiss]; exact not_not_intro h2)]
    exact (C01_execute_denotes sem lit (kwFun kwargs) p hp).1
  · intro h
    unfold execute checkKwargs
    rw [if_neg p.flatten_ne_nil]
    by_cases h1 : ∀ kx ∈ kwargs, ∃ kv ∈ c.terminalSet, kv.1.data = .str kx.1
    · have h2 : ¬ ∀ kv ∈ c.terminalSet, ∃ kx ∈ kwargs, kv.1.data = .str kx.1 := fun h2 => h ⟨h1, h2⟩
      rw [if_neg (by rw [hbad]; exact not_not_intro h1), if_pos (by rw [hmiss]; exact h2)]
      rfl
    · rw [if_pos (by rw [hbad]; exact h1)]; rfl

/-- **C14 is false for constants.** If the terminal set contains a non-string constant, no call of
`execute` with keyword arguments succeeds. -/
theorem C14_refuted {V : Type} (sem : Fn → List V → Except Err V) (lit : Val → V) (c : Cfg)
    (tree : List Node) (kwargs : List (String × V)) {v : Val} {ty : Option Ty}
    (hv : (v, ty) ∈ c.terminalSet) (hconst : ∀ s, v.data ≠ .str s) :
    execute sem lit c tree kwargs = .error .valueError := by
  unfold execute checkKwargs
  split
  · rfl
  · split
    · rfl
    · rw [if_pos]
      · rfl
      · rw [List.any_eq_true]
        exact ⟨(v, ty), hv, by simp [pyEq_str', hconst]⟩

/-- Both cases occur: `x`, `y` bound; and a terminal set `{x, 1}` on which every call fails. -/
example : execute Sample.sem Sample.lit Sample.cfg Sample.prog.flatten [("x", 3), ("y", 4)] = .ok 3 ∧
    execute Sample.sem Sample.lit Sample.cfg Sample.prog.flatten [("x", 3)] = .error .valueError ∧
    execute Sample.sem Sample.lit ⟨[Sample.add], [(Sample.x, none), (⟨7, .int 1⟩, none)], none, none⟩
      [.term Sample.x none] [("x", 3)] = .error .valueError := ⟨rfl, rfl, rfl⟩

/-! ## C15 -/

theorem colName_inj {i j : Nat} (h : colName i = colName j) : i = j := by
  unfold colName at h
  exact Nat.repr_injective ((String.append_right_inj _).1 h)

theorem dictOfList_mem {xs : List Val} {v : Val} (h : v ∈ xs) :
    ∃ kv ∈ dictOfList xs, kv.1.data.pyEq v.data = true := by
  unfold dictOfList
  have keep : ∀ (ys : List Val) (acc : List (Val × Option Ty)) kv, kv ∈ acc → kv ∈ ys.foldl
      (fun acc v => if acc.any fun kv => kv.1.data.pyEq v.data then acc else acc ++ [(v, none)]) acc := by
    intro ys
    induction ys with
    | nil => intro acc kv h; simpa using h
    | cons y ys ih =>
      intro acc kv hkv
      simp only [List.foldl_cons]
      apply ih
      split
      · exact hkv
      · simp [hkv]
  suffices hgen : ∀ acc : List (Val × Option Ty), ∃ kv ∈ xs.foldl
      (fun acc v => if acc.any fun kv => kv.1.data.pyEq v.data then acc else acc ++ [(v, none)]) acc,
      kv.1.data.pyEq v.data = true from hgen []
  intro acc
  induction xs generalizing acc with
  | nil => simp at h
  | cons x xs ih =>
    simp only [List.foldl_cons]
    rcases List.mem_cons.1 h with rfl | h
    · split
      · rename_i hany
        rw [List.any_eq_true] at hany
        obtain ⟨kv, h1, h2⟩ := hany
        exact ⟨kv, keep _ _ kv h1, h2⟩
      · exact ⟨(v, none), keep _ _ _ (by simp), pyEq_refl _⟩
    · exact ih h _

theorem dictOfList_sub {xs : List Val} {kv : Val × Option Ty} (h : kv ∈ dictOfList xs) :
    kv.1 ∈ xs := by
  unfold dictOfList at h
  have : ∀ (ys : List Val) (acc : List (Val × Option Ty)), kv ∈ ys.foldl
      (fun acc v => if acc.any fun kv => kv.1.data.pyEq v.data then acc else acc ++ [(v, none)]) acc →
      kv ∈ acc ∨ kv.1 ∈ ys := by
    intro ys
    induction ys with
    | nil => intro acc h; exact .inl (by simpa using h)
    | cons y ys ih =>
      intro acc h
      simp only [List.foldl_cons] at h
      rcases ih _ h with h | h
      · split at h
        · exact .inl h
        · rcases List.mem_append.1 h with h | h
          · exact .inl h
          · simp at h; simp [h]
      · exact .inr (by simp [h])
  rcases this xs [] h with h | h
  · simp at h
  · exact h

/-- The terminal set made from the names of the columns of `X`; `ref` gives the identities of the
string objects. -/
def matTerminals (ref : String → Nat) (X : Mat) : List (Val × Option Ty) :=
  dictOfList ((createTerminalSet X).map fun s => ⟨ref s, .str s⟩)

theorem matTerminals_mem {ref : String → Nat} {X : Mat} {i : Nat} (h : i < X.ncols) :
    ∃ kv ∈ matTerminals ref X, kv.1.data = .str (colName i) := by
  obtain ⟨kv, h1, h2⟩ := dictOfList_mem (xs := (createTerminalSet X).map fun s => ⟨ref s, .str s⟩)
    (v := ⟨ref (colName i), .str (colName i)⟩) (List.mem_map.2 ⟨colName i, by
      simp only [createTerminalSet, List.mem_map, List.mem_range]; exact ⟨i, h, rfl⟩, rfl⟩)
  exact ⟨kv, h1, pyEq_str.1 h2⟩

theorem matTerminals_sub {ref : String → Nat} {X : Mat} {kv} (h : kv ∈ matTerminals ref X) :
    ∃ i < X.ncols, kv.1.data = .str (colName i) := by
  have := dictOfList_sub h
  simp only [createTerminalSet, List.map_map, List.mem_map, List.mem_range, Function.comp] at this
  obtain ⟨i, hi, he⟩ := this
  exact ⟨i, hi, by rw [← he]⟩

theorem kwFun_generateArgs {X : Mat} {i : Nat} (h : i < X.ncols) :
    kwFun (generateArgs X) (colName i) = some (.col (X.column i)) := by
  unfold kwFun generateArgs
  rw [List.find?_map, Option.map_map]
  have : (List.range X.ncols).find? ((fun kv : String × MVal => decide (kv.1 = colName i)) ∘
      fun i => (colName i, .col (X.column i))) = some i := by
    rw [List.find?_range_eq_some]
    refine ⟨by simp, by simpa using h, fun j hj => ?_⟩
    simp only [Function.comp, Bool.not_eq_true', decide_eq_false_iff_not]
    intro he
    have := colName_inj he
    omega
  rw [this]
  rfl

theorem kwFun_generateArgs_none {X : Mat} {s : String} (h : ∀ i < X.ncols, s ≠ colName i) :
    kwFun (generateArgs X) s = none := by
  unfold kwFun generateArgs
  simp only [Option.map_eq_none_iff, List.find?_eq_none, List.mem_map, List.mem_range,
    decide_eq_true_eq, forall_exists_index, and_imp]
  rintro _ i hi rfl he
  exact h i hi he.symm

/-- What `execute` does on `Y` when the terminals of the tree are the columns `x_0 … x_{n-1}`. -/
theorem executeMat_columns (sem : Fn → List MVal → Except Err MVal) (lit : Val → MVal) (n : Nat)
    (Y : Mat) (c : Cfg) (hin : ∀ i < n, ∃ kv ∈ c.terminalSet, kv.1.data = .str (colName i))
    (hsub : ∀ kv ∈ c.terminalSet, ∃ i < n, kv.1.data = .str (colName i)) (p : Prog) (hp : p.Ok) :
    (Y.ncols = n → ∃ leaf : Val → MVal,
      (∀ v i, i < Y.ncols → v.data = .str (colName i) → leaf v = .col (Y.column i)) ∧
      (∀ v, (∀ i < Y.ncols, v.data ≠ .str (colName i)) → leaf v = lit v) ∧
      executeMat sem lit c p.flatten Y = (p.denote sem leaf >>= reshape Y)) ∧
    (Y.ncols ≠ n → executeMat sem lit c p.flatten Y = .error .valueError) := by
  have hkw := C14_execute_kwargs_partial sem lit c p hp (generateArgs Y)
  have hmem : ∀ kx, kx ∈ generateArgs Y ↔ ∃ i < Y.ncols, kx = (colName i, .col (Y.column i)) := by
    intro kx
    simp only [generateArgs, List.mem_map, List.mem_range]
    constructor
    · rintro ⟨i, h, rfl⟩; exact ⟨i, h, rfl⟩
    · rintro ⟨i, h, rfl⟩; exact ⟨i, h, rfl⟩
  constructor
  · intro hcols
    refine ⟨leafVal lit (kwFun (generateArgs Y)), ?_, ?_, ?_⟩
    · intro v i hi hv
      simp only [leafVal, hv, kwFun_generateArgs hi, Option.getD_some]
    · intro v hv
      unfold leafVal
      split
      · rename_i s hs
        rw [kwFun_generateArgs_none fun i hi he => hv i hi (by rw [hs, he])]; rfl
      · rfl
    · unfold executeMat
      rw [hkw.1]
      constructor
      · rintro kx hkx
        obtain ⟨i, hi, rfl⟩ := (hmem _).1 hkx
        exact hin i (by omega)
      · intro kv hkv
        obtain ⟨i, hi, he⟩ := hsub kv hkv
        exact ⟨_, (hmem _).2 ⟨i, by omega, rfl⟩, he⟩
  · intro hcols
    unfold executeMat
    rw [hkw.2.1]
    · rfl
    · rintro ⟨h1, h2⟩
      rcases Nat.lt_or_ge n Y.ncols with hlt | hge
      · obtain ⟨kv, hkv, he⟩ := h1 _ ((hmem _).2 ⟨n, hlt, rfl⟩)
        obtain ⟨i, hi, he'⟩ := hsub kv hkv
        rw [he'] at he
        have := colName_inj (Data.str.inj he)
        omega
      · obtain ⟨kv, hkv, he⟩ := hin Y.ncols (by omega)
        obtain ⟨kx, hkx, he'⟩ := h2 kv hkv
        obtain ⟨i, hi, rfl⟩ := (hmem _).1 hkx
        rw [he] at he'
        have := colName_inj (Data.str.inj he')
        omega

/-- `out` is what a user gets who executes on `Y` a tree whose meaning is `res`: a column as it is; a
number repeated in every row, for an integer matrix without its fractional part; `IndexError` for a
number if `Y` has no columns; the exception of a primitive that raises. -/
structure MatResult (Y : Mat) (res out : Except Err MVal) : Prop where
  column : ∀ xs, res = .ok (.col xs) → out = .ok (.col xs)
  number : ∀ q, res = .ok (.num q) → Y.ncols ≠ 0 → ∃ xs, out = .ok (.col xs) ∧ xs.length = Y.nrows ∧
    ∀ x ∈ xs, (Y.ty ≠ .int → x = q) ∧ (Y.ty = .int → (∃ z : ℤ, x = z) ∧ |x| ≤ |q| ∧ |q - x| < 1 ∧ 0 ≤ x * q)
  noColumns : ∀ q, res = .ok (.num q) → Y.ncols = 0 → out = .error .indexError
  raised : ∀ e, res = .error e → out = .error e

theorem trunc_facts (q : ℚ) : |((q.num.tdiv q.den : ℤ) : ℚ)| ≤ |q| ∧ |q - ((q.num.tdiv q.den : ℤ) : ℚ)| < 1 ∧
    0 ≤ ((q.num.tdiv q.den : ℤ) : ℚ) * q := by
  have hd : (0 : ℚ) < q.den := by exact_mod_cast q.den_pos
  have key : q = (q.num.tdiv q.den : ℤ) + ((q.num.tmod q.den : ℤ) : ℚ) / q.den := by
    rw [eq_comm, ← eq_sub_iff_add_eq', div_eq_iff hd.ne', sub_mul]
    have h1 : q * q.den = q.num := Rat.mul_den_eq_num q
    rw [h1]
    have := Int.mul_tdiv_add_tmod q.num q.den
    have h2 : (q.num.tmod q.den : ℤ) = q.num - q.num.tdiv q.den * q.den := by linarith [mul_comm (q.den : ℤ) (q.num.tdiv q.den)]
    rw [h2]; push_cast; rfl
  set t := q.num.tdiv q.den with ht
  set m := q.num.tmod q.den with hm
  have hlt : |((m : ℤ) : ℚ)| < q.den := by
    have h1 : m.natAbs < q.den := by
      rw [hm, Int.natAbs_tmod]; exact Nat.mod_lt _ q.den_pos
    have h2 : |m| < (q.den : ℤ) := by rw [← Int.natCast_natAbs]; exact_mod_cast h1
    exact_mod_cast h2
  have hfrac : |((m : ℤ) : ℚ) / q.den| < 1 := by
    rw [abs_div, abs_of_pos hd, div_lt_one hd]; exact hlt
  have hsign : (0 ≤ t ∧ 0 ≤ m) ∨ (t ≤ 0 ∧ m ≤ 0) := by
    rcases le_total 0 q.num with h | h
    · exact .inl ⟨Int.tdiv_nonneg h (by positivity), Int.tmod_nonneg _ h⟩
    · refine .inr ⟨?_, ?_⟩
      · rw [ht]
        have := Int.tdiv_nonneg (a := -q.num) (b := q.den) (by omega) (by positivity)
        rw [Int.neg_tdiv] at this; omega
      · rw [hm]
        have := Int.tmod_nonneg (a := -q.num) q.den (by omega)
        rw [Int.neg_tmod] at this; omega
  have e : q - (t : ℚ) = ((m : ℤ) : ℚ) / q.den := by linarith
  refine ⟨?_, by rw [e]; exact hfrac, ?_⟩
  · rcases hsign with ⟨h1, h2⟩ | ⟨h1, h2⟩
    · have h1' : (0 : ℚ) ≤ t := by exact_mod_cast h1
      have h2' : (0 : ℚ) ≤ (m : ℚ) / q.den := div_nonneg (by exact_mod_cast h2) hd.le
      rw [abs_of_nonneg h1', abs_of_nonneg (by linarith)]; linarith
    · have h1' : (t : ℚ) ≤ 0 := by exact_mod_cast h1
      have h2' : (m : ℚ) / q.den ≤ 0 := div_nonpos_of_nonpos_of_nonneg (by exact_mod_cast h2) hd.le
      rw [abs_of_nonpos h1', abs_of_nonpos (by linarith)]; linarith
  · rcases hsign with ⟨h1, h2⟩ | ⟨h1, h2⟩
    · have h1' : (0 : ℚ) ≤ t := by exact_mod_cast h1
      have h2' : (0 : ℚ) ≤ (m : ℚ) / q.den := div_nonneg (by exact_mod_cast h2) hd.le
      exact mul_nonneg h1' (by linarith)
    · have h1' : (t : ℚ) ≤ 0 := by exact_mod_cast h1
      have h2' : (m : ℚ) / q.den ≤ 0 := div_nonpos_of_nonpos_of_nonneg (by exact_mod_cast h2) hd.le
      exact mul_nonneg_of_nonpos_of_nonpos h1' (by linarith)

theorem reshape_result (Y : Mat) (res : Except Err MVal) : MatResult Y res (res >>= reshape Y) where
  column := by rintro xs rfl; rfl
  number := by
    rintro q rfl hc
    refine ⟨List.replicate Y.nrows (castTo Y.ty q), ?_, List.length_replicate, ?_⟩
    · show reshape Y (.num q) = _
      simp only [reshape, if_neg hc]
    · intro x hx
      obtain rfl := List.eq_of_mem_replicate hx
      refine ⟨fun h => ?_, fun h => ?_⟩
      · unfold castTo
        split
        · rename_i ht; exact absurd ht h
        · rfl
      · rw [h]; exact ⟨⟨_, rfl⟩, trunc_facts q⟩
  noColumns := by
    rintro q rfl hc
    show reshape Y (.num q) = _
    simp only [reshape, if_pos hc]
  raised := by rintro e rfl; rfl

/-- **C15.** A tree whose terminal set was made from a matrix `X` can be executed on every matrix `Y`
with as many columns: variable `x_i` stands for column `i` of `Y`, all other terminals for
themselves, and a scalar result is repeated for every row (without its fractional part in an integer
matrix).  On a matrix with another number of columns `execute` raises `ValueError`. -/
theorem C15_matrix (sem : Fn → List MVal → Except Err MVal) (lit : Val → MVal) (ref : String → Nat)
    (X Y : Mat) (c : Cfg) (hc : c.terminalSet = matTerminals ref X) (p : Prog) (hp : p.Ok) :
    (Y.ncols = X.ncols → ∃ leaf : Val → MVal,
      (∀ v i, i < Y.ncols → v.data = .str (colName i) → leaf v = .col ((List.range Y.nrows).map fun r => Y.entry r i)) ∧
      (∀ v, (∀ i < Y.ncols, v.data ≠ .str (colName i)) → leaf v = lit v) ∧
      MatResult Y (p.denote sem leaf) (executeMat sem lit c p.flatten Y)) ∧
    (Y.ncols ≠ X.ncols → executeMat sem lit c p.flatten Y = .error .valueError) := by
  have h := executeMat_columns sem lit X.ncols Y c (fun i hi => by rw [hc]; exact matTerminals_mem hi)
    (fun kv hkv => by rw [hc] at hkv; exact matTerminals_sub hkv) p hp
  refine ⟨fun e => ?_, h.2⟩
  obtain ⟨leaf, h1, h2, h3⟩ := h.1 e
  exact ⟨leaf, h1, h2, by rw [h3]; exact reshape_result Y _⟩

/-- The terminal set made from the typed names of the columns of a matrix. -/
def typedTerminals (ref : String → Nat) (kvs : List (String × Ty)) : List (Val × Option Ty) :=
  kvs.map fun kv => (⟨ref kv.1, .str kv.1⟩, some kv.2)

/-- **C15**, typed trees: `create_terminal_set(X, typed=True)` fails only for matrices without rows; it
gives every column the item type of the matrix; and trees with that terminal set are executed in the
same way. -/
theorem C15_matrix_typed (sem : Fn → List MVal → Except Err MVal) (lit : Val → MVal) (ref : String → Nat)
    (X Y : Mat) :
    (createTerminalSetTyped X = .error .indexError ∧ X.nrows = 0 ∧ X.ncols ≠ 0) ∨
    ∃ kvs, createTerminalSetTyped X = .ok kvs ∧ kvs.map (·.1) = createTerminalSet X ∧ (∀ kv ∈ kvs, kv.2 = X.ty) ∧
      ∀ c : Cfg, c.terminalSet = typedTerminals ref kvs → ∀ p : Prog, p.Ok →
      (Y.ncols = X.ncols → ∃ leaf : Val → MVal,
        (∀ v i, i < Y.ncols → v.data = .str (colName i) → leaf v = .col ((List.range Y.nrows).map fun r => Y.entry r i)) ∧
        (∀ v, (∀ i < Y.ncols, v.data ≠ .str (colName i)) → leaf v = lit v) ∧
        MatResult Y (p.denote sem leaf) (executeMat sem lit c p.flatten Y)) ∧
      (Y.ncols ≠ X.ncols → executeMat sem lit c p.flatten Y = .error .valueError) := by
  unfold createTerminalSetTyped
  by_cases hx : X.nrows = 0 ∧ X.ncols ≠ 0
  · rw [if_pos hx]; exact .inl ⟨rfl, hx⟩
  · rw [if_neg hx]
    refine .inr ⟨_, rfl, ?_, ?_, fun c hc p hp => ?_⟩
    · simp [createTerminalSet]
    · intro kv hkv
      obtain ⟨i, -, rfl⟩ := List.mem_map.1 hkv
      rfl
    · have h := executeMat_columns sem lit X.ncols Y c (fun i hi => by
          rw [hc]
          exact ⟨(⟨ref (colName i), .str (colName i)⟩, some X.ty), List.mem_map.2 ⟨(colName i, X.ty),
            List.mem_map.2 ⟨i, List.mem_range.2 hi, rfl⟩, rfl⟩, rfl⟩)
        (fun kv hkv => by
          rw [hc] at hkv
          obtain ⟨kt, hkt, rfl⟩ := List.mem_map.1 hkv
          obtain ⟨i, hi, rfl⟩ := List.mem_map.1 hkt
          exact ⟨i, List.mem_range.1 hi, rfl⟩) p hp
      refine ⟨fun e => ?_, h.2⟩
      obtain ⟨leaf, h1, h2, h3⟩ := h.1 e
      exact ⟨leaf, h1, h2, by rw [h3]; exact reshape_result Y _⟩

/-- A typed terminal set: two float columns. -/
example : createTerminalSetTyped ⟨3, 2, .float, fun _ _ => 0⟩ = .ok [("x0", .float), ("x1", .float)] := by
  decide +kernel

/-- A 2×2 matrix and the tree `x1`: the result is column 1; the tree `1/2` on an integer matrix gives
zeros. -/
example :
    let X : Mat := ⟨2, 2, .int, fun r i => if i = 1 then 7 + r else 0⟩
    let c : Cfg := ⟨[], matTerminals (fun _ => 0) X, none, none⟩
    executeMat (fun _ _ => .error .typeError) (fun v => .num ((v.data.num?).getD 0)) c
      [.term ⟨0, .str "x1"⟩ none] X = .ok (.col [7, 8]) ∧
    executeMat (fun _ _ => .error .typeError) (fun v => .num ((v.data.num?).getD 0)) c
      [.term ⟨0, .float (1 / 2)⟩ none] X = .ok (.col [0, 0]) := by
  constructor <;> decide +kernel

end Verif.GP
