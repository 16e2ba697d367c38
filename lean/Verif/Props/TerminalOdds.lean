import Verif.Props.TreeOdds

/-!
# C173 — how often constants are created and mutated

With an ERC range, `random_terminal` first draws a constant and then chooses among the terminals of the type and that
constant.
-/

namespace Verif.GP
open PyM Verif.Evo
variable {c : Cfg} {τ : Option Ty} {L : Nat} {e : Erc} {pre : List Nat} {v : Val}

/-- With these draws the constant is drawn. -/
def Draws (e : Erc) (pre : List Nat) (v : Val) : Prop := ∀ t, drawErc e (prepend pre t) = (.ok v, t)

/-- The draws below `L` of `random.choice` with which `random_terminal` returns the node, after the constant has been
drawn. -/
def drawsAfter (L : Nat) (c : Cfg) (τ : Option Ty) (pre : List Nat) (n : Node) : Set Nat :=
  {d | d < L ∧ ∀ t, randomTerminal c τ (prepend (pre ++ [d]) t) = (.ok (some n), t)}

theorem relevant_erc (he : c.erc = some e) (ha : ercApplies τ = true) (hp : Draws e pre v) (t : Tape) :
    relevantTerminals c τ (prepend pre t) = (.ok (c.terminalsOf τ ++ [v]), t) := by
  unfold relevantTerminals
  simp only [he, ha, if_true]
  exact bind_of_ok (hp t)

theorem randomTerminal_erc (he : c.erc = some e) (ha : ercApplies τ = true) (hp : Draws e pre v) (d : Nat) (t : Tape) :
    ∃ x, (c.terminalsOf τ ++ [v])[d % (c.terminalsOf τ ++ [v]).length]? = some x ∧
      randomTerminal c τ (prepend (pre ++ [d]) t) = (.ok (some (.term x (terminalType c τ x))), t) := by
  have hne : c.terminalsOf τ ++ [v] ≠ [] := by simp
  obtain ⟨x, hx, hch⟩ := choice_cons hne d t
  refine ⟨x, hx, ?_⟩
  rw [prepend_append]
  unfold randomTerminal
  refine (bind_of_ok (relevant_erc he ha hp _)).trans ?_
  rw [if_neg hne]
  exact (bind_of_ok hch).trans rfl

theorem not_mem_of_get (h : tsGet c.terminalSet v = none) : v ∉ c.terminalsOf τ := by
  intro hm
  have := mem_terminalsOf.1 hm
  unfold tsGet at h
  rw [Option.map_eq_none_iff, List.find?_eq_none] at h
  exact h _ this (pyEq_refl _)

theorem offered_share (he : c.erc = some e) (ha : ercApplies τ = true) (hd : DistinctKeys c.terminalSet) (hp : Draws e pre v)
    (hv : tsGet c.terminalSet v = none) {x : Val} (hx : x ∈ c.terminalsOf τ ++ [v]) (hL : (c.terminalsOf τ).length + 1 ∣ L) :
    (drawsAfter L c τ pre (.term x (terminalType c τ x))).ncard * ((c.terminalsOf τ).length + 1) = L := by
  have hn : (c.terminalsOf τ ++ [v]).Nodup := by
    rw [List.nodup_append]
    refine ⟨terminals_nodup hd, by simp, ?_⟩
    rintro a ha' b hb rfl
    rw [List.mem_singleton] at hb
    subst hb
    exact not_mem_of_get hv ha'
  have hlen : (c.terminalsOf τ ++ [v]).length = (c.terminalsOf τ).length + 1 := by simp
  rw [← hlen] at hL ⊢
  refine Eq.trans ?_ (share hn hx hL)
  congr 2
  ext d
  refine ⟨fun ⟨h1, h2⟩ => ⟨h1, ?_⟩, fun ⟨h1, h2⟩ => ⟨h1, fun t => ?_⟩⟩
  · obtain ⟨y, hy, hrun⟩ := randomTerminal_erc he ha hp d (fun _ => 0)
    rw [h2] at hrun
    simp only [Prod.mk.injEq, Except.ok.injEq, Option.some.injEq, Node.term.injEq, and_true] at hrun
    rw [hrun.1]
    exact hy
  · obtain ⟨y, hy, hrun⟩ := randomTerminal_erc he ha hp d t
    rw [h2] at hy
    obtain rfl := Option.some.inj hy
    exact hrun

/-- **C173**: whatever constant has been drawn, each terminal of the requested type is returned for the same share of the
choices, one in the number of these terminals plus one. -/
theorem C173_terminal (he : c.erc = some e) (ha : ercApplies τ = true) (hd : DistinctKeys c.terminalSet) (hp : Draws e pre v)
    (hv : tsGet c.terminalSet v = none) {x : Val} (hx : (x, τ) ∈ c.terminalSet) (hL : (c.terminalsOf τ).length + 1 ∣ L) :
    (drawsAfter L c τ pre (.term x τ)).ncard * ((c.terminalsOf τ).length + 1) = L := by
  have hm := mem_terminalsOf.2 hx
  have := offered_share he ha hd hp hv (x := x) (by simp [hm]) hL
  rwa [terminalType_of_mem hd hm] at this

/-- **C173**: and a constant as often as any one terminal. -/
theorem C173_constant (he : c.erc = some e) (ha : ercApplies τ = true) (hd : DistinctKeys c.terminalSet) (hp : Draws e pre v)
    (hv : tsGet c.terminalSet v = none) (hL : (c.terminalsOf τ).length + 1 ∣ L) :
    (drawsAfter L c τ pre (.term v (τ.map fun _ => v.data.type))).ncard * ((c.terminalsOf τ).length + 1) = L := by
  have := offered_share he ha hd hp hv (x := v) (by simp) hL
  have ht : terminalType c τ v = τ.map fun _ => v.data.type := by
    unfold terminalType
    rw [hv]
    cases τ <;> rfl
  rwa [ht] at this

theorem draws_int {lo hi : ℤ} (hle : lo ≤ hi) (d r : Nat) :
    Draws ⟨lo, hi, false⟩ [d, r] ⟨r, .int (lo + ((d % (hi - lo + 1).toNat : Nat) : ℤ))⟩ := by
  intro t
  unfold drawErc
  simp only [Bool.false_eq_true, if_false]
  have h1 : Rand.randint (lo : ℚ) (hi : ℚ) (prepend [d, r] t) = (.ok (lo + ((d % (hi - lo + 1).toNat : Nat) : ℤ)), prepend [r] t) := by
    unfold Rand.randint
    rw [if_neg (by simp), if_neg (by simpa using hle)]
    rfl
  exact (bind_of_ok h1).trans rfl

/-- The terminal set holds names of variables only. -/
def NamesOnly (c : Cfg) : Prop := ∀ kv ∈ c.terminalSet, ∃ s, kv.1.data = .str s

theorem NamesOnly.fresh (h : NamesOnly c) (r : Nat) (z : ℤ) : tsGet c.terminalSet ⟨r, .int z⟩ = none := by
  unfold tsGet
  rw [Option.map_eq_none_iff, List.find?_eq_none]
  intro kv hkv
  obtain ⟨s, hs⟩ := h kv hkv
  rw [hs]
  simp [Data.pyEq, Data.num?]

/-- **C173**: each integer of the range is returned equally often: for one in the number of integers times the number of
terminals plus one. -/
theorem C173_integer {lo hi z : ℤ} (he : c.erc = some ⟨lo, hi, false⟩) (ha : ercApplies τ = true) (hn : NamesOnly c)
    (h1 : lo ≤ z) (h2 : z ≤ hi) {M : Nat} (hM : (hi - lo + 1).toNat ∣ M) (hL : (c.terminalsOf τ).length + 1 ∣ L) :
    {d : Nat × Nat | (d.1 < M ∧ d.2 < L) ∧ ∀ r t, randomTerminal c τ (prepend [d.1, r, d.2] t) =
      (.ok (some (.term ⟨r, .int z⟩ (τ.map fun _ => .int))), t)}.ncard *
      ((hi - lo + 1).toNat * ((c.terminalsOf τ).length + 1)) = M * L := by
  have hle : lo ≤ hi := h1.trans h2
  have hA := share (xs := List.range (hi - lo + 1).toNat) List.nodup_range (x := (z - lo).toNat)
    (by rw [List.mem_range]; omega) (L := M) (by simpa using hM)
  have hB := share (xs := List.range ((c.terminalsOf τ).length + 1)) List.nodup_range (x := (c.terminalsOf τ).length)
    (by simp) (L := L) (by simpa using hL)
  have hset : {d : Nat × Nat | (d.1 < M ∧ d.2 < L) ∧ ∀ r t, randomTerminal c τ (prepend [d.1, r, d.2] t) =
      (.ok (some (.term ⟨r, .int z⟩ (τ.map fun _ => .int))), t)} =
      {d | d < M ∧ (List.range (hi - lo + 1).toNat)[d % (List.range (hi - lo + 1).toNat).length]? = some (z - lo).toNat} ×ˢ
      {d | d < L ∧ (List.range ((c.terminalsOf τ).length + 1))[d % (List.range ((c.terminalsOf τ).length + 1)).length]? =
        some (c.terminalsOf τ).length} := by
    ext ⟨d, k⟩
    simp only [Set.mem_ofPred_eq, Set.mem_prod, List.length_range]
    have hdlt : d % (hi - lo + 1).toNat < (hi - lo + 1).toNat := Nat.mod_lt _ (by omega)
    have hklt : k % ((c.terminalsOf τ).length + 1) < (c.terminalsOf τ).length + 1 := Nat.mod_lt _ (by omega)
    rw [List.getElem?_range hdlt, List.getElem?_range hklt, Option.some.injEq, Option.some.injEq]
    have key : ∀ r t, randomTerminal c τ (prepend [d, r, k] t) = (.ok (some (.term ⟨r, .int z⟩ (τ.map fun _ => .int))), t) ↔
        d % (hi - lo + 1).toNat = (z - lo).toNat ∧ k % ((c.terminalsOf τ).length + 1) = (c.terminalsOf τ).length := by
      intro r t
      obtain ⟨x, hx, hrun⟩ := randomTerminal_erc he ha (draws_int hle d r) k t
      simp only [List.cons_append, List.nil_append] at hrun
      rw [hrun]
      simp only [List.length_append, List.length_cons, List.length_nil, Nat.zero_add] at hx
      by_cases hk : k % ((c.terminalsOf τ).length + 1) = (c.terminalsOf τ).length
      · rw [hk, List.getElem?_append_right (Nat.le_refl _)] at hx
        simp only [Nat.sub_self, List.getElem?_cons_zero, Option.some.injEq] at hx
        subst hx
        have ht : ∀ y : ℤ, terminalType c τ ⟨r, .int y⟩ = τ.map fun _ => Ty.int := by
          intro y
          unfold terminalType
          rw [hn.fresh]
          cases τ <;> rfl
        rw [ht]
        simp only [Prod.mk.injEq, Except.ok.injEq, Option.some.injEq, Node.term.injEq, Val.mk.injEq, Data.int.injEq, and_true, true_and, hk]
        omega
      · rw [List.getElem?_append_left (by omega)] at hx
        have hm := List.mem_of_getElem? hx
        obtain ⟨s, hs⟩ := hn _ (mem_terminalsOf.1 hm)
        constructor
        · intro h
          simp only [Prod.mk.injEq, Except.ok.injEq, Option.some.injEq, Node.term.injEq, and_true] at h
          rw [h.1] at hs
          simp at hs
        · intro h
          exact absurd h.2 hk
    constructor
    · rintro ⟨⟨h3, h4⟩, h5⟩
      obtain ⟨h6, h7⟩ := (key 0 fun _ => 0).1 (h5 0 fun _ => 0)
      exact ⟨⟨h3, h6⟩, h4, h7⟩
    · rintro ⟨⟨h3, h6⟩, h4, h7⟩
      exact ⟨⟨h3, h4⟩, fun r t => (key r t).2 ⟨h6, h7⟩⟩
  rw [hset, Set.ncard_prod]
  simp only [List.length_range] at hA hB ⊢
  rw [mul_mul_mul_comm, hA, hB]

/-- **C173**: `get_random_numeric_node` - which the ERC mutation mutates - picks each constant of the tree for the same share of
the draws. -/
theorem C173_mutated {tree : List Node} {i : Nat} {x : Val} (hi : tree[i]? = some (.term x τ)) (hx : x.data.isNumber = true)
    (hL : (tree.countP Node.isNumericTerminal) ∣ L) :
    {d | d < L ∧ ∀ t, randomNumericNode tree (prepend [d] t) = (.ok (some i), t)}.ncard * tree.countP Node.isNumericTerminal = L := by
  have hlen : (numericPositions tree).length = tree.countP Node.isNumericTerminal := by
    have h : ∀ l : List Node, ((List.range l.length).filter fun i => match l[i]? with
        | some n => n.isNumericTerminal
        | none => false).length = l.countP Node.isNumericTerminal := by
      intro l
      induction l using List.reverseRecOn with
      | nil => rfl
      | append_singleton l n ih =>
        rw [List.length_append, List.length_singleton, List.range_succ, List.filter_append, List.length_append, List.countP_append, ← ih]
        congr 1
        · congr 1
          refine List.filter_congr fun i hi => ?_
          rw [List.getElem?_append_left (List.mem_range.1 hi)]
        · rw [List.countP_singleton]
          simp only [List.filter_cons, List.filter_nil, List.getElem?_append_right (Nat.le_refl _), Nat.sub_self, List.getElem?_cons_zero]
          split <;> simp_all
    exact h tree
  have hmem : i ∈ numericPositions tree := by
    unfold numericPositions
    rw [List.mem_filter, List.mem_range]
    refine ⟨(List.getElem?_eq_some_iff.1 hi).1, ?_⟩
    simp only [hi]
    exact hx
  have hn : (numericPositions tree).Nodup := List.nodup_range.filter _
  rw [← hlen] at hL ⊢
  refine Eq.trans ?_ (share hn hmem hL)
  congr 2
  ext d
  have hne := List.ne_nil_of_mem hmem
  refine ⟨fun ⟨h1, h2⟩ => ⟨h1, ?_⟩, fun ⟨h1, h2⟩ => ⟨h1, fun t => ?_⟩⟩
  · obtain ⟨y, hy, hch⟩ := choice_cons hne d (fun _ => 0)
    have h3 := h2 fun _ => 0
    unfold randomNumericNode at h3
    rw [if_neg hne, bind_of_ok hch] at h3
    have h4 : ((Except.ok (some y) : Except Err (Option Nat)), (fun _ => 0 : Tape)) = (.ok (some i), fun _ => 0) := h3
    simp only [Prod.mk.injEq, Except.ok.injEq, Option.some.injEq, and_true] at h4
    rw [← h4]
    exact hy
  · obtain ⟨y, hy, hch⟩ := choice_cons hne d t
    rw [h2] at hy
    obtain rfl := Option.some.inj hy
    unfold randomNumericNode
    rw [if_neg hne]
    exact (bind_of_ok hch).trans rfl

/-! ## Examples -/

namespace Sample

/-- Two variables and the constants -1, 0, 1. -/
def withErc : Cfg := ⟨[negF, add], [(x, none), (y, none)], some ⟨((-1 : ℤ) : ℚ), ((1 : ℤ) : ℚ), false⟩, none⟩

theorem withErc_names : NamesOnly withErc := by
  intro kv hkv
  simp only [withErc, List.mem_cons, List.not_mem_nil, or_false] at hkv
  rcases hkv with rfl | rfl
  · exact ⟨_, rfl⟩
  · exact ⟨_, rfl⟩

theorem withErc_two : (withErc.terminalsOf none).length = 2 := rfl

theorem withErc_draws : Draws ⟨((-1 : ℤ) : ℚ), ((1 : ℤ) : ℚ), false⟩ [2, 7] ⟨7, .int 1⟩ := draws_int (by decide) 2 7

theorem withErc_distinct : DistinctKeys withErc.terminalSet := mixed_distinct

/-- After the constant 1 has been drawn, three of nine draws return `x`. -/
example : (drawsAfter 9 withErc none [2, 7] (.term x none)).ncard * (2 + 1) = 9 := by
  have h := C173_terminal (c := withErc) (τ := none) (x := x) (L := 9) rfl rfl withErc_distinct withErc_draws (withErc_names.fresh _ _)
    (by simp [withErc]) ⟨3, rfl⟩
  rwa [withErc_two] at h

/-- And three of nine the constant. -/
example : (drawsAfter 9 withErc none [2, 7] (.term ⟨7, .int 1⟩ none)).ncard * (2 + 1) = 9 := by
  have h := C173_constant (c := withErc) (τ := none) (L := 9) rfl rfl withErc_distinct withErc_draws (withErc_names.fresh _ _) ⟨3, rfl⟩
  rwa [withErc_two] at h

/-- The constant 0 is made by one in nine pairs of draws. -/
example : {d : Nat × Nat | (d.1 < 3 ∧ d.2 < 3) ∧ ∀ r t, randomTerminal withErc none (prepend [d.1, r, d.2] t) =
      (.ok (some (.term ⟨r, .int 0⟩ none)), t)}.ncard * (3 * (2 + 1)) = 3 * 3 := by
  have h := C173_integer (c := withErc) (τ := none) (lo := -1) (hi := 1) (z := 0) (M := 3) (L := 3) rfl rfl withErc_names (by decide)
    (by decide) ⟨1, rfl⟩ ⟨1, rfl⟩
  rw [show ((1 : ℤ) - -1 + 1).toNat = 3 from rfl, withErc_two] at h
  exact h

/-- Of the two constants of a tree each is mutated for half of the draws. -/
example : {d | d < 4 ∧ ∀ t, randomNumericNode [.func add, .term ⟨7, .int 1⟩ none, .term ⟨8, .int 1⟩ none] (prepend [d] t) =
      (.ok (some 2), t)}.ncard * 2 = 4 := by
  have h := C173_mutated (L := 4) (tree := [.func add, .term ⟨7, .int 1⟩ none, .term ⟨8, .int 1⟩ none]) (i := 2) (x := ⟨8, .int 1⟩)
    (τ := none) rfl rfl ⟨2, rfl⟩
  rw [show List.countP Node.isNumericTerminal [.func add, .term ⟨7, .int 1⟩ none, .term ⟨8, .int 1⟩ none] = 2 from rfl] at h
  exact h

end Sample

end Verif.GP
