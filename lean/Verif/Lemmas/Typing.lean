import Verif.Lemmas.Creators

/-! # Type correctness of drawn terminals; totality of creation -/

namespace Verif.GP
open PyM

theorem pyEq_refl (d : Data) : d.pyEq d = true := by
  unfold Data.pyEq
  cases d.num? <;> simp

theorem tsGet_mem {ts : List (Val × Option Ty)} (hd : DistinctKeys ts) {v : Val} {τ : Option Ty}
    (h : (v, τ) ∈ ts) : tsGet ts v = some τ := by
  unfold tsGet
  induction ts with
  | nil => simp at h
  | cons kv ts ih =>
    rw [DistinctKeys, List.pairwise_cons] at hd
    rcases List.mem_cons.1 h with h | h
    · subst h; simp [pyEq_refl]
    · have := hd.1 _ h
      simp only [List.find?_cons, this]
      exact ih hd.2 h

theorem tsGet_some {ts : List (Val × Option Ty)} {v : Val} {τ : Option Ty}
    (h : tsGet ts v = some τ) : ∃ k, (k, τ) ∈ ts ∧ k.data.pyEq v.data = true := by
  unfold tsGet at h
  simp only [Option.map_eq_some_iff] at h
  obtain ⟨⟨k, t⟩, h1, rfl⟩ := h
  exact ⟨k, List.mem_of_find?_eq_some h1, by simpa using List.find?_some h1⟩

theorem num?_of_pyEq {a b : Data} {q : ℚ} (h : a.pyEq b = true) (hb : b.num? = some q) :
    a.num? = some q := by
  unfold Data.pyEq at h
  rw [hb] at h
  cases ha : a.num? with
  | none =>
    simp only [ha, decide_eq_true_eq] at h
    rw [h, hb] at ha; simp at ha
  | some x => simp only [ha, decide_eq_true_eq] at h; rw [h]

/-- In an untyped configuration drawn terminals are untyped. -/
theorem randomTerminal_untyped {c : Cfg} (h : c.Untyped) :
    Post (randomTerminal c none) fun r => ∀ v t, r = some (.term v t) → t = none := by
  intro s r s' hrun v t hr
  obtain ⟨w, hw, -, -⟩ := randomTerminal_post c none s r s' hrun _ hr
  simp only [Node.term.injEq] at hw
  obtain ⟨rfl, rfl⟩ := hw
  unfold terminalType
  cases htg : tsGet c.terminalSet v with
  | none => rfl
  | some τ =>
    obtain ⟨k, hk, -⟩ := tsGet_some htg
    exact h.2 _ hk

/-- In a typed configuration whose ERC range is harmless, drawn terminals have the requested type. -/
theorem randomTerminal_typed {c : Cfg} (hd : DistinctKeys c.terminalSet) (hsafe : c.ErcSafe)
    {τ : Option Ty} (hτ : ∃ t, τ = some t)
    (hreq : τ = c.rootType ∨ ∃ f ∈ c.functionSet, τ ∈ f.params) :
    Post (randomTerminal c τ) fun r => ∀ v t, r = some (.term v t) → t = τ := by
  intro s r s' hrun v t hr
  obtain ⟨w, hw, -, hcase⟩ := randomTerminal_post c τ s r s' hrun _ hr
  simp only [Node.term.injEq] at hw
  obtain ⟨rfl, rfl⟩ := hw
  obtain ⟨ty, rfl⟩ := hτ
  rcases hcase with hmem | ⟨happ, e, he, q, hq, hqt⟩
  · unfold terminalType; rw [tsGet_mem hd hmem]; rfl
  · rcases hsafe with h | ⟨h1, h2⟩
    · rw [he] at h; simp at h
    · have hty : some ty = c.ercType := h1 ty (by simpa [ercApplies] using happ) hreq
      unfold terminalType
      cases htg : tsGet c.terminalSet v with
      | none =>
        simp only [Option.getD_none]
        rw [hty, hqt]; simp [Cfg.ercType, he]
      | some σ =>
        obtain ⟨k, hk, hke⟩ := tsGet_some htg
        simp only [Option.getD_some]
        have h3 : σ = c.ercType := h2 _ hk (by
          show k.data.num? ≠ none
          rw [num?_of_pyEq hke hq]; simp)
        rw [h3, hty]

theorem dictOfList_types (xs : List Val) : ∀ kv ∈ dictOfList xs, kv.2 = none := by
  unfold dictOfList
  have : ∀ (acc : List (Val × Option Ty)), (∀ kv ∈ acc, kv.2 = none) → ∀ kv ∈ xs.foldl
      (fun acc v => if acc.any fun kv => kv.1.data.pyEq v.data then acc else acc ++ [(v, none)]) acc,
      kv.2 = none := by
    induction xs with
    | nil => intro acc h; simpa using h
    | cons x xs ih =>
      intro acc h
      simp only [List.foldl_cons]
      apply ih
      split
      · exact h
      · intro kv hkv
        rcases List.mem_append.1 hkv with hk | hk
        · exact h kv hk
        · simp at hk; simp [hk]
  exact this [] (by simp)

theorem handle_list {fs : List Fn} {xs : List Val} {root : Option Ty} {erc : Option Erc} {c : Cfg}
    (h : handleInputTypes (some fs) (some (.list xs)) root erc = .ok c) :
    c.Untyped ∧ c.functionSet = fs ∧ c.erc = erc ∧ c.rootType = root ∧ c.terminalSet = dictOfList xs := by
  simp only [handleInputTypes] at h
  split at h
  · simp at h
  · rename_i hc
    simp only [Except.ok.injEq] at h
    subst h
    refine ⟨⟨?_, ?_⟩, rfl, rfl, rfl, rfl⟩
    · intro f hf
      have hnil : f.hints = [] := by
        by_contra hne
        apply hc
        rw [List.any_eq_true]
        exact ⟨f, hf, by simpa using hne⟩
      unfold Fn.hints at hnil
      rw [List.filter_eq_nil_iff] at hnil
      exact ⟨fun t ht => by simpa using hnil t (by simp [ht]), by simpa using hnil f.ret (by simp)⟩
    · exact dictOfList_types xs

theorem handle_dict {fs : List Fn} {kvs : List (Val × Option Ty)} {root : Option Ty}
    {erc : Option Erc} {c : Cfg}
    (h : handleInputTypes (some fs) (some (.dict kvs)) root erc = .ok c) :
    c = ⟨fs, kvs, erc, root⟩ ∧ (∀ kv ∈ kvs, kv.2 ≠ none) ∧
      ∀ f ∈ fs, ∀ t ∈ (getFuncTypes f).dropLast, t ≠ none := by
  simp only [handleInputTypes] at h
  split at h
  · simp at h
  · rename_i hany
    split at h
    · simp at h
    · split at h
      · simp at h
      · split at h
        · rename_i hsub
          simp only [Except.ok.injEq] at h
          have hk : ∀ kv ∈ kvs, kv.2 ≠ none := by
            intro kv hkv hn
            apply hany
            rw [List.any_eq_true]
            exact ⟨kv, hkv, by simpa using hn⟩
          refine ⟨h.symm, hk, ?_⟩
          intro f hf t ht hn
          have := hsub.1 (List.mem_flatMap.2 ⟨f, hf, ht⟩)
          rw [hn, List.mem_append, List.mem_map] at this
          rcases this with ⟨kv, hkv, he⟩ | this
          · exact hk kv hkv he
          · simp at this
        · simp at h

/-! ### Totality of creation in the untyped case -/

theorem next_total : Total Rand.next := fun _ => ⟨_, _, rfl⟩

theorem random_total : Total Rand.random :=
  Total.bind next_total Post.trivial fun _ _ => Total.bind next_total Post.trivial fun _ _ => Total.pure

theorem drawErc_total {e : Erc} (h : e.Usable) : Total (drawErc e) := by
  unfold drawErc
  split
  · exact Total.bind (Total.bind random_total Post.trivial fun _ _ => Total.pure) Post.trivial
      fun _ _ => Total.bind next_total Post.trivial fun _ _ => Total.pure
  · rename_i hf
    rcases h with h | ⟨h1, h2, h3⟩
    · exact absurd h hf
    · refine Total.bind ?_ Post.trivial fun _ _ => Total.bind next_total Post.trivial
        fun _ _ => Total.pure
      unfold Rand.randint
      have hle : ¬ e.hi.num < e.lo.num := by
        intro hlt
        have ha : e.lo = (e.lo.num : ℚ) := (Rat.den_eq_one_iff _).1 h1 |>.symm
        have hb : e.hi = (e.hi.num : ℚ) := (Rat.den_eq_one_iff _).1 h2 |>.symm
        rw [ha, hb] at h3
        have : e.lo.num ≤ e.hi.num := by exact_mod_cast h3
        omega
      rw [if_neg (by simp [h1, h2]), if_neg hle]
      exact Total.bind next_total Post.trivial fun _ _ => Total.pure

theorem randomTerminal_total {c : Cfg} (hu : c.Untyped) (ht : c.HasTerminal) :
    ∀ s, ∃ n s', randomTerminal c none s = (.ok (some n), s') := by
  have hrel : Total (relevantTerminals c none) ∧
      Post (relevantTerminals c none) fun rel => rel ≠ [] := by
    unfold relevantTerminals
    simp only
    have hbase : (c.terminalSet.filter fun kv => decide (kv.2 = none)).map (·.1) = [] →
        c.terminalSet = [] := by
      intro h
      rw [List.map_eq_nil_iff, List.filter_eq_nil_iff] at h
      cases hts : c.terminalSet with
      | nil => rfl
      | cons kv l =>
        exfalso
        have hmem : kv ∈ c.terminalSet := by simp [hts]
        exact h kv hmem (by simp [hu.2 kv hmem])
    cases he : c.erc with
    | none =>
      refine ⟨Total.pure, Post.pure fun h => ?_⟩
      rcases ht.1 with h1 | h1
      · exact h1 (hbase h)
      · exact h1 he
    | some e =>
      simp only [ercApplies, if_true]
      exact ⟨Total.bind (drawErc_total (ht.2 e he)) Post.trivial fun _ _ => Total.pure,
        Post.bind Post.trivial fun _ _ => Post.pure (by simp)⟩
  intro s
  obtain ⟨rel, s1, h1⟩ := hrel.1 s
  have hne := hrel.2 s rel s1 h1
  obtain ⟨v, s2, h2⟩ := Rand.choice_total hne s1
  refine ⟨.term v (terminalType c none v), s2, ?_⟩
  unfold randomTerminal
  rw [bind_ok]
  refine ⟨rel, s1, h1, ?_⟩
  rw [if_neg hne, bind_ok]
  exact ⟨v, s2, h2, rfl⟩

theorem randomFunction_total {c : Cfg} (hu : c.Untyped) (hne : c.functionSet ≠ []) :
    ∀ s, ∃ n s', randomFunction c none s = (.ok (some n), s') := by
  intro s
  have hrel : (c.functionSet.filter fun f => decide (getReturnType f = none)) = c.functionSet := by
    rw [List.filter_eq_self]
    intro f hf
    simp [getReturnType, (hu.1 f hf).2]
  unfold randomFunction
  rw [hrel, if_neg hne]
  obtain ⟨f, s1, h1⟩ := Rand.choice_total hne s
  have hf := Rand.choice_post _ s f s1 h1
  refine ⟨.func f, s1, ?_⟩
  rw [bind_ok]
  refine ⟨f, s1, h1, ?_⟩
  have : mkFunctionNode f = .ok (.func f) := by
    unfold mkFunctionNode
    have hb := hints_bare (hu.1 f hf).1 (hu.1 f hf).2
    simp [getFuncTypes, hb]
  rw [this]; rfl

theorem createArgs_total {create : Option Ty → Rand (List Node)} (ts : List (Option Ty))
    (h : ∀ τ ∈ ts, Total (create τ)) : Total (createArgs create ts) := by
  induction ts with
  | nil => exact Total.pure
  | cons τ ts ih =>
    exact Total.bind (h τ (by simp)) Post.trivial fun _ _ =>
      Total.bind (ih fun σ hσ => h σ (by simp [hσ])) Post.trivial fun _ _ => Total.pure

theorem untyped_legal {c : Cfg} (hu : c.Untyped) {f : Fn} (hf : f ∈ c.functionSet) : f.Legal :=
  .inr (hu.1 f hf)

theorem terminalStep_total {c : Cfg} (hu : c.Untyped) (ht : c.HasTerminal) :
    Total (do
      let n ← randomTerminal c none
      let n ← assertNode n
      pure [n]) := by
  intro s
  obtain ⟨n, s', h⟩ := randomTerminal_total hu ht s
  exact ⟨[n], s', bind_ok.2 ⟨some n, s', h, rfl⟩⟩

theorem fullTree_total {c : Cfg} (hu : c.Untyped) (ht : c.HasTerminal) (hf : c.functionSet ≠ [])
    (rem : Nat) : Total (fullTree c rem none) := by
  induction rem with
  | zero => exact terminalStep_total hu ht
  | succ rem ih =>
    unfold fullTree
    intro s
    obtain ⟨n, s1, h1⟩ := randomFunction_total hu hf s
    obtain ⟨f, hfm, rfl, -, hl⟩ := randomFunction_post c none s _ s1 h1 n rfl
    have hargs : Total (createArgs (fullTree c rem) ((getFuncTypes f).dropLast)) := by
      refine createArgs_total _ fun τ hτ => ?_
      rw [getFuncTypes_legal hl, List.dropLast_concat] at hτ
      rw [(hu.1 f hfm).1 τ hτ]
      exact ih
    obtain ⟨as, s2, h2⟩ := hargs s1
    exact ⟨.func f :: as, s2, bind_ok.2 ⟨_, s1, h1, bind_ok.2 ⟨_, s1, rfl,
      bind_ok.2 ⟨as, s2, h2, rfl⟩⟩⟩⟩

theorem growTree_total {c : Cfg} (hu : c.Untyped) (ht : c.HasTerminal) (hf : c.functionSet ≠ [])
    (p : ℚ) (fuel : Nat) : ∀ need rem, Total (growTree c p fuel need rem none) := by
  induction fuel with
  | zero => intro _ _; exact terminalStep_total hu ht
  | succ fuel ih =>
    intro need rem
    unfold growTree
    refine Total.bind (Q := fun _ => True) ?_ Post.trivial fun b _ => ?_
    · split
      · exact Total.pure
      · split
        · exact Total.pure
        · exact Total.bind random_total Post.trivial fun _ _ => Total.pure
    · split
      · intro s
        obtain ⟨n, s1, h1⟩ := randomFunction_total hu hf s
        obtain ⟨f, hfm, rfl, -, hl⟩ := randomFunction_post c none s _ s1 h1 n rfl
        have hargs : Total (createArgs (growTree c p fuel (need - 1) (rem - 1)) (childTypes f)) := by
          refine createArgs_total _ fun τ hτ => ?_
          rw [childTypes_legal hl] at hτ
          rw [(hu.1 f hfm).1 τ hτ]
          exact ih _ _
        obtain ⟨as, s2, h2⟩ := hargs s1
        exact ⟨.func f :: as, s2, bind_ok.2 ⟨_, s1, h1, bind_ok.2 ⟨_, s1, rfl,
          bind_ok.2 ⟨as, s2, h2, rfl⟩⟩⟩⟩
      · exact terminalStep_total hu ht

end Verif.GP
