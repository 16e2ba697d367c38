import Verif.Lemmas.Total
import Verif.Props.Legal

/-! # C80: runs whose parts do not raise complete -/

namespace Verif.Evo
open PyM
variable {G κ : Type} {P : G → Prop} {K : κ → Prop}

/-- **C80.** If nothing in the configuration raises — creators, selection, operators (on individuals
satisfying an invariant `P` they keep), evaluator, checkers — and the sizes fit together, the run returns, and
its end is as promised.  The checkers need only answer when the population has been evaluated, in states satisfying an
invariant `K` they keep. -/
theorem C80_completes {c : Cfg G κ} {sub : SubCfg G} {m : Mode} (hc : c.Sound P sub m K) {s : Run G κ}
    (ho : s.Open P c sub m K) : ∃ s', evolve c s = (.ok (), s') ∧ Completed P c sub m s' := by
  obtain ⟨_, s', h1, h2⟩ := evolve_total hc ho
  exact ⟨s', h1, h2⟩

/-! ## Components that work -/

theorem Op.inPlace_worksOn {name : String} {p : ℚ} {arity : Nat} {f : List G → Rand (Option (List G))}
    (hf : ∀ gs, gs.length = arity → (∀ g ∈ gs, P g) → Ensures (f gs) (fun r => r ≠ none)) :
    (Op.inPlace name p arity f).WorksOn P := by
  intro refs s hv hl
  unfold Op.inPlace
  dsimp only
  have hgen : wp (genomes refs) (fun gs s' => s' = s ∧ gs.length = refs.length ∧ ∀ g ∈ gs, P g) s := by
    unfold genomes
    refine wp_mapL (I := fun rs gs s' => s' = s ∧ gs.length = rs.length ∧ ∀ g ∈ gs, P g)
      ⟨rfl, rfl, by simp⟩ ?_
    rintro pre r post gs s' hrefs ⟨rfl, h, hP⟩
    rw [wp_bind, wp_deref]
    obtain ⟨i, hi, hp⟩ := hv r (by simp [hrefs])
    refine ⟨i, hi, ?_⟩
    rw [wp_pure]
    refine ⟨rfl, by simp [h], fun g hg => ?_⟩
    rcases List.mem_append.1 hg with hg | hg
    · exact hP g hg
    · simp only [List.mem_singleton] at hg
      exact hg ▸ hp
  rw [wp_bind]
  refine hgen.mono ?_
  rintro gs _ ⟨rfl, hgs, hP⟩
  rename_i s
  rw [wp_bind, wp_rand]
  obtain ⟨res, t, hrun, hres⟩ := hf gs (hgs.trans hl) hP s.tape
  refine ⟨res, t, hrun, ?_⟩
  cases res with
  | none => exact absurd rfl hres
  | some gs' =>
    dsimp only
    rw [wp_bind]
    refine wp.mono (Q := fun _ _ => True) ?_ fun _ _ _ => by rw [wp_pure]; simp
    refine wp_forL (I := fun _ _ => True) trivial ?_
    intro pre q post s _ _
    rw [wp_update]; trivial

theorem Op.withFallback_worksOn {name : String} {p : ℚ} {arity : Nat} {f : List G → Rand (Bool × List G)}
    {inner : Op G} (hf : ∀ gs, gs.length = arity → (∀ g ∈ gs, P g) → Ensures (f gs) (fun r => ∀ g ∈ r.2, P g))
    (hi : inner.WorksOn P) (hg : inner.Good) (ha : inner.arity = arity) :
    (Op.withFallback name p arity f inner).WorksOn P := by
  intro refs s hv hl
  unfold Op.withFallback
  dsimp only
  have hgen : wp (genomes refs) (fun gs s' => s' = s ∧ gs.length = refs.length ∧ ∀ g ∈ gs, P g) s := by
    unfold genomes
    refine wp_mapL (I := fun rs gs s' => s' = s ∧ gs.length = rs.length ∧ ∀ g ∈ gs, P g)
      ⟨rfl, rfl, by simp⟩ ?_
    rintro pre r post gs s' hrefs ⟨rfl, h, hP⟩
    rw [wp_bind, wp_deref]
    obtain ⟨i, hi, hp⟩ := hv r (by simp [hrefs])
    refine ⟨i, hi, ?_⟩
    rw [wp_pure]
    refine ⟨rfl, by simp [h], fun g hg => ?_⟩
    rcases List.mem_append.1 hg with hg | hg
    · exact hP g hg
    · simp only [List.mem_singleton] at hg
      exact hg ▸ hp
  rw [wp_bind]
  refine hgen.mono ?_
  rintro gs _ ⟨rfl, hgs, hP⟩
  rename_i s
  rw [wp_bind, wp_rand]
  obtain ⟨⟨b, gs'⟩, t, hrun, hres⟩ := hf gs (hgs.trans hl) hP s.tape
  refine ⟨(b, gs'), t, hrun, ?_⟩
  dsimp only at hres ⊢
  rw [wp_bind]
  have hput : wp (putGenomes refs gs') (fun _ _ => True) ({ s with tape := t } : World G) := by
    refine wp_forL (I := fun _ _ => True) trivial ?_
    intro pre q post s _ _
    rw [wp_update]; trivial
  have hcar := updates_carry (P := P) (fun q : Nat × G => q.1) (fun q i => { i with genome := q.2 })
    (refs.zip gs') (fun q hq i _ => hres q.2 (List.of_mem_zip hq).2) ({ s with tape := t } : World G)
  refine (hput.and hcar).mono fun _ s' h => ?_
  rw [wp_ite]
  refine ⟨fun _ => by rw [wp_pure]; simp, fun _ => ?_⟩
  rw [wp_bind]
  exact (applyOperator_worksOn hg hi (h.2 refs hv) (hl.trans ha.symm)).mono fun _ _ _ => by rw [wp_pure]; simp

/-- The creator returns when it is asked for `n` individuals. -/
def Returns (n : Nat) (create : Nat → Bool → WM G (List Nat)) : Prop :=
  ∀ h s, wp (create n h) (fun _ _ => True) s

theorem Returns.works {n : Nat} {hib : Bool} {create : Nat → Bool → WM G (List Nat)}
    (h1 : Returns n create) (h2 : CreatorCounts create) (h3 : Makes P create) :
    CreatorWorks P n hib create := fun s =>
  ((h1 hib s).and ((h2 n hib s).and (h3 n hib s))).mono fun _ _ h => ⟨h.2.1, h.2.2.2⟩

theorem createIndividuals_returns (empty : G) {genome : Rand G} (fit : Bool → Fit) (up : Bool)
    (hg : Total genome) (n : Nat) : Returns n (createIndividuals empty genome fit up) := by
  intro h s
  unfold createIndividuals
  rw [wp_bind]
  refine (newInds_wp empty (fit h) up n s).mono fun res s₁ _ => ?_
  rw [wp_bind]
  refine wp.mono (Q := fun _ _ => True) ?_ fun _ _ _ => by rw [wp_pure]; trivial
  refine wp_forL (I := fun _ _ => True) trivial ?_
  intro pre q post s _ _
  rw [wp_bind, wp_rand]
  obtain ⟨g, t, hrun⟩ := hg s.tape
  exact ⟨g, t, hrun, by dsimp only; rw [wp_update]; trivial⟩

theorem halfGroups_returns {grow full : Nat → Nat → Bool → WM G (List Nat)}
    (hg : ∀ d k, Returns k (grow d)) (hf : ∀ d k, Returns k (full d)) (k : Nat) (h : Bool) (ds : List Nat)
    (s : World G) : wp (halfGroups grow full k h ds) (fun _ _ => True) s := by
  induction ds generalizing s with
  | nil => unfold halfGroups; rw [wp_pure]; trivial
  | cons d ds ih =>
    unfold halfGroups
    rw [wp_bind]
    refine (hg d k h s).mono fun a s₁ _ => ?_
    rw [wp_bind]
    refine (hf d k h s₁).mono fun b s₂ _ => ?_
    rw [wp_bind]
    refine (ih s₂).mono fun rest s₃ _ => ?_
    rw [wp_pure]; trivial

theorem halfCreate_returns {grow full : Nat → Nat → Bool → WM G (List Nat)}
    (hg : ∀ d k, Returns k (grow d)) (hf : ∀ d k, Returns k (full d)) (minDepth : Nat) {depths n : Nat}
    (hd : 0 < depths) (hn : 2 * depths ≤ n) : Returns n (halfCreate grow full minDepth depths) := by
  intro h s
  unfold halfCreate
  have : n / (2 * depths) ≠ 0 := (Nat.div_pos hn (by omega)).ne'
  dsimp only
  rw [if_neg this, wp_bind]
  refine (halfGroups_returns hg hf _ h _ s).mono fun inds s₁ _ => ?_
  rw [wp_ite]
  refine ⟨fun _ => ?_, fun _ => by rw [wp_pure]; trivial⟩
  rw [wp_bind]
  refine (hf _ _ h s₁).mono fun more s₂ _ => ?_
  rw [wp_pure]; trivial

/-- Tournament selection works on evaluated populations that are large enough for a tournament. -/
theorem tournament_worksOn {size : G → Nat} {hib : Bool} {n k : Nat} {replace : Bool} (hk : 0 < k)
    (hn : if replace then 0 < n else k ≤ n) : (tournament size k replace).WorksOn size hib n := by
  intro source dest s hl he
  refine wp.mono (C26_tournament dest he hk ?_) fun _ _ _ => trivial
  subst hl
  cases replace
  · simpa using hn
  · simpa [List.length_pos_iff] using hn

theorem Cfg.BuiltWith.sound {c : Cfg G κ} {sub : SubCfg G} {m : Mode}
    {CR : (Nat → Bool → WM G (List Nat)) → Prop} {OP : Op G → Prop} (h : c.BuiltWith sub m CR OP)
    (hs : c.Smooth P sub K)
    (hcg : ∀ create, CR create → CreatorGood m create)
    (hcw : ∀ create, CR create → CreatorWorks P sub.popSize sub.hib create)
    (hog : ∀ o, OP o → o.Good) (hop : ∀ o, OP o → o.Preserves P) (how : ∀ o, OP o → o.WorksOn P) :
    c.Sound P sub m K where
  toOrdinary := h.ordinary hcg hog
  popSize := hs.popSize
  arities := hs.arities
  pick := hs.pick
  create := fun x hx => hcw x (h.creators x hx)
  select := hs.select
  preserve := fun o ho => hop o (h.ops o ho)
  operate := fun o ho => how o (h.ops o ho)
  evaluate := hs.evaluate
  calm := hs.calm

end Verif.Evo

/-! ## Vectors -/

namespace Verif.GA
open PyM Verif.Evo
variable {κ : Type} {K : κ → Prop} {kind : Kind} {bounds : Bounds} {length : Nat} {m : Mode}

theorem LibCreator.works (hb : bounds.Proper kind length) {create : Nat → Bool → WM Vec (List Nat)}
    (h : LibCreator kind bounds length m create) (n : Nat) (hib : Bool) :
    CreatorWorks (Legal kind bounds length) n hib create := by
  refine Returns.works ?_ ?_ (h.makes hb)
  · cases h with
    | mk fit up hf =>
      have := createIndividuals_returns (⟨kind, bounds, length, []⟩ : Vec) fit up
        (createVector_ensures hb.legal hb.integral hb.pair).total n
      intro h s
      unfold vectorCreator
      rw [hb.accepted, Bool.not_true, Bool.and_false, if_neg (by simp)]
      exact this h s
  · cases h with
    | mk fit up hf =>
      intro n h s
      unfold vectorCreator
      rw [hb.accepted, Bool.not_true, Bool.and_false, if_neg (by simp)]
      exact createIndividuals_counts _ _ _ _ n h s

theorem PairedOp.worksOn (hb : bounds.Proper kind length) {o : Op Vec} (h : PairedOp kind length o) :
    o.WorksOn (Legal kind bounds length) := by
  obtain ⟨h, h2⟩ := h
  cases h with
  | crossover p a k hk =>
    refine Op.inPlace_worksOn fun gs hl hgs => ?_
    have ha : 2 ≤ a := h2 rfl
    match gs, hl, hgs with
    | [], hl, _ => simp at hl; omega
    | [_], hl, _ => simp at hl; omega
    | u :: v :: others, _, hgs =>
      obtain ⟨-, -, -, a4, -⟩ := hgs u (by simp)
      obtain ⟨-, -, -, b4, -⟩ := hgs v (by simp)
      exact Ensures.bind (C16_genes_conserved k u v others (by unfold Vec.size; omega)
        (by unfold Vec.size; omega)) fun _ _ => Ensures.pure (by simp)
  | mutation c p a hc hn =>
    have key : ∀ (d : MutationClass) (name : String), d.kind = kind → (∀ n, d.points = some n → n ≤ length) →
        (mutationOp name p a (d.op p)).WorksOn (Legal kind bounds length) := by
      intro d name hc hn
      refine Op.inPlace_worksOn fun gs _ hgs => ?_
      refine (d.op_keeps p fun v hv => (hgs v hv).suits hb hc hn).mono ?_
      rintro _ ⟨out, rfl, -⟩
      simp
    rcases c.asOp_eq p a with ⟨name, e⟩ | ⟨name, d, hd, hpt, hfl, n, mu, sigma, at', hpn, hop, name', e', e⟩
    · rw [e]
      exact key c name hc hn
    · rw [e, e']
      refine Op.withFallback_worksOn (fun gs _ hgs => ?_) (key d name' (hd.trans hc) (by rw [hpt]; exact hn))
        (Op.inPlace_good _ _ _ _) rfl
      rw [hop]
      refine (gauss_tries fun v hv => ?_).mono fun r hr => Legal.of_keeps hgs hr
      obtain ⟨h1, h2, h3⟩ := (hgs v hv).suits hb hc hn
      exact ⟨h1.length, h2, h3, h1.kind.trans hfl, h1.enough n hpn⟩

/-- **C80, vectors.** A run put together from the library's vector creators, crossover (at least two parents)
and mutations, with proper bounds, completes if the evaluator and the checkers do not raise on legal vectors
and the sizes fit together. -/
theorem C80_vectors (hb : bounds.Proper kind length) {c : Evo.Cfg Vec κ} {sub : SubCfg Vec}
    (h : c.BuiltWith sub m (LibCreator kind bounds length m) (PairedOp kind length))
    (hs : c.Smooth (Legal kind bounds length) sub K) {s : Run Vec κ}
    (ho : s.Open (Legal kind bounds length) c sub m K) :
    ∃ s', evolve c s = (.ok (), s') ∧ Completed (Legal kind bounds length) c sub m s' :=
  C80_completes (h.sound hs (fun _ h => h.good hb) (fun _ h => h.works hb _ _) (fun _ h => h.1.good)
    (fun _ h => h.1.preserves hb) (fun _ h => h.worksOn hb)) ho

/-- The run of `exLibCfg` is one of those C80 is about. -/
example : ∃ s', evolve exLibCfg exLibRun = (.ok (), s') ∧
    Completed (Legal .float (.tup [0, 1]) 3) exLibCfg exLibSub ⟨true, none⟩ s' := by
  refine C80_vectors exLib_proper { exLibCfg_built with ops := ?_ } ⟨?_, ?_, ?_, ?_, ?_, ?_⟩
    ⟨.inl rfl, ?_, ?_, rfl, fun _ _ => trivial⟩
  · intro o ho
    simp only [exLibSub, List.mem_cons, List.not_mem_nil, or_false] at ho
    rcases ho with rfl | rfl
    · exact ⟨.crossover _ _ _ (by omega), fun _ => le_refl _⟩
    · refine ⟨.mutation _ _ _ rfl (by simp [MutationClass.points]), fun h => ?_⟩
      simp [MutationClass.asOp, gaussNOp, Op.withFallback] at h
  · decide
  · intro a ha
    simp [exLibSub, crossoverOp, MutationClass.asOp, gaussNOp, Op.withFallback, Op.inPlace, tournament] at ha
    rcases ha with rfl | rfl | rfl <;> decide
  · exact fun t => ⟨0, t, rfl, by decide⟩
  · intro sel rest h
    simp only [exLibSub, List.cons.injEq] at h
    obtain ⟨rfl, -⟩ := h
    exact tournament_worksOn (by omega) (by simp [exLibSub])
  · exact fun _ _ => Total.pure
  · trivial
  · simp [exLibRun]
  · simp [Cfg.Fits, exLibCfg, exLibRun]

end Verif.GA

/-! ## Programs -/

namespace Verif.GP
open PyM Verif.Evo
variable {κ : Type} {K : κ → Prop} {cfg : GP.Cfg} {m : Mode}

/-- An untyped configuration with a function and a terminal is plain. -/
theorem Cfg.Untyped.plain (hu : cfg.Untyped) (hr : cfg.rootType = none) (ht : cfg.HasTerminal) (hf : cfg.functionSet ≠ [])
    (hn : ∀ kv ∈ cfg.terminalSet, kv.1.data.isNumber = true → kv.1.data.num? ≠ none) : cfg.Plain := by
  have hm : ∀ τ, cfg.Mentions τ → τ = none := by
    rintro τ (h | ⟨f, hf, h | h⟩ | ⟨kv, hkv, h⟩)
    · rw [h, hr]
    · exact (hu.1 f hf).1 τ h
    · rw [h, (hu.1 f hf).2]
    · rw [← h, hu.2 kv hkv]
  have huse : ∀ τ, cfg.Uses τ → τ = none := by
    rintro τ (h | ⟨-, -, t, h, -⟩)
    · exact hm τ h
    · cases hm _ h
  refine ⟨fun f hf => .inr (hu.1 f hf), fun τ hτ => ?_, fun τ hτ => ?_, ht.2, hn⟩
  · obtain ⟨f, l, hl⟩ := List.exists_cons_of_ne_nil hf
    have hfm : f ∈ cfg.functionSet := by rw [hl]; exact List.mem_cons_self
    exact ⟨f, hfm, by rw [(hu.1 f hfm).2, huse τ hτ]⟩
  · rw [huse τ hτ]
    rcases ht.1 with h | h
    · obtain ⟨kv, l, hl⟩ := List.exists_cons_of_ne_nil h
      have hk : kv ∈ cfg.terminalSet := by rw [hl]; exact List.mem_cons_self
      exact .inl ⟨kv, hk, hu.2 kv hk⟩
    · exact .inr ⟨h, fun _ h => by cases h⟩

/-- A typed configuration the setup of a creator accepts (a dictionary of terminals, annotated functions) is plain
if every type a function takes is returned by a function, and every type a function returns has a terminal or is the
type of the constants. -/
theorem Cfg.plain_of_setup {fs : List Fn} {kvs : List (Val × Option Ty)} {root : Option Ty} {erc : Option Erc}
    (h : handleInputTypes (some fs) (some (.dict kvs)) root erc = .ok cfg) (hl : ∀ f ∈ fs, f.Legal)
    (hf : ∀ f ∈ fs, ∀ t ∈ f.params, ∃ g ∈ fs, g.ret = t)
    (hret : ∀ f ∈ fs, (∃ kv ∈ kvs, kv.2 = f.ret) ∨ (erc ≠ none ∧ f.ret = cfg.ercType))
    (hu : ∀ e, erc = some e → e.Usable)
    (hn : ∀ kv ∈ kvs, kv.1.data.isNumber = true → kv.1.data.num? ≠ none) : cfg.Plain := by
  simp only [handleInputTypes] at h
  split at h
  · cases h
  split at h
  · cases h
  rename_i hroot
  split at h
  · cases h
  rename_i herc
  split at h
  swap
  · cases h
  rename_i hsub
  cases h
  have hargs : ∀ t ∈ fs.flatMap (fun f => (getFuncTypes f).dropLast), ∃ g ∈ fs, g.ret = t := by
    intro t ht
    obtain ⟨f, hfm, ht⟩ := List.mem_flatMap.1 ht
    rw [getFuncTypes_legal (hl f hfm), List.dropLast_concat] at ht
    exact hf f hfm t ht
  have hfun : ∀ τ, Cfg.Uses ⟨fs, kvs, erc, root⟩ τ → ∃ f ∈ fs, f.ret = τ := by
    rintro τ ((h | ⟨f, hfm, h | h⟩ | ⟨kv, hkv, h⟩) | ⟨h1, h2, -⟩)
    · rw [not_not, List.mem_map] at hroot
      exact h ▸ hroot
    · exact hf f hfm τ h
    · exact ⟨f, hfm, h.symm⟩
    · exact hargs τ (hsub.2 (List.mem_append_left _ (List.mem_map.2 ⟨kv, hkv, h⟩)))
    · have h3 : Cfg.ercType ⟨fs, kvs, erc, root⟩ ≠ none := by simpa [Cfg.ercType] using h1
      have : Cfg.ercType ⟨fs, kvs, erc, root⟩ ∈ fs.map getReturnType := by
        by_contra hno
        exact herc ⟨h3, hno⟩
      rw [h2]
      exact List.mem_map.1 this
  refine ⟨hl, hfun, fun τ hτ => ?_, hu, hn⟩
  obtain ⟨f, hfm, rfl⟩ := hfun τ hτ
  rcases hret f hfm with h | ⟨h1, h2⟩
  · exact .inl h
  · refine .inr ⟨h1, fun t ht => ?_⟩
    rw [h2] at ht
    simp only [Cfg.ercType, Option.map_eq_some_iff] at ht
    obtain ⟨e, -, rfl⟩ := ht
    split <;> rfl

theorem Cfg.Plain.root (_ : cfg.Plain) : cfg.Uses cfg.rootType := .inl (.inl rfl)

theorem Cfg.uses_param {f : Fn} (hf : f ∈ cfg.functionSet) {τ : Option Ty} (h : τ ∈ f.params) : cfg.Uses τ :=
  .inl (.inr (.inl ⟨f, hf, .inl h⟩))

theorem Cfg.uses_ret {f : Fn} (hf : f ∈ cfg.functionSet) : cfg.Uses f.ret :=
  .inl (.inr (.inl ⟨f, hf, .inr rfl⟩))

/-- If a numeric type is in use, the type of the constants is. -/
theorem Cfg.Uses.erc {t : Ty} (h : cfg.Uses (some t)) (hn : t.isNumber = true) {e : Erc} (he : cfg.erc = some e) :
    cfg.Uses cfg.ercType := by
  rcases h with h | ⟨h1, -, t', h3, h4⟩
  · exact .inr ⟨by rw [he]; simp, rfl, t, h, hn⟩
  · exact .inr ⟨h1, rfl, t', h3, h4⟩

theorem randomTerminal_works (hp : cfg.Plain) {τ : Option Ty} (hτ : cfg.Uses τ) :
    ∀ s, ∃ n s', randomTerminal cfg τ s = (.ok (some n), s') := by
  have hrel : Total (relevantTerminals cfg τ) ∧ Post (relevantTerminals cfg τ) fun rel => rel ≠ [] := by
    unfold relevantTerminals
    simp only
    have hbase : (∃ kv ∈ cfg.terminalSet, kv.2 = τ) →
        (cfg.terminalSet.filter fun kv => decide (kv.2 = τ)).map (·.1) ≠ [] := by
      rintro ⟨kv, hkv, e⟩ h
      rw [List.map_eq_nil_iff, List.filter_eq_nil_iff] at h
      exact h kv hkv (by simpa using e)
    have happ : (∀ t, τ = some t → t.isNumber = true) → ercApplies τ = true := by
      intro h
      unfold ercApplies
      split
      · rfl
      · exact h _ rfl
    cases he : cfg.erc with
    | none =>
      refine ⟨Total.pure, Post.pure ?_⟩
      rcases hp.terminal τ hτ with h1 | h1
      · exact hbase h1
      · exact absurd he h1.1
    | some e =>
      simp only
      split
      · exact ⟨Total.bind (drawErc_total (hp.usable e he)) Post.trivial fun _ _ => Total.pure,
          Post.bind Post.trivial fun _ _ => Post.pure (by simp)⟩
      · rename_i hno
        refine ⟨Total.pure, Post.pure ?_⟩
        rcases hp.terminal τ hτ with h1 | h1
        · exact hbase h1
        · exact absurd (happ h1.2) hno
  intro s
  obtain ⟨rel, s1, h1⟩ := hrel.1 s
  have hne := hrel.2 s rel s1 h1
  obtain ⟨v, s2, h2⟩ := Rand.choice_total hne s1
  refine ⟨.term v (terminalType cfg τ v), s2, ?_⟩
  unfold randomTerminal
  rw [bind_ok]
  refine ⟨rel, s1, h1, ?_⟩
  rw [if_neg hne, bind_ok]
  exact ⟨v, s2, h2, rfl⟩

theorem mkFunctionNode_legal {f : Fn} (h : f.Legal) : mkFunctionNode f = .ok (.func f) := by
  unfold mkFunctionNode
  rw [getFuncTypes_legal h]
  simp [Fn.arity]

theorem randomFunction_works (hp : cfg.Plain) {τ : Option Ty} (hτ : cfg.Uses τ) :
    ∀ s, ∃ n s', randomFunction cfg τ s = (.ok (some n), s') := by
  intro s
  obtain ⟨f₀, hf₀, e₀⟩ := hp.function τ hτ
  have hne : (cfg.functionSet.filter fun f => decide (getReturnType f = τ)) ≠ [] := by
    intro h
    rw [List.filter_eq_nil_iff] at h
    exact h f₀ hf₀ (decide_eq_true e₀)
  unfold randomFunction
  rw [if_neg hne]
  obtain ⟨f, s1, h1⟩ := Rand.choice_total hne s
  have hf := Rand.choice_post _ s f s1 h1
  refine ⟨.func f, s1, ?_⟩
  rw [bind_ok]
  refine ⟨f, s1, h1, ?_⟩
  rw [mkFunctionNode_legal (hp.legal f (List.mem_filter.1 hf).1)]; rfl

theorem terminalStep_works (hp : cfg.Plain) {τ : Option Ty} (hτ : cfg.Uses τ) :
    Total (do
      let n ← randomTerminal cfg τ
      let n ← assertNode n
      pure [n]) := by
  intro s
  obtain ⟨n, s', h⟩ := randomTerminal_works hp hτ s
  exact ⟨[n], s', bind_ok.2 ⟨some n, s', h, rfl⟩⟩

theorem fullTree_works (hp : cfg.Plain) (rem : Nat) : ∀ τ, cfg.Uses τ → Total (fullTree cfg rem τ) := by
  induction rem with
  | zero => intro τ hτ; exact terminalStep_works hp hτ
  | succ rem ih =>
    intro τ hτ s
    unfold fullTree
    obtain ⟨n, s1, h1⟩ := randomFunction_works hp hτ s
    obtain ⟨f, hfm, rfl, -, hl⟩ := randomFunction_post cfg τ s _ s1 h1 n rfl
    have hargs : Total (createArgs (fullTree cfg rem) ((getFuncTypes f).dropLast)) := by
      refine createArgs_total _ fun σ hσ => ?_
      rw [getFuncTypes_legal hl, List.dropLast_concat] at hσ
      exact ih σ (Cfg.uses_param hfm hσ)
    obtain ⟨as, s2, h2⟩ := hargs s1
    exact ⟨.func f :: as, s2, bind_ok.2 ⟨_, s1, h1, bind_ok.2 ⟨_, s1, rfl,
      bind_ok.2 ⟨as, s2, h2, rfl⟩⟩⟩⟩

theorem growTree_works (hp : cfg.Plain) (p : ℚ) (fuel : Nat) :
    ∀ need rem τ, cfg.Uses τ → Total (growTree cfg p fuel need rem τ) := by
  induction fuel with
  | zero => intro _ _ τ hτ; exact terminalStep_works hp hτ
  | succ fuel ih =>
    intro need rem τ hτ
    unfold growTree
    refine Total.bind (Q := fun _ => True) ?_ Post.trivial fun b _ => ?_
    · split
      · exact Total.pure
      · split
        · exact Total.pure
        · exact Total.bind random_total Post.trivial fun _ _ => Total.pure
    · split
      · intro s
        obtain ⟨n, s1, h1⟩ := randomFunction_works hp hτ s
        obtain ⟨f, hfm, rfl, -, hl⟩ := randomFunction_post cfg τ s _ s1 h1 n rfl
        have hargs : Total (createArgs (growTree cfg p fuel (need - 1) (rem - 1)) (childTypes f)) := by
          refine createArgs_total _ fun σ hσ => ?_
          rw [childTypes_legal hl] at hσ
          exact ih _ _ σ (Cfg.uses_param hfm hσ)
        obtain ⟨as, s2, h2⟩ := hargs s1
        exact ⟨.func f :: as, s2, bind_ok.2 ⟨_, s1, h1, bind_ok.2 ⟨_, s1, rfl,
          bind_ok.2 ⟨as, s2, h2, rfl⟩⟩⟩⟩
      · exact terminalStep_works hp hτ

/-- A terminal drawn for a type in use has a type in use. -/
theorem randomTerminal_uses {τ : Option Ty} (hτ : cfg.Uses τ) :
    Post (randomTerminal cfg τ) fun r => ∀ v t, r = some (.term v t) → cfg.Uses t := by
  intro s r s' hrun v t hr
  obtain ⟨w, hw, -, hcase⟩ := randomTerminal_post cfg τ s r s' hrun _ hr
  simp only [Node.term.injEq] at hw
  obtain ⟨rfl, rfl⟩ := hw
  unfold terminalType
  cases htg : tsGet cfg.terminalSet v with
  | some σ =>
    obtain ⟨k, hk, -⟩ := tsGet_some htg
    exact .inl (.inr (.inr ⟨_, hk, rfl⟩))
  | none =>
    cases τ with
    | none => exact hτ
    | some ty =>
      rcases hcase with hmem | ⟨happ, e, he, q, -, hqt⟩
      · exfalso
        unfold tsGet at htg
        rw [Option.map_eq_none_iff, List.find?_eq_none] at htg
        exact htg _ hmem (pyEq_refl _)
      · have h := hτ.erc (by simpa [ercApplies] using happ) he
        have e2 : cfg.ercType = some v.data.type := by rw [hqt]; simp [Cfg.ercType, he]
        rw [e2] at h
        exact h

theorem created_plain (hp : cfg.Plain) {lo hi : Nat} {p : Prog} {τ : Option Ty} (hτ : cfg.Uses τ)
    (h : Created cfg cfg.Uses lo hi p τ) : ∀ n ∈ p.flatten, n.Plain cfg := by
  have hleaf := h.leaves hτ (fun f hf σ hσ => Cfg.uses_param hf hσ) (fun _ t => cfg.Uses t)
    fun σ hσ => randomTerminal_uses hσ
  have hb := h.built
  clear h hτ
  induction p using Prog.ind with
  | hterm v t =>
    intro n hn
    simp only [Prog.flatten, List.mem_singleton] at hn
    subst hn
    refine ⟨hleaf (v, t) (by simp [Prog.terms]), ?_⟩
    rintro _ _ ⟨⟩ hnum
    rcases hb.2 (v, t) (by simp [Prog.terms]) with ⟨kv, hkv, e⟩ | ⟨e, he, q, hq, -⟩
    · simp only at e
      exact e ▸ hp.numbers kv hkv (by rw [e]; exact hnum)
    · simp only at hq
      rw [hq]; simp
  | happ f args ih =>
    intro n hn
    have hf := hb.1 f (by simp [Prog.fns])
    simp only [Prog.flatten, List.mem_cons, Prog.mem_flattenAll] at hn
    rcases hn with rfl | ⟨a, ha, hn⟩
    · exact ⟨by rw [node_type_legal hf.2]; exact Cfg.uses_ret hf.1, by simp⟩
    · refine ih _ ha (fun v hv => hleaf v ?_) ⟨fun g hg => hb.1 g ?_, fun v hv => hb.2 v ?_⟩ n hn
      · simp only [Prog.terms, Prog.mem_termsAll]; exact ⟨_, ha, hv⟩
      · simp only [Prog.fns, List.mem_cons, Prog.mem_fnsAll]; exact .inr ⟨_, ha, hg⟩
      · simp only [Prog.terms, Prog.mem_termsAll]; exact ⟨_, ha, hv⟩

theorem plain_creates (hp : cfg.Plain) {create : Rand (List Node)} {lo hi : Nat} {τ : Option Ty} (hτ : cfg.Uses τ)
    (h : Post create fun l => ∃ p : Prog, l = p.flatten ∧ Created cfg cfg.Uses lo hi p τ) :
    Post (do let t ← create; pure (⟨cfg, t⟩ : GP.Ind)) (PlainLegal cfg) :=
  Post.bind h fun _ ⟨p, e, hc⟩ => Post.pure ⟨⟨rfl, p, e, hc.ok, fun f hf => (hc.built.1 f hf).1⟩, by
    rw [e]; exact created_plain hp hτ hc⟩

theorem full_plain (hp : cfg.Plain) (d : Nat) (fit : Bool → Fit) (up : Bool) :
    Makes (PlainLegal cfg) (fullCreator cfg d fit up) ∧ ∀ n, Returns n (fullCreator cfg d fit up) := by
  unfold fullCreator treeCreator
  exact ⟨createIndividuals_makes' _ _ _ (plain_creates hp hp.root (fullTree_post cfg cfg.Uses d _)),
    createIndividuals_returns _ _ _ (Total.bind (fullTree_works hp d _ hp.root)
      Post.trivial fun _ _ => Total.pure)⟩

theorem grow_plain (hp : cfg.Plain) (q : ℚ) (lo hi : Nat) (fit : Bool → Fit) (up : Bool) :
    Makes (PlainLegal cfg) (growCreator cfg q lo hi fit up) ∧
      ∀ n, Returns n (growCreator cfg q lo hi fit up) := by
  unfold growCreator treeCreator
  exact ⟨createIndividuals_makes' _ _ _ (plain_creates hp hp.root (growTree_post cfg cfg.Uses q _ lo hi _ rfl)),
    createIndividuals_returns _ _ _ (Total.bind
      (growTree_works hp q _ lo hi _ hp.root) Post.trivial fun _ _ => Total.pure)⟩

theorem SizedCreator.lib {n : Nat} {create : Nat → Bool → WM GP.Ind (List Nat)}
    (h : SizedCreator cfg m n create) : LibCreator cfg m create := by
  cases h with
  | full _ _ _ h => exact .full _ _ _ h
  | grow _ _ _ _ _ h => exact .grow _ _ _ _ _ h
  | half _ _ _ _ _ h => exact .half _ _ _ _ _ h

theorem SizedCreator.works (hp : cfg.Plain) {n : Nat} {create : Nat → Bool → WM GP.Ind (List Nat)}
    (h : SizedCreator cfg m n create) (hib : Bool) : CreatorWorks (PlainLegal cfg) n hib create := by
  cases h with
  | full d fit up h =>
    exact Returns.works ((full_plain hp d fit up).2 n) (createIndividuals_counts _ _ _ _)
      (full_plain hp d fit up).1
  | grow q lo hi fit up h =>
    exact Returns.works ((grow_plain hp q lo hi fit up).2 n) (createIndividuals_counts _ _ _ _)
      (grow_plain hp q lo hi fit up).1
  | half q lo hi fit up h hd hn =>
    exact Returns.works
      (halfCreate_returns (fun d => (grow_plain hp q lo d fit up).2) (fun d => (full_plain hp d fit up).2) _
        (by omega) hn)
      (halfCreate_counts (fun _ => createIndividuals_counts _ _ _ _)
        (fun _ => createIndividuals_counts _ _ _ _) _ _)
      (halfCreate_makes (fun d => (grow_plain hp q lo d fit up).1) (fun d => (full_plain hp d fit up).1) _ _)

theorem crossover_keeps_plain (arity attempts : Nat) {inds : List GP.Ind}
    (h : ∀ i ∈ inds, PlainLegal cfg i) :
    Post (subtreeCrossover arity attempts inds) fun out => ∀ i ∈ out, PlainLegal cfg i := by
  obtain ⟨ps, hps⟩ := legal_programs fun i hi => (h i hi).1
  intro t out t' hrun i hi
  refine ⟨crossover_keeps_legal arity attempts (fun i hi => (h i hi).1) t out t' hrun i hi, fun n hn => ?_⟩
  have : n ∈ inds.flatMap (·.tree) :=
    (C06_crossover_conserves inds ps hps arity attempts t t' out hrun).2.subset
      (List.mem_flatMap.2 ⟨i, hi, hn⟩)
  obtain ⟨j, hj, hn⟩ := List.mem_flatMap.1 this
  exact (h j hj).2 n hn

theorem mutation_keeps_plain (hp : cfg.Plain) (lo hi attempts : Nat) {inds : List GP.Ind}
    (h : ∀ i ∈ inds, PlainLegal cfg i) :
    Post (subtreeMutation lo hi attempts inds) fun out => ∀ i ∈ out, PlainLegal cfg i := by
  obtain ⟨ps, hps⟩ := legal_programs fun i hi => (h i hi).1
  intro t out t' hrun i hi'
  refine ⟨mutation_keeps_legal lo hi attempts (fun i hi => (h i hi).1) t out t' hrun i hi', fun n hn => ?_⟩
  rcases mutation_post (fun _ => cfg.Uses) lo hi hps attempts t out t' hrun with rfl | ⟨tr, rfl, -, hm⟩
  · exact (h i hi').2 n hn
  · obtain ⟨k, hk, rfl⟩ := List.getElem_of_mem hi'
    have hk' : k < (inds.zip tr).length := hm.length_eq ▸ hk
    have hki : k < inds.length := by simp at hk'; omega
    have hkt : k < tr.length := by simp at hk'; omega
    have h1 := hm.get hk' hk
    simp only [List.get_eq_getElem, List.getElem_zip] at h1
    obtain ⟨r, nd, hnd, e, hc⟩ := h1
    have hj := h inds[k] (List.getElem_mem hki)
    have hrep : inds[k].tree = (tr[k].1.fill tr[k].2).flatten := by
      have := (hps.get hki (by simpa using hkt)).1
      simpa using this
    obtain ⟨pre, post, hfill⟩ := tr[k].1.flatten_fill
    rw [hfill] at hrep
    rw [e] at hn
    simp only [hfill, List.mem_append] at hn
    dsimp only at hnd hc
    have hpl : nd.Plain cfg := hj.2 nd (by
      rw [hrep]
      simp [List.mem_of_mem_head? hnd])
    rw [hj.1.1] at hc
    rcases hn with (hn | hn) | hn
    · exact hj.2 n (by rw [hrep]; simp [hn])
    · exact created_plain hp hpl.1 hc n hn
    · exact hj.2 n (by rw [hrep]; simp [hn])

theorem erc_keeps_plain (mu sigma : ℚ) {inds : List GP.Ind} (h : ∀ i ∈ inds, PlainLegal cfg i) :
    Post (ercMutation mu sigma inds) fun out => ∀ i ∈ out, PlainLegal cfg i := by
  obtain ⟨ps, hps⟩ := legal_programs fun i hi => (h i hi).1
  intro t out t' hrun i hi'
  refine ⟨erc_keeps_legal mu sigma (fun i hi => (h i hi).1) t out t' hrun i hi', fun n hn => ?_⟩
  rcases erc_post hps mu sigma t out t' hrun with rfl | hm
  · exact (h i hi').2 n hn
  · obtain ⟨k, hk, rfl⟩ := List.getElem_of_mem hi'
    have hk' : k < (inds.zip ps).length := hm.length_eq ▸ hk
    have hki : k < inds.length := by simp at hk'; omega
    have hkp : k < ps.length := by simp at hk'; omega
    have h1 := hm.get hk' hk
    simp only [List.get_eq_getElem, List.getElem_zip] at h1
    obtain ⟨C, v, v', ty, q, g, e1, -, -, hv', e⟩ := h1
    have hj := h inds[k] (List.getElem_mem hki)
    have hrep : inds[k].tree = (C.fill (.term v ty)).flatten := by
      have := (hps.get hki hkp).1
      simp only [List.get_eq_getElem] at this
      rw [this, e1]
    obtain ⟨pre, post, hfill⟩ := C.flatten_fill
    rw [hfill] at hrep
    rw [e] at hn
    simp only [hfill, List.mem_append, Prog.flatten, List.mem_singleton] at hn
    rcases hn with (hn | rfl) | hn
    · exact hj.2 n (by rw [hrep]; simp [hn])
    · refine ⟨(hj.2 (.term v ty) (by rw [hrep]; simp [Prog.flatten])).1, ?_⟩
      rintro _ _ ⟨⟩ -
      rw [hv']
      simp [Data.num?]
    · exact hj.2 n (by rw [hrep]; simp [hn])

theorem LibOp.preserves_plain (hp : cfg.Plain) {o : Op GP.Ind} (h : LibOp o) :
    o.Preserves (PlainLegal cfg) := by
  have aux : ∀ (f : List GP.Ind → Rand (List GP.Ind)),
      (∀ gs, (∀ g ∈ gs, PlainLegal cfg g) → Post (f gs) fun out => ∀ i ∈ out, PlainLegal cfg i) →
      ∀ gs, (∀ g ∈ gs, PlainLegal cfg g) → Post (do let out ← f gs; pure (some out)) fun res =>
        ∀ gs', res = some gs' → ∀ g ∈ gs', PlainLegal cfg g := by
    intro f hf gs hgs
    exact Post.bind (hf gs hgs) fun out ho => Post.pure (by rintro _ ⟨⟩; exact ho)
  cases h with
  | crossover p a n => exact Op.inPlace_preserves _ _ _ (aux _ fun _ => crossover_keeps_plain a n)
  | mutation p lo hi n => exact Op.inPlace_preserves _ _ _ (aux _ fun _ => mutation_keeps_plain hp lo hi n)
  | erc p a mu sigma => exact Op.inPlace_preserves _ _ _ (aux _ fun _ => erc_keeps_plain mu sigma)

theorem mutateSubtrees_total (hp : cfg.Plain) (lo hi : Nat) {inds : List Ind} {tr : List (Ctx × Prog)}
    (h : List.Forall₂ (fun ind x => ind.tree = (Ctx.fill x.1 x.2).flatten) inds tr)
    (hpl : ∀ i ∈ inds, PlainLegal cfg i) (hgood : ∀ x ∈ tr, GoodCut x) :
    Total (mutateSubtrees lo hi (inds.zip (tr.map fun x => x.2.flatten))) := by
  induction h with
  | nil => exact Total.pure
  | @cons ind x inds tr hx hxs ih =>
    obtain ⟨n, l, hnl⟩ := List.exists_cons_of_ne_nil x.2.flatten_ne_nil
    have hi' := hpl ind (by simp)
    obtain ⟨pre, post, hfill⟩ := x.1.flatten_fill
    have hn : cfg.Uses n.type := (hi'.2 n (by rw [hx, hfill, hnl]; simp)).1
    simp only [List.map_cons, List.zip_cons_cons]
    unfold mutateSubtrees
    rw [hnl]
    simp only
    rw [hi'.1.1]
    refine Total.bind (growTree_works hp (1 / 2) _ lo hi _ hn)
      (growTree_post cfg (fun _ => False) (1 / 2) _ lo hi _ rfl) fun new hnew => ?_
    obtain ⟨r, rfl, hr⟩ := hnew
    rw [hx, ← hnl, hgood x (by simp) r]
    refine Total.bind (fun s => ⟨_, s, rfl⟩) Post.trivial fun t _ => ?_
    exact Total.bind (ih (fun i hi => hpl i (by simp [hi])) fun y hy => hgood y (by simp [hy])) Post.trivial
      fun _ _ => Total.pure

theorem mutation_total (hp : cfg.Plain) (lo hi attempts : Nat) {inds : List GP.Ind}
    (h : ∀ i ∈ inds, PlainLegal cfg i) : Total (subtreeMutation lo hi attempts inds) := by
  obtain ⟨ps, hps⟩ := legal_programs fun i hi => (h i hi).1
  have hatt : ∀ k, Total (mutationAttempt lo hi inds k) := by
    intro k
    unfold mutationAttempt
    refine Total.bind (pick_total none hps) (pick_rest none hps) fun olds holds => ?_
    split
    · exact Total.pure
    rename_i hn
    obtain ⟨tr, h1, h2, h3, h4⟩ := holds hn
    rw [h2]
    subst h1
    exact Total.bind (mutateSubtrees_total hp lo hi (represents_trees hps) h h3) Post.trivial
      fun _ _ => Total.pure
  unfold subtreeMutation failableApply
  generalize hi : 0 = i
  clear hi
  induction attempts generalizing i with
  | zero => exact Total.pure
  | succ n ih =>
    refine Total.bind (hatt i) (mutationAttempt_post (fun _ _ => False) lo hi hps i) fun r hr => ?_
    obtain ⟨b, out⟩ := r
    rcases hr with ⟨h1, h2⟩ | ⟨h1, -⟩
    · simp only at h1 h2; subst h1 h2; exact ih _
    · simp only at h1; subst h1; exact Total.pure

theorem crossover_total {gs : List GP.Ind} (hgs : ∀ i ∈ gs, PlainLegal cfg i) (hne : gs ≠ []) {a : Nat}
    (hl : gs.length = a) (n : Nat) : Total (subtreeCrossover a n gs) := by
  intro t
  obtain ⟨ps, hps⟩ := legal_programs fun i hi => (hgs i hi).1
  obtain ⟨out, t', hrun, -⟩ := C05_crossover_legal gs ps hne hps (fun i hi j hj f hf => by
    rw [(hgs j hj).1.1]
    rwa [(hgs i hi).1.1] at hf) n t
  exact ⟨out, t', hl ▸ hrun⟩

theorem erc_total (mu sigma : ℚ) {gs : List GP.Ind} (hgs : ∀ i ∈ gs, PlainLegal cfg i) :
    Total (ercMutation mu sigma gs) := by
  intro t
  obtain ⟨ps, hps⟩ := legal_programs fun i hi => (hgs i hi).1
  obtain ⟨out, t', hrun, -⟩ := C09_erc_mutation gs ps hps (fun p hpm vt hvt hnum => by
    obtain ⟨k, hk, rfl⟩ := List.getElem_of_mem hpm
    have hk' : k < gs.length := hps.length_eq ▸ hk
    have hr : gs[k].tree = ps[k].flatten := (hps.get hk' hk).1
    exact ((hgs gs[k] (List.getElem_mem hk')).2 (.term vt.1 vt.2) (by
      rw [hr]; exact Prog.mem_terms_iff.1 hvt)).2 _ _ rfl hnum) mu sigma t
  exact ⟨out, t', hrun⟩

theorem LibOp.worksOn (hp : cfg.Plain) {o : Op GP.Ind} (h : LibOp o) (ha : o.arity ≠ 0) :
    o.WorksOn (PlainLegal cfg) := by
  have aux : ∀ {f : Rand (List GP.Ind)}, Total f →
      Ensures (do let out ← f; pure (some out)) fun res => res ≠ none := fun hf =>
    Ensures.bind (Ensures.of hf Post.trivial) fun out _ => Ensures.pure (by simp)
  cases h with
  | crossover p a n =>
    exact Op.inPlace_worksOn fun gs hl hgs => aux (crossover_total hgs (by rintro rfl; exact ha hl.symm) hl n)
  | mutation p lo hi n =>
    exact Op.inPlace_worksOn fun gs _ hgs => aux (mutation_total hp lo hi n hgs)
  | erc p a mu sigma =>
    exact Op.inPlace_worksOn fun gs _ hgs => aux (erc_total mu sigma hgs)

/-- **C80, programs.** A run put together from the library's tree creators (asked for enough individuals) and
its tree operators, over functions and terminals — typed or not — that have a function and a terminal for every
type in use, completes if the evaluator and the checkers do not raise on legal programs and the sizes fit together. -/
theorem C80_programs (hp : cfg.Plain) {c : Evo.Cfg GP.Ind κ} {sub : SubCfg GP.Ind}
    (h : c.BuiltWith sub m (SizedCreator cfg m sub.popSize) LibOp)
    (hs : c.Smooth (Legal cfg) sub K) {s : Run GP.Ind κ} (ho : s.Open (PlainLegal cfg) c sub m K) :
    ∃ s', evolve c s = (.ok (), s') ∧ Completed (Legal cfg) c sub m s' := by
  have ha : ∀ o ∈ sub.ops, o.arity ≠ 0 := fun o ho =>
    (hs.arities o.arity (List.mem_append_right _ (List.mem_map_of_mem ho))).1
  have h' : c.BuiltWith sub m (SizedCreator cfg m sub.popSize) fun o => LibOp o ∧ o.arity ≠ 0 :=
    { h with ops := fun o ho => ⟨h.ops o ho, ha o ho⟩ }
  have hs' : c.Smooth (PlainLegal cfg) sub K := { hs with evaluate := fun g hg => hs.evaluate g hg.1 }
  obtain ⟨s', hrun, b, x, is, h1, h2, h3, h4, h5, h6, h7⟩ := C80_completes
    (h'.sound hs' (fun _ h => h.lib.good) (fun _ h => h.works hp _) (fun _ h => h.1.good)
      (fun _ h => h.1.preserves_plain hp) (fun _ h => h.1.worksOn hp h.2)) ho
  refine ⟨s', hrun, b, x, is, h1, h2, h3, h4, h5, h6, fun r hr => ?_⟩
  obtain ⟨i, hi, hpl⟩ := h7 r hr
  exact ⟨i, hi, hpl.1⟩

/-! The run of `exLibCfg` is one of those C80 is about. -/

theorem exPlain : Sample.cfg.Plain :=
  Sample.cfg_untyped.plain rfl (by simp [Cfg.HasTerminal, Sample.cfg]) (by simp [Sample.cfg]) (by simp [Sample.cfg, Sample.x, Sample.y, Data.isNumber, Data.type, Ty.isNumber, Data.num?])

theorem exLibCfg_sized : exLibCfg.BuiltWith exLibSub ⟨true, none⟩
    (SizedCreator Sample.cfg ⟨true, none⟩ exLibSub.popSize) LibOp :=
  { exLibCfg_built with
    creators := by
      intro create h
      simp only [exLibSub, List.mem_singleton] at h
      subst h
      exact .half _ _ _ _ _ ⟨rfl, rfl⟩ (by omega) (by decide) }

theorem exLibCfg_smooth : exLibCfg.Smooth (Legal Sample.cfg) exLibSub where
  popSize := by decide
  arities := by
    intro a ha
    simp [exLibSub, crossoverOp, mutationOp, ercOp, Op.inPlace, tournament] at ha
    rcases ha with rfl | rfl | rfl | rfl <;> decide
  pick := fun t => ⟨0, t, rfl, by decide⟩
  select := by
    intro sel rest h
    simp only [exLibSub, List.cons.injEq] at h
    obtain ⟨rfl, -⟩ := h
    exact tournament_worksOn (by omega) (by simp [exLibSub])
  evaluate := fun _ _ => Total.pure
  calm := trivial

theorem exLibRun_open : exLibRun.Open (PlainLegal Sample.cfg) exLibCfg exLibSub ⟨true, none⟩ where
  ready := .inl rfl
  given := by simp [exLibRun]
  fits := by simp [Cfg.Fits, exLibCfg]
  executor := rfl

example : ∃ s', evolve exLibCfg exLibRun = (.ok (), s') ∧
    Completed (Legal Sample.cfg) exLibCfg exLibSub ⟨true, none⟩ s' :=
  C80_programs exPlain exLibCfg_sized exLibCfg_smooth exLibRun_open

end Verif.GP
