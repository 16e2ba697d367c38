import Verif.Spec.Complete
import Verif.Py.Reach
import Verif.Props.GPCreators

/-!
# C85: the tree creators create exactly the programs in their range
-/

namespace Verif.GP
open PyM

namespace Prog

theorem mem_termDepthsAll {ps : List Prog} {d : Nat} :
    d ∈ termDepthsAll ps ↔ ∃ p ∈ ps, d ∈ p.termDepths := by
  induction ps with
  | nil => simp [termDepthsAll]
  | cons p ps ih => simp [termDepthsAll, ih]

theorem mem_fnDepthsAll {ps : List Prog} {d : Nat} :
    d ∈ fnDepthsAll ps ↔ ∃ p ∈ ps, d ∈ p.fnDepths := by
  induction ps with
  | nil => simp [fnDepthsAll]
  | cons p ps ih => simp [fnDepthsAll, ih]

theorem growable_term {c : Cfg} {τ : Option Ty} {lo hi : Nat} {v : Val} {ty : Option Ty} :
    (Prog.term v ty).Growable c τ lo hi ↔ ty = τ ∧ c.Leaf v ty ∧ lo = 0 := by
  constructor
  · rintro ⟨h1, h2, h3, -⟩
    refine ⟨h1, h2.2 (v, ty) (by simp [Prog.terms]), ?_⟩
    have := (h3 0 (by simp [termDepths])).1
    omega
  · rintro ⟨h1, h2, rfl⟩
    exact ⟨h1, ⟨by simp [Prog.fns], by simpa [Prog.terms] using h2⟩,
      by simp [termDepths], by simp [fnDepths]⟩

theorem growable_app {c : Cfg} {τ : Option Ty} {lo hi : Nat} {f : Fn} {ps : List Prog} :
    (Prog.app f ps).Growable c τ lo hi ↔ 0 < hi ∧ f.ret = τ ∧ f ∈ c.functionSet ∧ f.Legal ∧
      List.Forall₂ (fun p σ => p.Growable c σ (lo - 1) (hi - 1)) ps f.params := by
  constructor
  · rintro ⟨h1, h2, h3, h4⟩
    have hpos : 0 < hi := h4 0 (by simp [fnDepths])
    obtain ⟨hr, hts⟩ := h1
    have hf := h2.1 f (by simp [Prog.fns])
    refine ⟨hpos, hr, hf.1, hf.2, ?_⟩
    rw [haveTypes_forall₂] at hts
    refine List.forall₂_iff_get.2 ⟨hts.length_eq, fun i hi1 hi2 => ?_⟩
    have hmem : ps.get ⟨i, hi1⟩ ∈ ps := List.get_mem _ _
    refine ⟨(List.forall₂_iff_get.1 hts).2 i hi1 hi2, ⟨fun g hg => ?_, fun vt hvt => ?_⟩,
      fun d hd => ?_, fun d hd => ?_⟩
    · exact h2.1 g (by simp only [Prog.fns, List.mem_cons, mem_fnsAll]; exact .inr ⟨_, hmem, hg⟩)
    · exact h2.2 vt (by simp only [Prog.terms, mem_termsAll]; exact ⟨_, hmem, hvt⟩)
    · have := h3 (d + 1) (by
        simp only [termDepths, List.mem_map, mem_termDepthsAll]; exact ⟨d, ⟨_, hmem, hd⟩, rfl⟩)
      omega
    · have := h4 (d + 1) (by
        simp only [fnDepths, List.mem_cons, List.mem_map, mem_fnDepthsAll]
        exact .inr ⟨d, ⟨_, hmem, hd⟩, rfl⟩)
      omega
  · rintro ⟨hpos, hr, hf, hl, hps⟩
    have hmem : ∀ p ∈ ps, ∃ σ, p.Growable c σ (lo - 1) (hi - 1) := by
      intro p hp
      obtain ⟨i, hi', rfl⟩ := List.getElem_of_mem hp
      have := List.forall₂_iff_get.1 hps
      exact ⟨_, this.2 i hi' (by rw [← this.1]; exact hi')⟩
    refine ⟨⟨hr, haveTypes_forall₂.2 (hps.imp fun _ _ h => h.typed)⟩, ⟨fun g hg => ?_, fun vt hvt => ?_⟩,
      fun d hd => ?_, fun d hd => ?_⟩
    · simp only [Prog.fns, List.mem_cons, mem_fnsAll] at hg
      rcases hg with rfl | ⟨p, hp, hg⟩
      · exact ⟨hf, hl⟩
      · obtain ⟨σ, h⟩ := hmem p hp
        exact h.drawn.1 g hg
    · simp only [Prog.terms, mem_termsAll] at hvt
      obtain ⟨p, hp, hvt⟩ := hvt
      obtain ⟨σ, h⟩ := hmem p hp
      exact h.drawn.2 vt hvt
    · simp only [termDepths, List.mem_map, mem_termDepthsAll] at hd
      obtain ⟨e, ⟨p, hp, he⟩, rfl⟩ := hd
      obtain ⟨σ, h⟩ := hmem p hp
      have := h.terms e he
      omega
    · simp only [fnDepths, List.mem_cons, List.mem_map, mem_fnDepthsAll] at hd
      rcases hd with rfl | ⟨e, ⟨p, hp, he⟩, rfl⟩
      · exact hpos
      · obtain ⟨σ, h⟩ := hmem p hp
        have := h.fns e he
        omega

end Prog

theorem Cfg.Requests.param {c : Cfg} {τ : Option Ty} (h : c.Requests τ) {f : Fn}
    (hf : f ∈ c.functionSet) {σ : Option Ty} (hσ : σ ∈ f.params) : c.Requests σ := by
  rcases h with ⟨hu, rfl⟩ | ⟨h1, h2, -, -⟩
  · exact .inl ⟨hu, (hu.1 f hf).1 σ hσ⟩
  · exact .inr ⟨h1, h2, h1 f hf σ hσ, .inr ⟨f, hf, hσ⟩⟩

/-! ### Ephemeral constants -/

theorem drawErc_reach {e : Erc} (hu : e.Usable) {v : Val} (hv : e.Draws v.data) :
    Reach (drawErc e) v := by
  obtain ⟨r, d⟩ := v
  unfold drawErc
  rcases hv with ⟨hf, q, hq, hr⟩ | ⟨hf, z, hz, h1, h2⟩
  · rw [if_pos hf]
    simp only at hq
    subst hq
    exact (Reach.uniform hr).bind ((Reach.next r).bind (Reach.pure _))
  · rw [if_neg (by simp [hf])]
    simp only at hz
    subst hz
    rcases hu with h | ⟨ha, hb, -⟩
    · rw [hf] at h; simp at h
    · have hlo : e.lo = (e.lo.num : ℚ) := ((Rat.den_eq_one_iff _).1 ha).symm
      have hhi : e.hi = (e.hi.num : ℚ) := ((Rat.den_eq_one_iff _).1 hb).symm
      rw [hlo, hhi]
      rw [hlo] at h1
      rw [hhi] at h2
      exact (Reach.randint (by exact_mod_cast h1) (by exact_mod_cast h2)).bind
        ((Reach.next r).bind (Reach.pure _))

theorem drawErc_draws {e : Erc} (hle : e.lo ≤ e.hi) : Post (drawErc e) fun v => e.Draws v.data := by
  unfold drawErc
  refine Post.ite (fun h => ?_) fun h => ?_
  · refine Post.bind (Q := fun q => (e.lo ≤ q ∧ q < e.hi) ∨ q = e.lo) ?_ fun q hq =>
      Post.bind Post.trivial fun r _ => Post.pure (.inl ⟨h, q, rfl, hq⟩)
    unfold Rand.uniform
    refine Post.bind Rand.random_post fun u hu => Post.pure ?_
    rcases eq_or_lt_of_le hle with h | h
    · right; rw [h]; ring
    · left
      constructor <;> nlinarith [hu.1, hu.2]
  · refine Post.bind Rand.randint_post fun z hz =>
      Post.bind Post.trivial fun r _ => Post.pure (.inr ⟨by simpa using h, z, rfl, hz⟩)

theorem draws_exists {e : Erc} (hu : e.Usable) : ∃ v : Val, e.Draws v.data := by
  cases hf : e.isFloat with
  | true => exact ⟨⟨0, .float e.lo⟩, .inl ⟨hf, e.lo, rfl, .inr rfl⟩⟩
  | false =>
    rcases hu with h | ⟨ha, hb, hle⟩
    · rw [hf] at h; simp at h
    · have hlo : e.lo = (e.lo.num : ℚ) := ((Rat.den_eq_one_iff _).1 ha).symm
      exact ⟨⟨0, .int e.lo.num⟩, .inr ⟨hf, e.lo.num, rfl, by rw [← hlo], by rw [← hlo]; exact hle⟩⟩

theorem Erc.Draws.num {e : Erc} {d : Data} (h : e.Draws d) : ∃ q, d.num? = some q := by
  rcases h with ⟨-, q, rfl, -⟩ | ⟨-, z, rfl, -⟩
  · exact ⟨q, rfl⟩
  · exact ⟨z, rfl⟩

theorem Erc.Draws.type {c : Cfg} {e : Erc} (he : c.erc = some e) {d : Data} (h : e.Draws d) :
    c.ercType = some d.type := by
  unfold Cfg.ercType
  rw [he]
  rcases h with ⟨hf, q, rfl, -⟩ | ⟨hf, z, rfl, -⟩ <;> simp [hf, Data.type]

/-! ### Terminals and functions -/

theorem terminalType_leaf {c : Cfg} (hd : DistinctKeys c.terminalSet) {τ : Option Ty}
    (hreq : c.Requests τ) {v : Val} (hv : c.Leaf v τ) : terminalType c τ v = τ := by
  rcases hreq with ⟨hu, rfl⟩ | ⟨-, hsafe, hne, hreq⟩
  · unfold terminalType
    cases htg : tsGet c.terminalSet v with
    | none => rfl
    | some σ =>
      obtain ⟨k, hk, -⟩ := tsGet_some htg
      exact hu.2 _ hk
  · rcases hv with h | ⟨e, he, hdr, hty⟩
    · unfold terminalType; rw [tsGet_mem hd h]; rfl
    · have hτ : τ = c.ercType := by
        rcases hty with h | h
        · exact absurd h hne
        · exact h
      unfold terminalType
      cases htg : tsGet c.terminalSet v with
      | none =>
        have := hdr.type he
        rw [this] at hτ
        subst hτ
        rfl
      | some σ =>
        rcases hsafe with h | ⟨-, h2⟩
        · rw [he] at h; simp at h
        · obtain ⟨k, hk, hke⟩ := tsGet_some htg
          obtain ⟨q, hq⟩ := hdr.num
          simp only [Option.getD_some]
          rw [hτ]
          exact h2 _ hk (by
            show k.data.num? ≠ none
            rw [num?_of_pyEq hke hq]; simp)

theorem randomTerminal_reach {c : Cfg} (hd : DistinctKeys c.terminalSet) (herc : c.ErcProper)
    {τ : Option Ty} (hreq : c.Requests τ) {v : Val} (hv : c.Leaf v τ) :
    Reach (randomTerminal c τ) (some (.term v τ)) := by
  have hty := terminalType_leaf hd hreq hv
  suffices ∃ rel, Reach (relevantTerminals c τ) rel ∧ v ∈ rel by
    obtain ⟨rel, h1, h2⟩ := this
    unfold randomTerminal
    refine h1.bind ?_
    rw [if_neg (by intro h; rw [h] at h2; simp at h2)]
    refine (Reach.choice h2).bind ?_
    rw [hty]
    exact Reach.pure _
  rcases hv with h | ⟨e, he, hdr, hty'⟩
  · have hmem : v ∈ (c.terminalSet.filter fun kv => decide (kv.2 = τ)).map (·.1) := by
      simp only [List.mem_map, List.mem_filter, decide_eq_true_eq]
      exact ⟨(v, τ), ⟨h, rfl⟩, rfl⟩
    unfold relevantTerminals
    cases he : c.erc with
    | none => exact ⟨_, Reach.pure _, hmem⟩
    | some e =>
      by_cases ha : ercApplies τ = true
      · obtain ⟨w, hw⟩ := draws_exists (herc e he).2
        refine ⟨_, ?_, List.mem_append_left [w] hmem⟩
        simp only [ha, if_true]
        exact (drawErc_reach (herc e he).2 hw).bind (Reach.pure _)
      · refine ⟨_, ?_, hmem⟩
        simp only [ha, Bool.false_eq_true, if_false]
        exact Reach.pure _
  · have ha : ercApplies τ = true := by
      rcases hty' with h | h
      · rw [h]; rfl
      · rw [h, hdr.type he]
        rcases hdr with ⟨-, q, hq, -⟩ | ⟨-, z, hz, -⟩
        · rw [hq]; rfl
        · rw [hz]; rfl
    unfold relevantTerminals
    refine ⟨(c.terminalSet.filter fun kv => decide (kv.2 = τ)).map (·.1) ++ [v], ?_, by simp⟩
    simp only [he, ha, if_true]
    exact (drawErc_reach (herc e he).2 hdr).bind (Reach.pure _)

theorem randomTerminal_leaf {c : Cfg} (hd : DistinctKeys c.terminalSet) (herc : c.ErcProper)
    {τ : Option Ty} (hreq : c.Requests τ) :
    Post (randomTerminal c τ) fun r => ∀ n, r = some n → ∃ v, n = .term v τ ∧ c.Leaf v τ := by
  have key : Post (relevantTerminals c τ) fun rel => ∀ v ∈ rel, c.Leaf v τ := by
    have hbase : ∀ v ∈ (c.terminalSet.filter fun kv => decide (kv.2 = τ)).map (·.1), c.Leaf v τ := by
      intro v hv
      simp only [List.mem_map, List.mem_filter, decide_eq_true_eq] at hv
      obtain ⟨⟨a, b⟩, ⟨h1, h2⟩, rfl⟩ := hv
      simp only at h2
      subst h2
      exact .inl h1
    unfold relevantTerminals
    simp only
    split
    · rename_i e he
      refine Post.ite (fun ha => ?_) fun _ => Post.pure hbase
      refine Post.bind (drawErc_draws (herc e he).1) fun w hw => Post.pure ?_
      intro v hv
      rcases List.mem_append.1 hv with hv | hv
      · exact hbase v hv
      · simp only [List.mem_singleton] at hv
        subst hv
        refine .inr ⟨e, he, hw, ?_⟩
        rcases hreq with ⟨-, h⟩ | ⟨-, hsafe, hne, hrq⟩
        · exact .inl h
        · right
          rcases hsafe with h | ⟨h1, -⟩
          · rw [he] at h; simp at h
          · cases τ with
            | none => exact absurd rfl hne
            | some t => exact h1 t (by simpa [ercApplies] using ha) hrq
    · exact Post.pure hbase
  unfold randomTerminal
  refine Post.bind key fun rel hrel => Post.ite (fun _ => Post.pure (by simp)) fun _ => ?_
  refine Post.bind (Rand.choice_post rel) fun v hv => Post.pure ?_
  intro n hn
  simp only [Option.some.injEq] at hn
  subst hn
  refine ⟨v, ?_, hrel v hv⟩
  rw [terminalType_leaf hd hreq (hrel v hv)]

theorem randomFunction_reach {c : Cfg} {f : Fn} (hf : f ∈ c.functionSet) (hl : f.Legal) :
    Reach (randomFunction c f.ret) (some (.func f)) := by
  unfold randomFunction
  have hmem : f ∈ c.functionSet.filter fun g => decide (getReturnType g = f.ret) := by
    simp [hf, getReturnType]
  simp only
  rw [if_neg (by intro h; rw [h] at hmem; simp at hmem)]
  refine (Reach.choice hmem).bind ?_
  refine (Reach.ofExcept (a := .func f) ?_).bind (Reach.pure _)
  unfold mkFunctionNode
  rw [getFuncTypes_legal hl]
  simp [Fn.arity]

/-- A created terminal. -/
theorem leafStep_reach {c : Cfg} (hd : DistinctKeys c.terminalSet) (herc : c.ErcProper)
    {τ : Option Ty} (hreq : c.Requests τ) {v : Val} (hv : c.Leaf v τ) :
    Reach (do
      let n ← randomTerminal c τ
      let n ← assertNode n
      pure [n]) (Prog.term v τ).flatten := by
  refine (randomTerminal_reach hd herc hreq hv).bind ?_
  refine Reach.bind (a := .term v τ) (Reach.pure _) ?_
  exact Reach.pure _

theorem leafStep_post {c : Cfg} (hd : DistinctKeys c.terminalSet) (herc : c.ErcProper)
    {τ : Option Ty} (hreq : c.Requests τ) {hi : Nat} :
    Post (do
      let n ← randomTerminal c τ
      let n ← assertNode n
      pure [n]) fun l => ∃ p : Prog, l = p.flatten ∧ p.Growable c τ 0 hi := by
  refine Post.bind (randomTerminal_leaf hd herc hreq) fun r hr => ?_
  refine Post.bind assertNode_post fun n hn => Post.pure ?_
  obtain ⟨v, rfl, hv⟩ := hr n hn
  exact ⟨.term v τ, rfl, Prog.growable_term.2 ⟨rfl, hv, rfl⟩⟩

theorem createArgs_reach {create : Option Ty → Rand (List Node)} {ps : List Prog}
    {ts : List (Option Ty)} (h : List.Forall₂ (fun p τ => Reach (create τ) p.flatten) ps ts) :
    Reach (createArgs create ts) (Prog.flattenAll ps) := by
  induction h with
  | nil => exact Reach.pure _
  | cons h _ ih => exact h.bind (ih.bind (Reach.pure _))

/-! ### The full method -/

theorem fullTree_reach {c : Cfg} (hd : DistinctKeys c.terminalSet) (herc : c.ErcProper) (rem : Nat) :
    ∀ {τ} {p : Prog}, c.Requests τ → p.Growable c τ rem rem → Reach (fullTree c rem τ) p.flatten := by
  induction rem with
  | zero =>
    intro τ p hreq hp
    cases p with
    | term v ty =>
      obtain ⟨rfl, hv, -⟩ := Prog.growable_term.1 hp
      exact leafStep_reach hd herc hreq hv
    | app f ps => exact absurd (Prog.growable_app.1 hp).1 (by omega)
  | succ rem ih =>
    intro τ p hreq hp
    cases p with
    | term v ty => exact absurd (Prog.growable_term.1 hp).2.2 (by omega)
    | app f ps =>
      obtain ⟨-, rfl, hf, hl, hps⟩ := Prog.growable_app.1 hp
      unfold fullTree
      refine (randomFunction_reach hf hl).bind ?_
      refine Reach.bind (a := .func f) (Reach.pure _) ?_
      simp only
      have hty : (getFuncTypes f).dropLast = f.params := by
        rw [getFuncTypes_legal hl]; simp
      rw [hty]
      refine (createArgs_reach (ps := ps) ?_).bind (Reach.pure _)
      refine List.forall₂_iff_get.2 ⟨hps.length_eq, fun i h1 h2 => ?_⟩
      exact ih (hreq.param hf (List.get_mem _ _)) ((List.forall₂_iff_get.1 hps).2 i h1 h2)

theorem fullTree_growable {c : Cfg} (hd : DistinctKeys c.terminalSet) (herc : c.ErcProper)
    (rem : Nat) : ∀ {τ}, c.Requests τ →
    Post (fullTree c rem τ) fun l => ∃ p : Prog, l = p.flatten ∧ p.Growable c τ rem rem := by
  induction rem with
  | zero => intro τ hreq; exact leafStep_post hd herc hreq
  | succ rem ih =>
    intro τ hreq
    unfold fullTree
    refine Post.bind (randomFunction_post c τ) fun r hr => ?_
    refine Post.bind assertNode_post fun n hn => ?_
    obtain ⟨f, hf, rfl, hret, hl⟩ := hr n hn
    simp only
    have hty : (getFuncTypes f).dropLast = f.params := by
      rw [getFuncTypes_legal hl]; simp
    rw [hty]
    refine Post.bind (createArgs_post (R := fun p σ => p.Growable c σ rem rem) f.params
      fun σ hσ => ih (hreq.param hf hσ)) fun l hls => Post.pure ?_
    obtain ⟨ps, rfl, hps⟩ := hls
    exact ⟨.app f ps, by simp [Prog.flatten],
      Prog.growable_app.2 ⟨by omega, hret, hf, hl, by simpa using hps⟩⟩

/-- **C85, full method.** A node list can be the outcome of the full method if and only if it is the
listing of a program of the requested type over the configuration, with all terminals at the maximal
depth exactly and all functions above. -/
theorem C85_full (c : Cfg) (hd : DistinctKeys c.terminalSet) (herc : c.ErcProper) (maxDepth : Nat)
    (τ : Option Ty) (hreq : c.Requests τ) (l : List Node) :
    (∃ tape tape', fullCreate c maxDepth τ tape = (.ok l, tape')) ↔
      ∃ p : Prog, l = p.flatten ∧ p.Growable c τ maxDepth maxDepth := by
  constructor
  · rintro ⟨t, t', h⟩
    exact fullTree_growable hd herc maxDepth hreq t l t' h
  · rintro ⟨p, rfl, hp⟩
    obtain ⟨t, ht⟩ := fullTree_reach hd herc maxDepth hreq hp (fun _ => 0)
    exact ⟨t, _, ht⟩

/-! ### The grow method -/

theorem growTree_reach {c : Cfg} (hd : DistinctKeys c.terminalSet) (herc : c.ErcProper)
    {pPrune : ℚ} (hp0 : 0 < pPrune) (hp1 : pPrune < 1) (fuel : Nat) : ∀ {need rem τ} {p : Prog},
    need ≤ rem → fuel = rem → c.Requests τ → p.Growable c τ need rem →
    Reach (growTree c pPrune fuel need rem τ) p.flatten := by
  induction fuel with
  | zero =>
    intro need rem τ p hle hfuel hreq hp
    subst hfuel
    cases p with
    | term v ty =>
      obtain ⟨rfl, hv, -⟩ := Prog.growable_term.1 hp
      exact leafStep_reach hd herc hreq hv
    | app f ps => exact absurd (Prog.growable_app.1 hp).1 (by omega)
  | succ fuel ih =>
    intro need rem τ p hle hfuel hreq hp
    unfold growTree
    cases p with
    | term v ty =>
      obtain ⟨rfl, hv, h0⟩ := Prog.growable_term.1 hp
      subst h0
      refine Reach.bind (a := false) ?_ ?_
      · rw [if_neg (by omega), if_neg (by omega)]
        refine (Reach.random (u := 0) le_rfl (by norm_num)).bind ?_
        refine (Reach.pure _).of_eq ?_
        simp [hp0]
      · simp only [Bool.false_eq_true, if_false]
        exact leafStep_reach hd herc hreq hv
    | app f ps =>
      obtain ⟨-, rfl, hf, hl, hps⟩ := Prog.growable_app.1 hp
      refine Reach.bind (a := true) ?_ ?_
      · by_cases hn : 0 < need
        · rw [if_pos hn]; exact Reach.pure _
        · rw [if_neg hn, if_neg (by omega)]
          refine (Reach.random (u := pPrune) hp0.le hp1).bind ?_
          refine (Reach.pure _).of_eq ?_
          simp
      · simp only [if_true]
        refine (randomFunction_reach hf hl).bind ?_
        refine Reach.bind (a := .func f) (Reach.pure _) ?_
        simp only
        rw [childTypes_legal hl]
        refine (createArgs_reach (ps := ps) ?_).bind (Reach.pure _)
        refine List.forall₂_iff_get.2 ⟨hps.length_eq, fun i h1 h2 => ?_⟩
        exact ih (by omega) (by omega) (hreq.param hf (List.get_mem _ _))
          ((List.forall₂_iff_get.1 hps).2 i h1 h2)

theorem growTree_growable {c : Cfg} (hd : DistinctKeys c.terminalSet) (herc : c.ErcProper)
    (pPrune : ℚ) (fuel : Nat) : ∀ {need rem τ}, need ≤ rem → fuel = rem → c.Requests τ →
    Post (growTree c pPrune fuel need rem τ) fun l =>
      ∃ p : Prog, l = p.flatten ∧ p.Growable c τ need rem := by
  induction fuel with
  | zero =>
    intro need rem τ hle hfuel hreq
    subst hfuel
    have : need = 0 := by omega
    subst this
    exact leafStep_post hd herc hreq
  | succ fuel ih =>
    intro need rem τ hle hfuel hreq
    unfold growTree
    refine Post.bind (Q := fun b => b = false → need = 0) ?_ fun b hb => ?_
    · refine Post.ite (fun _ => Post.pure (by simp)) fun h => ?_
      have h0 : need = 0 := by omega
      refine Post.ite (fun _ => Post.pure fun _ => h0) fun _ =>
        Post.bind Post.trivial fun _ _ => Post.pure fun _ => h0
    · refine Post.ite (fun hbt => ?_) fun hbf => ?_
      · refine Post.bind (randomFunction_post c τ) fun r hr => ?_
        refine Post.bind assertNode_post fun n hn => ?_
        obtain ⟨f, hf, rfl, hret, hl⟩ := hr n hn
        simp only
        rw [childTypes_legal hl]
        refine Post.bind (createArgs_post (R := fun p σ => p.Growable c σ (need - 1) (rem - 1))
          f.params fun σ hσ => ih (by omega) (by omega) (hreq.param hf hσ)) fun l hls => Post.pure ?_
        obtain ⟨ps, rfl, hps⟩ := hls
        exact ⟨.app f ps, by simp [Prog.flatten],
          Prog.growable_app.2 ⟨by omega, hret, hf, hl, hps⟩⟩
      · have h0 := hb (by simpa using hbf)
        subst h0
        exact leafStep_post hd herc hreq

/-- **C85, grow method.** With a pruning probability strictly between 0 and 1 a node list can be the
outcome of the grow method if and only if it is the listing of a program of the requested type over
the configuration, with all terminals between the minimal and the maximal depth and all functions
above the maximal depth. -/
theorem C85_grow (c : Cfg) (hd : DistinctKeys c.terminalSet) (herc : c.ErcProper) (pPrune : ℚ)
    (hp0 : 0 < pPrune) (hp1 : pPrune < 1) (minDepth maxDepth : Nat) (hle : minDepth ≤ maxDepth)
    (τ : Option Ty) (hreq : c.Requests τ) (l : List Node) :
    (∃ tape tape', growCreate c pPrune minDepth maxDepth τ tape = (.ok l, tape')) ↔
      ∃ p : Prog, l = p.flatten ∧ p.Growable c τ minDepth maxDepth := by
  unfold growCreate
  rw [max_eq_right hle]
  constructor
  · rintro ⟨t, t', h⟩
    exact growTree_growable hd herc pPrune maxDepth hle rfl hreq t l t' h
  · rintro ⟨p, rfl, hp⟩
    obtain ⟨t, ht⟩ := growTree_reach hd herc hp0 hp1 maxDepth hle rfl hreq hp (fun _ => 0)
    exact ⟨t, _, ht⟩

/-! ### Ramped half-and-half -/

/-- The individual has configuration `c` and holds a program in the range of the grow method. -/
def Sown (c : Cfg) (lo hi : Nat) (ind : Ind) : Prop :=
  ind.cfg = c ∧ ∃ p : Prog, ind.tree = p.flatten ∧ p.Growable c c.rootType lo hi

/-- One depth of the ramp: `g` grown individuals followed by `g` full ones. -/
def Row (c : Cfg) (minDepth g d : Nat) (block : List Ind) : Prop :=
  ∃ grown full, block = grown ++ full ∧ grown.length = g ∧ full.length = g ∧
    (∀ i ∈ grown, Sown c minDepth d i) ∧ ∀ i ∈ full, Sown c d d i

theorem createIndividuals_sown {c : Cfg} {create : Rand (List Node)} {lo hi : Nat}
    (h : Post create fun l => ∃ p : Prog, l = p.flatten ∧ p.Growable c c.rootType lo hi) (n : Nat) :
    Post (createIndividuals c create n) fun inds => inds.length = n ∧ ∀ i ∈ inds, Sown c lo hi i :=
  replicateM_post n (Post.bind h fun _ ht => Post.pure ⟨rfl, ht⟩)

theorem createIndividuals_reach {c : Cfg} {create : Rand (List Node)} {lo hi : Nat}
    (h : ∀ p : Prog, p.Growable c c.rootType lo hi → Reach create p.flatten) {inds : List Ind}
    {n : Nat} (hn : inds.length = n) (hi : ∀ i ∈ inds, Sown c lo hi i) :
    Reach (createIndividuals c create n) inds := by
  subst hn
  refine Reach.replicateM fun i hmem => ?_
  obtain ⟨hc, p, hp, hg⟩ := hi i hmem
  refine (h p hg).bind ?_
  refine (Reach.pure _).of_eq ?_
  obtain ⟨cfg, tree⟩ := i
  simp only at hc hp
  rw [hc, hp]

theorem halfLoop_sown {c : Cfg} (hd : DistinctKeys c.terminalSet) (herc : c.ErcProper) {pPrune : ℚ}
    (hreq : c.Requests c.rootType) {minDepth g : Nat} {ds : List Nat} (hds : ∀ d ∈ ds, minDepth ≤ d) :
    Post (halfLoop c pPrune minDepth g ds) fun inds => ∃ blocks : List (List Ind),
      inds = blocks.flatten ∧ List.Forall₂ (Row c minDepth g) ds blocks := by
  induction ds with
  | nil => exact Post.pure ⟨[], rfl, .nil⟩
  | cons d ds ih =>
    have hd' := hds d (by simp)
    unfold halfLoop
    refine Post.bind (createIndividuals_sown (lo := minDepth) (hi := d) ?_ g) fun grown hg =>
      Post.bind (createIndividuals_sown (lo := d) (hi := d) (fullTree_growable hd herc d hreq) g)
      fun full hf =>
      Post.bind (ih fun e he => hds e (by simp [he])) fun rest hr => Post.pure ?_
    · unfold growCreate
      rw [max_eq_right hd']
      exact growTree_growable hd herc pPrune d hd' rfl hreq
    · obtain ⟨blocks, rfl, hb⟩ := hr
      exact ⟨(grown ++ full) :: blocks, by simp,
        .cons ⟨grown, full, rfl, hg.1, hf.1, hg.2, hf.2⟩ hb⟩

theorem halfLoop_reach {c : Cfg} (hd : DistinctKeys c.terminalSet) (herc : c.ErcProper) {pPrune : ℚ}
    (hp0 : 0 < pPrune) (hp1 : pPrune < 1) (hreq : c.Requests c.rootType) {minDepth g : Nat}
    {ds : List Nat} (hds : ∀ d ∈ ds, minDepth ≤ d) {blocks : List (List Ind)}
    (hb : List.Forall₂ (Row c minDepth g) ds blocks) :
    Reach (halfLoop c pPrune minDepth g ds) blocks.flatten := by
  induction hb with
  | nil => exact Reach.pure _
  | @cons d block ds blocks h _ ih =>
    obtain ⟨grown, full, rfl, h1, h2, h3, h4⟩ := h
    have hd' := hds d (by simp)
    unfold halfLoop
    refine (createIndividuals_reach (lo := minDepth) (hi := d) ?_ h1 h3).bind ?_
    · intro p hp
      unfold growCreate
      rw [max_eq_right hd']
      exact growTree_reach hd herc hp0 hp1 d hd' rfl hreq hp
    refine (createIndividuals_reach (lo := d) (hi := d) ?_ h2 h4).bind ?_
    · intro p hp; exact fullTree_reach hd herc d hreq hp
    exact (ih fun e he => hds e (by simp [he])).bind ((Reach.pure _).of_eq (by simp))

theorem row_length {c : Cfg} {minDepth g : Nat} {ds : List Nat} {blocks : List (List Ind)}
    (h : List.Forall₂ (Row c minDepth g) ds blocks) : blocks.flatten.length = 2 * g * ds.length := by
  induction h with
  | nil => simp
  | cons h _ ih =>
    obtain ⟨grown, full, rfl, h1, h2, -, -⟩ := h
    simp only [List.flatten_cons, List.length_append, ih, h1, h2, List.length_cons]
    ring

theorem halfCreate_eq (c : Cfg) (pPrune : ℚ) (minDepth k n : Nat) (hk : 0 < k) (hsize : 2 * k ≤ n) :
    halfCreate c pPrune minDepth (minDepth + k - 1) n = (do
      let inds ← halfLoop c pPrune minDepth (n / (2 * k)) (List.range' minDepth k)
      let nMissing : Int := (n : Int) - inds.length
      if 0 < nMissing then do
        let missing ← createIndividuals c (fullCreate c (minDepth + k - 1) c.rootType) nMissing.toNat
        pure (inds ++ missing)
      else pure inds) := by
  have hint : 2 * (((minDepth + k - 1 : Nat) : Int) + 1 - minDepth) = ((2 * k : Nat) : Int) := by omega
  have hg : Int.tdiv (n : Int) ((2 * k : Nat) : Int) = ((n / (2 * k) : Nat) : Int) := by
    rw [Int.tdiv_eq_ediv_of_nonneg (by omega)]; rfl
  have hgpos : 0 < n / (2 * k) := Nat.div_pos (by omega) (by omega)
  unfold halfCreate
  rw [show minDepth + k - 1 + 1 - minDepth = k by omega]
  simp only [hint, hg, Int.toNat_natCast]
  rw [if_neg (by omega), if_neg (by omega)]

/-- **C85, ramped half-and-half.** Which populations can be created: for each of the `k` depths `d` of
the ramp `g = n div 2k` individuals from the range of the grow method with maximal depth `d` and `g`
from the range of the full method of depth `d`, then the missing ones from the range of the full method
of the largest depth.  All combinations are possible: the draws of the individuals do not constrain one
another. -/
theorem C85_half (c : Cfg) (hd : DistinctKeys c.terminalSet) (herc : c.ErcProper) (pPrune : ℚ)
    (hp0 : 0 < pPrune) (hp1 : pPrune < 1) (minDepth k n : Nat) (hk : 0 < k) (hsize : 2 * k ≤ n)
    (hreq : c.Requests c.rootType) (inds : List Ind) :
    (∃ tape tape', halfCreate c pPrune minDepth (minDepth + k - 1) n tape = (.ok inds, tape')) ↔
      ∃ blocks missing, inds = List.flatten blocks ++ missing ∧
        List.Forall₂ (Row c minDepth (n / (2 * k))) (List.range' minDepth k) blocks ∧
        missing.length = n - 2 * (n / (2 * k)) * k ∧
        ∀ i ∈ missing, Sown c (minDepth + k - 1) (minDepth + k - 1) i := by
  rw [halfCreate_eq c pPrune minDepth k n hk hsize]
  have hds : ∀ d ∈ List.range' minDepth k, minDepth ≤ d := fun d h => (List.mem_range'_1.1 h).1
  have hmul : 2 * (n / (2 * k)) * k ≤ n := by
    calc 2 * (n / (2 * k)) * k = n / (2 * k) * (2 * k) := by ring
      _ ≤ n := Nat.div_mul_le_self _ _
  constructor
  · rintro ⟨t, t', h⟩
    refine (show Post _ (fun inds => ∃ blocks missing, inds = List.flatten blocks ++ missing ∧
        List.Forall₂ (Row c minDepth (n / (2 * k))) (List.range' minDepth k) blocks ∧
        missing.length = n - 2 * (n / (2 * k)) * k ∧
        ∀ i ∈ missing, Sown c (minDepth + k - 1) (minDepth + k - 1) i) from ?_) t inds t' h
    refine Post.bind (halfLoop_sown hd herc hreq hds) (fun pre hpre => ?_)
    obtain ⟨blocks, rfl, hb⟩ := hpre
    have hlen := row_length hb
    rw [List.length_range'] at hlen
    refine Post.ite (fun hm => ?_) fun hm => ?_
    · refine Post.bind (createIndividuals_sown (lo := minDepth + k - 1) (hi := minDepth + k - 1)
        (fullTree_growable hd herc _ hreq) _) fun missing h => Post.pure ?_
      exact ⟨blocks, missing, rfl, hb, by rw [h.1, hlen]; omega, h.2⟩
    · refine Post.pure ⟨blocks, [], by simp, hb, ?_, by simp⟩
      rw [hlen] at hm; simp only [List.length_nil]; omega
  · rintro ⟨blocks, missing, rfl, hb, hml, hm⟩
    have hlen := row_length hb
    rw [List.length_range'] at hlen
    suffices Reach (do
        let inds ← halfLoop c pPrune minDepth (n / (2 * k)) (List.range' minDepth k)
        let nMissing : Int := (n : Int) - inds.length
        if 0 < nMissing then do
          let missing ← createIndividuals c (fullCreate c (minDepth + k - 1) c.rootType) nMissing.toNat
          pure (inds ++ missing)
        else pure inds) (blocks.flatten ++ missing) by
      obtain ⟨t, ht⟩ := this (fun _ => 0)
      exact ⟨t, _, ht⟩
    refine (halfLoop_reach hd herc hp0 hp1 hreq hds hb).bind ?_
    simp only [hlen]
    split
    · refine (createIndividuals_reach (lo := minDepth + k - 1) (hi := minDepth + k - 1) ?_ ?_ hm).bind
        (Reach.pure _)
      · intro p hp; exact fullTree_reach hd herc _ hreq hp
      · rw [hml]; omega
    · have : missing = [] := List.eq_nil_of_length_eq_zero (by rw [hml]; omega)
      rw [this, List.append_nil]
      exact Reach.pure _

/-! ### Non-vacuity -/

namespace Sample

theorem cfg_requests : cfg.Requests none := .inl ⟨cfg_untyped, rfl⟩

theorem cfg_ercProper : cfg.ErcProper := by intro e h; simp [cfg] at h

/-- `add(mul(x, y), x)` is in the range of the grow method with depths 1 to 2. -/
def grown : Prog := .app add [.app mul [.term x none, .term y none], .term x none]

example : cfg.Requests none ∧ cfg.ErcProper ∧ grown.Growable cfg none 1 2 := by
  refine ⟨cfg_requests, cfg_ercProper, ⟨?_, ⟨?_, ?_⟩, ?_, ?_⟩⟩
  · simp [grown, Prog.HasType, Prog.HaveTypes, add, mul]
  · simp [grown, Prog.fns, Prog.fnsAll, cfg, Fn.Legal, add, mul]
  · simp [grown, Prog.terms, Prog.termsAll, cfg, Cfg.Leaf]
  · simp [grown, Prog.termDepths, Prog.termDepthsAll]
  · simp [grown, Prog.fnDepths, Prog.fnDepthsAll]

/-- A typed configuration: `int` parameters and constants from `0` to `5`. -/
def intAdd : Fn := ⟨90, [some .int, some .int], some .int⟩
def intCfg : Cfg := ⟨[intAdd], [(⟨7, .str "n"⟩, some .int)], some ⟨0, 5, false⟩, some .int⟩

example : DistinctKeys intCfg.terminalSet ∧ intCfg.ErcProper ∧ intCfg.Requests intCfg.rootType ∧
    (Prog.app intAdd [.term ⟨7, .str "n"⟩ (some .int), .term ⟨8, .int 5⟩ (some .int)]).Growable
      intCfg (some .int) 1 1 := by
  refine ⟨by simp [DistinctKeys, intCfg], ?_, .inr ⟨?_, .inr ⟨?_, ?_⟩, by simp [intCfg], .inl rfl⟩,
    ⟨?_, ⟨?_, ?_⟩, ?_, ?_⟩⟩
  · intro e he
    simp only [intCfg, Option.some.injEq] at he
    subst he
    exact ⟨by norm_num, .inr ⟨by simp, by norm_num, by norm_num⟩⟩
  · simp [intCfg, intAdd]
  · intro t _ ht
    simp only [intCfg, intAdd, Option.some.injEq, List.mem_singleton] at ht
    rcases ht with rfl | ⟨f, rfl, h⟩
    · rfl
    · simp at h; subst h; rfl
  · intro kv hkv hn
    simp only [intCfg, List.mem_singleton] at hkv
    subst hkv
    simp [Data.num?] at hn
  · simp [Prog.HasType, Prog.HaveTypes, intAdd]
  · simp [Prog.fns, Prog.fnsAll, intCfg, Fn.Legal, intAdd]
  · simp [Prog.terms, Prog.termsAll, intCfg, Cfg.Leaf, Erc.Draws, Cfg.ercType]
  · simp [Prog.termDepths, Prog.termDepthsAll]
  · simp [Prog.fnDepths, Prog.fnDepthsAll]

end Sample
end Verif.GP
