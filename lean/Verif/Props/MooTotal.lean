import Verif.Lemmas.MooTotal
import Verif.Spec.MooLibrary
import Verif.Props.Total

/-! # C82 — runs of NSGA-II complete -/

namespace Verif.Moo
open PyM
variable {G : Type} {P : G → Prop} {n m : Nat} {ds : List Bool}

/-- **C82.** A run of `NSGA2Evolution` with `NSGA2Breeder` whose parts do not raise completes: the population has
`n` distinct individuals, each with `m` objectives and a genome satisfying `P`, and there is a best of the run with
objectives.  If the checker never asks to stop, all generations have been done. -/
theorem C82_completes {c : MCfg G} (hc : c.Sound P n m ds) {s : MRun G} (hf : s.Fresh m ds) (hp : AllHave P s.w) :
    ∃ s', mevolve c s = (.ok (), s') ∧ MCompleted P n m s' ∧
      ((∀ h l b g, c.checker h l b g ≠ .ok true) → s'.genNum = c.maxGen) := by
  obtain ⟨_, s', hrun, hl⟩ := mevolve_wp hc hf hp
  refine ⟨s', hrun, ?_, (mevolve_wlp hc.toGood hf () s' hrun).2.2.2⟩
  obtain ⟨l, hpop, hev⟩ := hl.pop
  obtain ⟨b, b1, b2, b3⟩ := hl.best
  obtain ⟨v, hv⟩ := Option.ne_none_iff_exists'.1 b3
  refine ⟨l, b, v, hpop.inds, hpop.length, hpop.nodup, fun r hr => ⟨hl.genomes r (hpop.exist r hr), ?_⟩, b1, hv⟩
  obtain ⟨u, hu⟩ := hev r hr
  exact ⟨u, hu.objs, by rw [hu.length, hc.directions]⟩

/-! ## Components that work -/

theorem putGenomesM_wp {refs : List Nat} {gs : List G} {s : MWorld G} :
    wp (putGenomesM refs gs) (fun _ s' => s'.fits = s.fits ∧ s'.next = s.next ∧
      ∀ r, s'.genome r = s.genome r ∨ s'.genome r ∈ gs) s := by
  unfold putGenomesM
  refine (wp_forL (I := fun _ (s' : MWorld G) => s'.fits = s.fits ∧ s'.next = s.next ∧
      ∀ r, s'.genome r = s.genome r ∨ s'.genome r ∈ gs) ⟨rfl, rfl, fun r => .inl rfl⟩ ?_)
  rintro pre ⟨r, g⟩ post s₁ hsplit ⟨h1, h2, h3⟩
  rw [wp_modify]
  refine ⟨h1, h2, fun x => ?_⟩
  dsimp only
  split
  · right
    have : (r, g) ∈ refs.zip gs := by rw [hsplit]; simp
    exact (List.of_mem_zip this).2
  · exact h3 x

theorem onGenomes_good (p : ℚ) (arity : Nat) (f : List G → Rand (Option (List G))) : (MOp.onGenomes p arity f).Good := by
  intro m ds refs s hx hd
  unfold MOp.onGenomes
  dsimp only
  rw [wlp_bind, wlp_get, wlp_bind, wlp_mrand]
  refine (wlp_true _ _).mono fun res t _ => ?_
  cases res with
  | none => exact wlp_pure.2 ⟨le_refl _, hd, by simp⟩
  | some gs =>
    dsimp only
    rw [wlp_bind]
    refine wp.wlp (putGenomesM_wp.mono ?_)
    rintro _ s₁ ⟨h1, h2, -⟩
    refine wlp_pure.2 ⟨h2.ge, fun r hr => ?_, fun l hl => ?_⟩
    · rw [h1]; dsimp only at h2; exact hd r (by omega)
    · obtain rfl := Option.some.inj hl
      dsimp only at h2
      exact ⟨rfl, fun r hr => ⟨.inl hr, by rw [h2]; exact hx r hr⟩, id⟩

theorem onGenomes_worksOn {p : ℚ} {arity : Nat} {f : List G → Rand (Option (List G))}
    (hf : ∀ gs, gs.length = arity → (∀ g ∈ gs, P g) → Ensures (f gs) fun r => ∃ out, r = some out ∧ ∀ g ∈ out, P g) :
    (MOp.onGenomes p arity f).WorksOn P := by
  intro refs s hx hl hp
  unfold MOp.onGenomes
  dsimp only
  rw [wp_bind, wp_get, wp_bind, wp_mrand]
  obtain ⟨_, t, hrun, out, rfl, hout⟩ := hf (refs.map s.genome) (by rw [List.length_map]; exact hl) (by
    intro g hg
    obtain ⟨r, hr, rfl⟩ := List.mem_map.1 hg
    exact hp r (hx r hr)) s.tape
  refine ⟨some out, t, hrun, ?_⟩
  dsimp only
  rw [wp_bind]
  refine putGenomesM_wp.mono ?_
  rintro _ s₁ ⟨h1, h2, h3⟩
  dsimp only at h1 h2 h3
  refine wp_pure.2 ⟨rfl, fun r hr => ?_, fun r _ _ => by rw [h1]⟩
  rcases h3 r with h | h
  · rw [h]; exact hp r (by omega)
  · exact hout _ h

theorem tournamentM_worksOn {arity k : Nat} {replace : Bool} (h : replace = true ∨ k ≤ n) :
    (⟨arity, tournamentM k replace⟩ : MSel G).WorksOn P n := by
  intro source dest s hx hp hl hd
  dsimp only
  unfold tournamentM
  rw [if_neg (by rcases h with h | h <;> simp [h]; intro; omega), hl, Nat.sub_eq_zero_of_le hd, wp_bind, wp_mrand]
  refine ⟨[], s.tape, rfl, ?_⟩
  dsimp only
  rw [wp_bind]
  refine ⟨[], s, rfl, wp_pure.2 ⟨hp, fun _ _ => rfl⟩⟩

/-- Creating `n` individuals one after the other, with the given fitness and genomes satisfying `P`. -/
def CreatesM (P : G → Prop) (fit : Fit) (n : Nat) (create : MM G (List Nat)) : Prop :=
  ∀ s, wp create (fun l s' => l = List.range' s.next n ∧ s'.next = s.next + n ∧
    (∀ r < s.next, s'.fits r = s.fits r ∧ s'.genome r = s.genome r) ∧
    ∀ r, s.next ≤ r → r < s.next + n → s'.fits r = fit ∧ P (s'.genome r)) s

theorem newM_wp {empty : G} {fit : Fit} (k : Nat) (s : MWorld G) :
    wp (mapL (fun (_ : Nat) => newM empty fit) (List.range k)) (fun l s' => l = List.range' s.next k ∧
      s'.next = s.next + k ∧ (∀ r < s.next, s'.fits r = s.fits r ∧ s'.genome r = s.genome r) ∧
      ∀ r, s.next ≤ r → r < s.next + k → s'.fits r = fit) s := by
  have := wp_mapL (f := fun (_ : Nat) => newM empty fit) (xs := List.range k) (s := s)
    (I := fun pre l s' => l = List.range' s.next pre.length ∧
      s'.next = s.next + pre.length ∧ (∀ r < s.next, s'.fits r = s.fits r ∧ s'.genome r = s.genome r) ∧
      ∀ r, s.next ≤ r → r < s.next + pre.length → s'.fits r = fit)
    ⟨rfl, rfl, fun _ _ => ⟨rfl, rfl⟩, fun r h1 h2 => by simp at h2; omega⟩ ?_
  · refine this.mono fun l s' h => ?_
    simpa using h
  · rintro pre x post l s₁ - ⟨h1, h2, h3, h4⟩
    unfold newM
    rw [wp_bind, wp_get, wp_bind, wp_set]
    refine wp_pure.2 ⟨?_, ?_, fun r hr => ?_, fun r hr hr' => ?_⟩
    · rw [h1, h2, List.length_append, List.length_singleton, List.range'_concat, Nat.one_mul]
    · dsimp only; rw [h2, List.length_append, List.length_singleton]; omega
    · dsimp only
      rw [if_neg (by omega), if_neg (by omega)]
      exact h3 r hr
    · dsimp only
      split
      · rfl
      · rw [List.length_append, List.length_singleton] at hr'
        exact h4 r hr (by omega)

theorem createM_creates (empty : G) {genome : Rand G} (hg : Ensures genome P) (fit : Fit) (k : Nat) :
    CreatesM P fit k (createM empty genome fit k) := by
  intro s
  unfold createM
  rw [wp_bind]
  refine (newM_wp k s).mono ?_
  rintro l s₁ ⟨rfl, h2, h3, h4⟩
  rw [wp_bind]
  have := wp_forL (xs := List.range' s.next k) (s := s₁)
    (f := fun r => do
      let g ← mrand genome
      PyM.modify fun w : MWorld G => { w with genome := fun x => if x = r then g else w.genome x })
    (I := fun pre s' => s'.next = s₁.next ∧ s'.fits = s₁.fits ∧ (∀ r < s.next, s'.genome r = s₁.genome r) ∧
      ∀ r ∈ pre, P (s'.genome r)) ⟨rfl, rfl, fun _ _ => rfl, by simp⟩ ?_
  · refine this.mono ?_
    rintro _ s₂ ⟨i1, i2, i3, i4⟩
    refine wp_pure.2 ⟨rfl, by rw [i1, h2], fun r hr => ?_, fun r hr hr' => ?_⟩
    · rw [i2, i3 r hr]; exact h3 r hr
    · rw [i2]
      exact ⟨h4 r hr hr', i4 r (by rw [List.mem_range'_1]; omega)⟩
  · rintro pre x post s₂ hsplit ⟨i1, i2, i3, i4⟩
    have hx : s.next ≤ x := by
      have : x ∈ List.range' s.next k := by rw [hsplit]; simp
      rw [List.mem_range'_1] at this
      omega
    rw [wp_bind, wp_mrand]
    obtain ⟨g, t, hrun, hpg⟩ := hg s₂.tape
    refine ⟨g, t, hrun, ?_⟩
    dsimp only
    rw [wp_modify]
    refine ⟨i1, i2, fun r hr => ?_, fun r hr => ?_⟩
    · dsimp only
      rw [if_neg (by omega)]
      exact i3 r hr
    · dsimp only
      split
      · exact hpg
      · rename_i hne
        simp only [List.mem_append, List.mem_singleton, hne, or_false] at hr
        exact i4 r hr

theorem CreatesM.bind {fit : Fit} {j k : Nat} {a : MM G (List Nat)} {b : MM G (List Nat)}
    (ha : CreatesM P fit j a) (hb : CreatesM P fit k b) :
    CreatesM P fit (j + k) (do let x ← a; let y ← b; PyM.pure (x ++ y)) := by
  intro s
  rw [wp_bind]
  refine (ha s).mono ?_
  rintro _ s₁ ⟨rfl, a2, a3, a4⟩
  rw [wp_bind]
  refine (hb s₁).mono ?_
  rintro _ s₂ ⟨rfl, b2, b3, b4⟩
  refine wp_pure.2 ⟨?_, by omega, fun r hr => ?_, fun r hr hr' => ?_⟩
  · rw [a2, List.range'_append_1]
  · rw [(b3 r (by omega)).1, (b3 r (by omega)).2]; exact a3 r hr
  · by_cases h : r < s.next + j
    · rw [(b3 r (by omega)).1, (b3 r (by omega)).2]; exact a4 r hr h
    · exact b4 r (by omega) (by omega)

theorem CreatesM.nil (fit : Fit) : CreatesM P fit 0 (PyM.pure ([] : List Nat)) := fun _ =>
  wp_pure.2 ⟨rfl, rfl, fun _ _ => ⟨rfl, rfl⟩, fun r h1 h2 => by omega⟩

theorem halfGroupsM_creates {fit : Fit} {grow full : Nat → Nat → MM G (List Nat)} (hg : ∀ d k, CreatesM P fit k (grow d k))
    (hf : ∀ d k, CreatesM P fit k (full d k)) (group : Nat) (l : List Nat) :
    CreatesM P fit (2 * group * l.length) (halfGroupsM grow full group l) := by
  induction l with
  | nil => unfold halfGroupsM; exact CreatesM.nil fit
  | cons d l ih =>
    have e : 2 * group * (d :: l).length = group + group + 2 * group * l.length := by
      rw [List.length_cons]; ring
    rw [e]
    have h := ((hg d group).bind (hf d group)).bind ih
    intro s
    have := h s
    unfold halfGroupsM
    rw [wp_bind, wp_bind] at this
    rw [wp_bind]
    refine this.mono fun x s₁ h₁ => ?_
    rw [wp_bind] at h₁ ⊢
    refine h₁.mono fun y s₂ h₂ => ?_
    obtain ⟨_, _, hr, hq⟩ := h₂
    cases hr
    exact hq

theorem halfM_creates {fit : Fit} {grow full : Nat → Nat → MM G (List Nat)} (hg : ∀ d k, CreatesM P fit k (grow d k))
    (hf : ∀ d k, CreatesM P fit k (full d k)) (minDepth : Nat) {depths : Nat} (hd : 0 < depths) (hn : 2 * depths ≤ n) :
    CreatesM P fit n (halfM grow full minDepth depths n) := by
  intro s
  unfold halfM
  have h0 : n / (2 * depths) ≠ 0 := (Nat.div_pos hn (by omega)).ne'
  have hle : 2 * (n / (2 * depths)) * depths ≤ n := by
    have := Nat.div_mul_le_self n (2 * depths)
    calc 2 * (n / (2 * depths)) * depths = n / (2 * depths) * (2 * depths) := by ring
      _ ≤ n := this
  dsimp only
  rw [if_neg h0, wp_bind]
  have hgr := halfGroupsM_creates hg hf (n / (2 * depths)) ((List.range depths).map (minDepth + ·)) s
  rw [List.length_map, List.length_range] at hgr
  refine hgr.mono ?_
  rintro _ s₁ ⟨rfl, a2, a3, a4⟩
  rw [List.length_range', wp_ite]
  refine ⟨fun _ => ?_, fun hz => wp_pure.2 ?_⟩
  · rw [wp_bind]
    refine (hf _ _ s₁).mono ?_
    rintro _ s₂ ⟨rfl, b2, b3, b4⟩
    refine wp_pure.2 ⟨?_, by omega, fun r hr => ?_, fun r hr hr' => ?_⟩
    · rw [a2, List.range'_append_1]
      congr 1
      omega
    · rw [(b3 r (by omega)).1, (b3 r (by omega)).2]; exact a3 r hr
    · by_cases h : r < s₁.next
      · rw [(b3 r h).1, (b3 r h).2]; exact a4 r hr (by omega)
      · exact b4 r (by omega) (by omega)
  · have : 2 * (n / (2 * depths)) * depths = n := by omega
    rw [this] at a2 a4 ⊢
    exact ⟨rfl, a2, a3, a4⟩

theorem MCfg.Assembled.sound {Creator : MM G (List Nat) → Prop} {Ops : MOp G → Prop} {c : MCfg G}
    (h : c.Assembled P Creator Ops n m ds)
    (hcr : ∀ create, Creator create → ∃ fit, FitForM m ds fit ∧ CreatesM P fit n create)
    (hg : ∀ o, Ops o → o.Good) (hw : ∀ o, Ops o → o.arity ≠ 0 → o.WorksOn P) : c.Sound P n m ds := by
  obtain ⟨fit, ⟨hf1, hf2⟩, hcr⟩ := hcr _ h.creator
  obtain ⟨a, k, rep, hs, hk⟩ := h.sels
  refine { creates := fun s hd => ?_, ops := fun o ho => hg o (h.ops o ho), sels := ?_, evaluates := h.evaluates,
           directions := h.directions, order := h.order, breeder := h.breeder, size := h.size, create := fun s hd hp => ?_,
           arities := h.arities, operate := fun o ho => hw o (h.ops o ho) (h.arities o ho).1,
           select := ⟨_, [], hs, tournamentM_worksOn hk⟩, evaluate := h.evaluate, sched := h.sched, calm := h.calm }
  · refine wp.wlp ((hcr s).mono ?_)
    rintro _ s₁ ⟨rfl, h2, h3, h4⟩
    refine ⟨List.length_range', List.nodup_range', fun r hr => ?_, fun r hr => ?_⟩
    · rw [List.mem_range'_1] at hr; omega
    · by_cases hlt : r < s.next
      · rw [(h3 r hlt).1]; exact hd r hlt
      · rw [(h4 r (by omega) (by omega)).1]; exact hf2
  · intro x hx
    rw [hs, List.mem_singleton] at hx
    rw [hx]
    exact MSel.tournament_good a k rep
  · refine (hcr s).mono ?_
    rintro _ s₁ ⟨rfl, h2, h3, h4⟩
    refine ⟨fun r hr => ?_, fun r hr => ?_⟩
    · by_cases hlt : r < s.next
      · rw [(h3 r hlt).2]; exact hp r hlt
      · exact (h4 r (by omega) (by omega)).2
    · rw [List.mem_range'_1] at hr
      rw [(h4 r hr.1 hr.2).1, hf1]

/-! ## Vectors -/

section vectors
open GA
variable {kind : Kind} {bounds : Bounds} {length : Nat}

theorem VecCreator.creates (hb : bounds.Proper kind length) {create : MM Vec (List Nat)}
    (h : VecCreator kind bounds length n m ds create) :
    ∃ fit, FitForM m ds fit ∧ CreatesM (Legal kind bounds length) fit n create := by
  cases h with
  | mk fit hf =>
    refine ⟨fit, hf, ?_⟩
    unfold vecCreator
    rw [hb.accepted, Bool.not_true, Bool.and_false, if_neg (by simp)]
    exact createM_creates _ (createVector_ensures hb.legal hb.integral hb.pair) fit n

theorem VecOp.worksOn (hb : bounds.Proper kind length) {o : MOp Vec} (h : VecOp kind length o) :
    o.WorksOn (Legal kind bounds length) := by
  cases h with
  | crossover p a k hk ha =>
    refine onGenomes_worksOn fun gs hl hgs => ?_
    match gs, hl, hgs with
    | [], hl, _ => simp at hl; omega
    | [_], hl, _ => simp at hl; omega
    | u :: v :: others, _, hgs =>
      obtain ⟨-, -, -, a4, -⟩ := hgs u (by simp)
      obtain ⟨-, -, -, b4, -⟩ := hgs v (by simp)
      have htot := (C16_genes_conserved k u v others (by unfold Vec.size; omega) (by unfold Vec.size; omega)).total
      exact Ensures.bind (Ensures.of htot (crossover_keeps hk hgs)) fun out ho => Ensures.pure ⟨out, rfl, ho⟩
  | mutation c p a hc hn =>
    refine onGenomes_worksOn fun gs _ hgs => ?_
    refine (c.op_keeps p fun v hv => (hgs v hv).suits hb hc hn).mono ?_
    rintro _ ⟨out, rfl, hk⟩
    exact ⟨out, rfl, Legal.of_keeps hgs hk⟩

theorem VecOp.good {o : MOp Vec} (h : VecOp kind length o) : o.Good := by
  cases h <;> exact onGenomes_good _ _ _

/-- **C82, vectors.** A run of `NSGA2Evolution` with `NSGA2Breeder`, put together from the library's vector creators,
crossover and mutations, with proper bounds, completes, and leaves a population of legal vectors. -/
theorem C82_vectors (hb : bounds.Proper kind length) {c : MCfg Vec}
    (h : c.Assembled (Legal kind bounds length) (VecCreator kind bounds length n m ds) (VecOp kind length) n m ds)
    {s : MRun Vec} (hf : s.Fresh m ds) (hp : AllHave (Legal kind bounds length) s.w) :
    ∃ s', mevolve c s = (.ok (), s') ∧ MCompleted (Legal kind bounds length) n m s' :=
  let ⟨s', h1, h2, _⟩ := C82_completes
    (h.sound (fun _ h => h.creates hb) (fun _ h => h.good) (fun _ h _ => h.worksOn hb)) hf hp
  ⟨s', h1, h2⟩

/-- Four float vectors of length three; the first cell is minimised and the second maximised. -/
def exVector : MCfg Vec where
  sub := {
    create := vecCreator .float 3 (.tup [0, 1]) (.new none (.each [false, true]) false false) 4
    ops := [vecCrossover 1 2 2, vecMutation 1 1 ((MutationClass.floatGaussN 2 0 1 3).op 1)]
    sels := [⟨1, tournamentM 2 true⟩]
    popSize := 4
    nElite := 1
    hib := false
    evaluate := fun v => PyM.pure [v.vector.headD 0, v.vector.tail.headD 0] }
  nsga2Breeder := true
  stream := fun seed k => seed + k * k
  maxGen := 2
  checker := fun _ _ _ _ => .ok false
  sched := fun _ k => List.range k
  setOrder := fun _ _ l => l.reverse

def exVectorRun : MRun Vec where
  w := ⟨fun _ => .new none (.each []) false false, fun _ => ⟨.float, .tup [0, 1], 3, []⟩, 0, fun _ => 0⟩
  inds := none
  bestOfRun := none
  bestOfGen := none
  genNum := 0
  randomSeed := 7
  genSeed := 7
  finalGen := none
  log := []

theorem exVector_assembled : exVector.Assembled (Legal .float (.tup [0, 1]) 3)
    (VecCreator .float (.tup [0, 1]) 3 4 2 [false, true]) (VecOp .float 3) 4 2 [false, true] where
  breeder := rfl
  size := by decide
  directions := rfl
  creator := .mk _ ⟨rfl, rfl⟩
  ops := by
    intro o ho
    simp only [exVector, List.mem_cons, List.not_mem_nil, or_false] at ho
    rcases ho with rfl | rfl
    · exact .crossover _ _ _ (by decide) (by decide)
    · exact .mutation _ _ _ rfl (by rintro n ⟨⟩; decide)
  arities := by
    intro o ho
    simp only [exVector, List.mem_cons, List.not_mem_nil, or_false] at ho
    rcases ho with rfl | rfl
    · exact ⟨show (2 : Nat) ≠ 0 by decide, show 2 ∣ 4 by decide⟩
    · exact ⟨show (1 : Nat) ≠ 0 by decide, show 1 ∣ 4 by decide⟩
  sels := ⟨1, 2, true, rfl, .inl rfl⟩
  evaluates := fun _ _ => wlp_pure.2 (by rfl)
  evaluate := fun _ _ => Total.pure
  order := fun _ _ l => List.reverse_perm l
  sched := fun _ _ => List.Perm.refl _
  calm := fun _ _ _ _ _ => ⟨false, rfl⟩

example : ∃ s', mevolve exVector exVectorRun = (.ok (), s') ∧ MCompleted (Legal .float (.tup [0, 1]) 3) 4 2 s' :=
  C82_vectors exLib_proper exVector_assembled ⟨rfl, fun r hr => absurd hr (Nat.not_lt_zero r), rfl, rfl⟩
    (fun r hr => absurd hr (Nat.not_lt_zero r))

end vectors

/-! ## Programs -/

section programs
open GP
variable {cfg : GP.Cfg}

theorem fullM_creates (hp : cfg.Plain) (d : Nat) (fit : Fit) (k : Nat) :
    CreatesM (PlainLegal cfg) fit k (fullM cfg d fit k) := by
  unfold fullM treeCreatorM
  exact createM_creates _ (Ensures.of (Total.bind (fullTree_works hp d _ hp.root)
      Post.trivial fun _ _ => Total.pure) (plain_creates hp hp.root (fullTree_post cfg cfg.Uses d _))) fit k

theorem growM_creates (hp : cfg.Plain) (q : ℚ) (lo hi : Nat) (fit : Fit) (k : Nat) :
    CreatesM (PlainLegal cfg) fit k (growM cfg q lo hi fit k) := by
  unfold growM treeCreatorM
  exact createM_creates _ (Ensures.of (Total.bind (growTree_works hp q _ _ _ _ hp.root)
      Post.trivial fun _ _ => Total.pure) (plain_creates hp hp.root (growTree_post cfg cfg.Uses q _ lo hi _ rfl))) fit k

theorem TreeCreator.creates (hp : cfg.Plain) {create : MM GP.Ind (List Nat)} (h : TreeCreator cfg n m ds create) :
    ∃ fit, FitForM m ds fit ∧ CreatesM (PlainLegal cfg) fit n create := by
  cases h with
  | full d fit h => exact ⟨fit, h, fullM_creates hp d fit n⟩
  | grow q lo hi fit h => exact ⟨fit, h, growM_creates hp q lo hi fit n⟩
  | half q lo hi fit h hd hn =>
    exact ⟨fit, h, halfM_creates (fun d k => growM_creates hp q lo d fit k) (fun d k => fullM_creates hp d fit k) lo
      (by omega) hn⟩

theorem TreeOp.good {o : MOp GP.Ind} (h : TreeOp o) : o.Good := by
  cases h <;> exact onGenomes_good _ _ _

theorem TreeOp.worksOn (hp : cfg.Plain) {o : MOp GP.Ind} (h : TreeOp o) (ha : o.arity ≠ 0) :
    o.WorksOn (PlainLegal cfg) := by
  have aux : ∀ {f : Rand (List GP.Ind)}, Total f → Post f (fun out => ∀ i ∈ out, PlainLegal cfg i) →
      Ensures (do let out ← f; PyM.pure (some out)) fun res => ∃ out, res = some out ∧ ∀ i ∈ out, PlainLegal cfg i :=
    fun hf hq => Ensures.bind (Ensures.of hf hq) fun out ho => Ensures.pure ⟨out, rfl, ho⟩
  cases h with
  | crossover p a n =>
    refine onGenomes_worksOn fun gs hl hgs => aux (crossover_total hgs (by rintro rfl; exact ha hl.symm) hl n)
      (crossover_keeps_plain a n hgs)
  | mutation p lo hi n =>
    exact onGenomes_worksOn fun gs _ hgs => aux (mutation_total hp lo hi n hgs) (mutation_keeps_plain hp lo hi n hgs)
  | erc p a mu sigma =>
    exact onGenomes_worksOn fun gs _ hgs => aux (erc_total mu sigma hgs) (erc_keeps_plain mu sigma hgs)

/-- **C82, programs.** A run of `NSGA2Evolution` with `NSGA2Breeder`, put together from tree creators that give `NSGA2Fitness` objects and
tree operators over functions and terminals, typed or not, with a function and a terminal for every type in use, completes, and leaves a population of well-formed
programs. -/
theorem C82_programs (hp : cfg.Plain) {c : MCfg GP.Ind}
    (h : c.Assembled (PlainLegal cfg) (TreeCreator cfg n m ds) TreeOp n m ds)
    {s : MRun GP.Ind} (hf : s.Fresh m ds) (hs : AllHave (PlainLegal cfg) s.w) :
    ∃ s', mevolve c s = (.ok (), s') ∧ MCompleted (Legal cfg) n m s' := by
  obtain ⟨s', h1, ⟨is, b, v, k1, k2, k3, k4, k5⟩, _⟩ := C82_completes
    (h.sound (fun _ h => h.creates hp) (fun _ h => h.good) (fun _ h ha => h.worksOn hp ha)) hf hs
  exact ⟨s', h1, is, b, v, k1, k2, k3, fun r hr => ⟨(k4 r hr).1.1, (k4 r hr).2⟩, k5⟩

/-- Four programs made by the half creator; the number of nodes and its negative are minimised. -/
def exProg : MCfg GP.Ind where
  sub := {
    create := halfAndHalfM Sample.cfg (1 / 2) 1 2 (.new none (.same false) false false) 4
    ops := [treeCrossover 1 2 1, treeMutation 1 0 1 1, ercMutationM 1 1 0 1]
    sels := [⟨1, tournamentM 2 false⟩]
    popSize := 4
    nElite := 0
    hib := false
    evaluate := fun i => PyM.pure [i.tree.length, - i.tree.length] }
  nsga2Breeder := true
  stream := fun seed k => seed + k * k
  maxGen := 2
  checker := fun _ _ _ _ => .ok false
  sched := fun _ k => (List.range k).reverse
  setOrder := fun _ _ l => l

def exProgRun : MRun GP.Ind where
  w := ⟨fun _ => .new none (.each []) false false, fun _ => ⟨Sample.cfg, []⟩, 0, fun _ => 0⟩
  inds := none
  bestOfRun := none
  bestOfGen := none
  genNum := 0
  randomSeed := 7
  genSeed := 7
  finalGen := none
  log := []

theorem exProg_assembled : exProg.Assembled (PlainLegal Sample.cfg) (TreeCreator Sample.cfg 4 2 [false, false]) TreeOp
    4 2 [false, false] where
  breeder := rfl
  size := by decide
  directions := rfl
  creator := .half (1 / 2) 1 2 _ ⟨rfl, rfl⟩ (by decide) (by decide)
  ops := by
    intro o ho
    simp only [exProg, List.mem_cons, List.not_mem_nil, or_false] at ho
    rcases ho with rfl | rfl | rfl
    · exact .crossover _ _ _
    · exact .mutation _ _ _ _
    · exact .erc _ _ _ _
  arities := by
    intro o ho
    simp only [exProg, List.mem_cons, List.not_mem_nil, or_false] at ho
    rcases ho with rfl | rfl | rfl
    · exact ⟨show (2 : Nat) ≠ 0 by decide, show 2 ∣ 4 by decide⟩
    · exact ⟨show (1 : Nat) ≠ 0 by decide, show 1 ∣ 4 by decide⟩
    · exact ⟨show (1 : Nat) ≠ 0 by decide, show 1 ∣ 4 by decide⟩
  sels := ⟨1, 2, false, rfl, .inr (by decide)⟩
  evaluates := fun _ _ => wlp_pure.2 (by rfl)
  evaluate := fun _ _ => Total.pure
  order := fun _ _ _ => List.Perm.refl _
  sched := fun _ _ => List.reverse_perm _
  calm := fun _ _ _ _ _ => ⟨false, rfl⟩

example : ∃ s', mevolve exProg exProgRun = (.ok (), s') ∧ MCompleted (Legal Sample.cfg) 4 2 s' :=
  C82_programs exPlain exProg_assembled ⟨rfl, fun r hr => absurd hr (Nat.not_lt_zero r), rfl, rfl⟩
    (fun r hr => absurd hr (Nat.not_lt_zero r))

end programs

end Verif.Moo
