import Verif.Spec.Total
import Verif.Lemmas.Legal
import Verif.Props.Breeder

/-! # Runs of sound configurations do not raise -/

namespace Verif.Evo
open PyM
variable {G κ : Type} {P : G → Prop} {K : κ → Prop} {size : G → Nat}

/-! ## Breeding -/

theorem applyOperator_worksOn {o : Op G} (hg : o.Good) (ho : o.WorksOn P) {inds : List Nat} {s : World G}
    (hc : Carry P s.heap inds) (hl : inds.length = o.arity) : wp (applyOperator o inds) (fun _ _ => True) s := by
  unfold applyOperator
  rw [wp_bind, wp_rand]
  obtain ⟨u, t, hrun, -⟩ := Rand.random_ensures s.tape
  refine ⟨u, t, hrun, ?_⟩
  dsimp only
  rw [wp_ite]
  refine ⟨fun _ => ?_, fun _ => by rw [wp_pure]; trivial⟩
  rw [wp_bind]
  obtain ⟨s₁, e1, -, -, l1, -⟩ := resetAll_heap inds { s with tape := t }
  have hc1 : Carry P s₁.heap inds :=
    updates_carry (P := P) (fun r : Nat => r) (fun _ i => { i with fit := i.fit.setNotEvaluated })
      inds (fun _ _ _ h => h) { s with tape := t } _ _ e1 inds hc
  refine ⟨(), s₁, e1, ?_⟩
  dsimp only
  rw [wp_bind]
  refine ((ho inds s₁ hc1 hl).and (hg inds s₁ hc1.lt)).mono ?_
  rintro res s₂ ⟨h1, e, -⟩
  cases res with
  | none => exact absurd rfl h1
  | some l =>
    dsimp only
    rw [wp_bind]
    have hids : wp (mapL (fun r => do let i ← deref r; pure i.id) inds) (fun _ _ => True) s₂ := by
      refine (wp_mapL (I := fun _ _ (s' : World G) => s' = s₂) rfl ?_).mono fun _ _ _ => trivial
      rintro pre r post ns s' hrefs rfl
      rw [wp_bind, wp_deref]
      have hr : r < s'.heap.length := lt_of_lt_of_le (hc1.lt r (by simp [hrefs])) e.len
      exact ⟨_, List.getElem?_eq_getElem hr, by rw [wp_pure]⟩
    refine hids.mono fun ids s₃ _ => ?_
    rw [wp_bind]
    refine wp.mono (Q := fun _ _ => True) ?_ fun _ _ _ => by rw [wp_pure]; trivial
    refine wp_forL (I := fun _ _ => True) trivial ?_
    intro pre q post s _ _
    rw [wp_update]; trivial

theorem applyChunks_worksOn {base : World G} {n : Nat} {m : Mode} {o : Op G} (hg : o.Good)
    (hp : o.Preserves P) (ho : o.WorksOn P) (is : List Nat) (hi : ∀ i ∈ is, i + o.arity ≤ n)
    {inds : List Nat} {s : World G} (hb : Brood base n m s inds) (hc : Carry P s.heap inds) :
    wp (applyChunks o is inds) (fun res s' => Brood base n m s' res ∧ Carry P s'.heap res) s := by
  suffices wp (applyChunks o is inds) (fun _ _ => True) s from
    (this.and ((applyChunks_brood hg is hb).and (applyChunks_carry hg hp is hb hc))).mono fun _ _ h => h.2
  induction is generalizing s inds with
  | nil => unfold applyChunks; rw [wp_pure]; trivial
  | cons i is ih =>
    unfold applyChunks
    rw [wp_bind]
    obtain ⟨A, C, hsplit, hset⟩ := slice_split inds i ((i + o.arity : Nat) : Int)
    have hsub : ∀ r ∈ Py.slice inds i ((i + o.arity : Nat) : Int), r ∈ inds := fun r hr => by
      rw [hsplit]; exact List.mem_append_left _ (List.mem_append_right _ hr)
    have hl := slice_length inds i o.arity (by rw [hb.length]; exact hi i (by simp))
    have hone := (applyOperator_worksOn hg ho (hc.sub hsub) hl)
    -- one step of `applyChunks`
    have hstep : wlp (applyOperator o (Py.slice inds i ((i + o.arity : Nat) : Int))) (fun res s' =>
        Brood base n m s' (Py.setSlice inds i ((i + o.arity : Nat) : Int) res) ∧
        Carry P s'.heap (Py.setSlice inds i ((i + o.arity : Nat) : Int) res)) s := by
      have h1 := applyChunks_brood hg [i] hb
      have h2 := applyChunks_carry hg hp [i] hb hc
      unfold applyChunks at h1 h2
      rw [wlp_bind] at h1 h2
      refine (h1.and h2).mono fun res s' h => ?_
      unfold applyChunks at h
      rw [wlp_pure, wlp_pure] at h
      exact h
    exact (hone.and hstep).mono fun res s' h => ih (fun i h => hi i (by simp [h])) h.2.1 h.2.2

theorem applyOperators_worksOn {base : World G} {n : Nat} {m : Mode} (os : List (Op G))
    (hg : ∀ o ∈ os, o.Good) (hp : ∀ o ∈ os, o.Preserves P) (ho : ∀ o ∈ os, o.WorksOn P)
    (ha : ∀ o ∈ os, o.arity ≠ 0 ∧ o.arity ∣ n) {inds : List Nat} {s : World G}
    (hb : Brood base n m s inds) (hc : Carry P s.heap inds) :
    wp (applyOperators os inds) (fun res s' => Brood base n m s' res ∧ Carry P s'.heap res) s := by
  induction os generalizing s inds with
  | nil => unfold applyOperators; rw [wp_pure]; exact ⟨hb, hc⟩
  | cons o os ih =>
    unfold applyOperators
    obtain ⟨h0, hd⟩ := ha o (by simp)
    rw [if_neg h0, wp_bind]
    refine (applyChunks_worksOn (hg o (by simp)) (hp o (by simp)) (ho o (by simp)) _ ?_ hb hc).mono fun res s' h =>
        ih (fun o h => hg o (by simp [h])) (fun o h => hp o (by simp [h])) (fun o h => ho o (by simp [h]))
          (fun o h => ha o (by simp [h])) h.1 h.2
    intro i hi
    rw [hb.length] at hi
    exact rangeStep_bound h0 hd hi

theorem checkArities_ok {n : Nat} {as : List Nat} (h : ∀ a ∈ as, a ≠ 0 ∧ a ∣ n) (s : World G) :
    checkArities n as s = (.ok (), s) := by
  induction as with
  | nil => rfl
  | cons a as ih =>
    unfold checkArities
    obtain ⟨h0, hd⟩ := h a (by simp)
    rw [if_neg h0, if_neg (by simpa using Nat.mod_eq_zero_of_dvd hd)]
    exact ih fun a ha => h a (by simp [ha])

theorem breedSub_total {c : Cfg G κ} {sub : SubCfg G} {m : Mode} (hc : c.Sound P sub m K) {w : World G}
    {is : List Nat} (hn : is.length = sub.popSize) (hm : ∀ r ∈ is, modeAt w r = some m)
    (he : Evaluated c.size m.hib w is) (hcar : Carry P w.heap is) :
    wp (breedSub c.size sub is) (fun res w' => Brood w sub.popSize m w' res ∧ Carry P w'.heap res) w := by
  unfold breedSub
  rw [wp_bind]
  refine ⟨(), w, checkArities_ok hc.arities w, ?_⟩
  dsimp only
  obtain ⟨sel, rest, h1, h2, h3⟩ := hc.sels
  rw [wp_bind]
  have hsel : wp (selectStage c.size sub is) (fun _ _ => True) w := by
    unfold selectStage
    rw [wp_bind, h1]
    rw [hc.dir] at he
    have hel : wp (eliteStage c.size sub is) (fun _ s' => Ext (fun _ => False) w s') w := by
      unfold eliteStage
      rw [wp_ite]
      exact ⟨fun _ => (C27_elitism sub.nElite [] he).mono fun _ _ h => h.1,
        fun _ => by rw [wp_pure]; exact Ext.refl _ _⟩
    exact hel.mono fun next s₁ e => hc.select sel rest h1 is next s₁ hn (he.ext e (by simp))
  refine (hsel.and (select_brood h1 h2 h3 he.valid hm)).mono ?_
  rintro res s₂ ⟨-, hb, hcopy⟩
  rw [hn] at hb
  refine applyOperators_worksOn sub.ops hc.ops hc.preserve hc.operate (fun o ho => ?_) hb ?_
  · exact hc.arities _ (List.mem_append_right _ (List.mem_map_of_mem ho))
  · intro r hr
    obtain ⟨src, hsrc, hcp⟩ := hcopy r hr
    obtain ⟨i, hi, hpi⟩ := hcar src hsrc
    have := hcp.genome
    unfold genomeAt at this
    rw [hi] at this
    cases hj : s₂.heap[r]? with
    | none => simp [hj] at this
    | some j =>
      simp only [hj, Option.map_some, Option.some.injEq] at this
      exact ⟨j, rfl, this ▸ hpi⟩

/-! ## Evaluation -/

theorem executorMap_total {σ α : Type} {s : σ} {order refs : List Nat}
    (hp : order.Perm (List.range refs.length)) {task : Nat → PyM σ α} {I : σ → Prop} (hI : I s)
    (ht : ∀ r ∈ refs, ∀ s, I s → wp (task r) (fun _ s' => I s') s) :
    wp (executorMap order task refs) (fun _ _ => True) s := by
  unfold executorMap
  rw [wp_bind]
  have h1 : wp (mapL (runTask task refs) order) (fun rs s' => rs.map Prod.fst = order ∧ I s') s := by
    refine wp_mapL (I := fun is rs s' => rs.map Prod.fst = is ∧ I s') ⟨rfl, hI⟩ ?_
    rintro pre i post rs s₁ horder ⟨h, hI₁⟩
    have hlt : i < refs.length := by simpa using hp.subset (a := i) (by simp [horder])
    unfold runTask
    rw [List.getElem?_eq_getElem hlt]
    dsimp only
    rw [wp_bind]
    refine (ht _ (List.getElem_mem hlt) s₁ hI₁).mono fun v s₂ hI₂ => ?_
    rw [wp_pure]
    exact ⟨by rw [List.map_append, h]; rfl, hI₂⟩
  refine h1.mono ?_
  rintro rs s₁ ⟨hrs, -⟩
  refine (wp_mapL (I := fun _ _ _ => True) trivial ?_).mono fun _ _ _ => trivial
  rintro pre i post vs s₂ hi -
  have hmem : i ∈ rs.map Prod.fst := by
    rw [hrs]
    exact hp.symm.subset (by rw [hi]; simp)
  obtain ⟨p, hp1, rfl⟩ := List.mem_map.1 hmem
  unfold lookupResult
  cases hf : rs.find? (fun q => q.1 == p.1) with
  | none =>
    have := List.find?_eq_none.1 hf p hp1
    simp at this
  | some q => rw [wp_pure]; trivial

theorem evaluateMap_total {sub : SubCfg G} {d : Bool} {order inds : List Nat} {s : World G}
    (hp : order.Perm (List.range inds.length)) (hne : inds ≠ []) (hev : ∀ g, P g → Total (sub.evaluate g))
    (hc : Carry P s.heap inds) (hd : ∀ r ∈ inds, ∀ i, s.heap[r]? = some i → i.fit.hib = d) :
    wp (evaluateMap size sub order inds) (fun b s' => Ext (· ∈ inds) s s' ∧
      (∀ r, genomeAt s' r = genomeAt s r) ∧ s'.heap.length = s.heap.length ∧
      Evaluated size d s' inds ∧ FirstBest (Beats size d s') inds b) s := by
  suffices wp (evaluateMap size sub order inds) (fun _ _ => True) s from
    (this.and (evaluateMap_wlp hc.lt hd)).mono fun _ _ h => h.2
  unfold evaluateMap
  rw [wp_bind]
  have hmap : wp (executorMap order (runEval sub) inds) (fun _ _ => True) s := by
    refine executorMap_total hp (I := fun s' : World G => s'.heap = s.heap) rfl ?_
    rintro r hr s₁ h1
    unfold runEval
    rw [wp_bind, wp_deref]
    obtain ⟨i, hi, hpi⟩ := hc r hr
    refine ⟨i, by rw [h1]; exact hi, ?_⟩
    rw [wp_rand]
    obtain ⟨q, t, hrun⟩ := hev i.genome hpi s₁.tape
    exact ⟨q, t, hrun, h1⟩
  refine (hmap.and (executorMap_wlp order inds (I := fun s' : World G => s'.heap = s.heap) rfl
    fun r s₁ h1 => (runEval_wlp sub r s₁).mono fun _ s' h => h.1.trans h1)).mono ?_
  rintro scores s₁ ⟨-, hlen, h1⟩
  rw [wp_bind]
  have hv1 : Valid s₁ inds := fun r hr => by rw [h1]; exact hc.lt r hr
  have hst : wp (forL (fun (p : Nat × ℚ) => setFitness p.1 (.num p.2)) (inds.zip scores)) (fun _ _ => True) s₁ := by
    refine wp_forL (I := fun _ _ => True) trivial ?_
    rintro pre p post s₂ _ _
    unfold setFitness
    rw [wp_update]
    trivial
  refine (hst.and (storeScores_wlp (size := size) hlen hv1 (fun r hr i hi => hd r hr i (h1 ▸ hi)))).mono ?_
  rintro _ s₂ ⟨-, -, -, -, he⟩
  cases inds with
  | nil => exact absurd rfl hne
  | cons b rest =>
    dsimp only
    rw [bestLoop_eq]
    exact (winnerLoop_wp b rest he).mono fun _ _ _ => trivial

/-! ## The loop -/

theorem wp_world {α : Type} {m : WM G α} {Q : α → Run G κ → Prop} {s : Run G κ}
    (h : wp m (fun a w => Q a { s with w := w }) s.w) : wp (world m) Q s := wp_zoom.2 h

theorem wp_publish {s : Run G κ} {p n : String} {Q : Unit → Run G κ → Prop} (h : Q () (s.push p n)) :
    wp (publish p n) Q s := wp_modify.2 h

/-- What holds between the steps of a run of a sound configuration. -/
structure Living (K : κ → Prop) (P : G → Prop) (c : Cfg G κ) (sub : SubCfg G) (m : Mode) (s : Run G κ) : Prop where
  fits : c.Fits s.checkers ∧ ∀ k ∈ s.checkers, K k
  executor : s.shutdown = false
  best : ∃ b x, s.bestOfRun = some b ∧ HasScore c.size m.hib s.w b x
  pop : ∃ is, s.inds = [some is] ∧ is.length = sub.popSize ∧ is.Nodup ∧ (∀ r ∈ is, modeAt s.w r = some m) ∧
    Evaluated c.size m.hib s.w is ∧ Carry P s.w.heap is

theorem Living.push {c : Cfg G κ} {sub : SubCfg G} {m : Mode} {s : Run G κ} (h : Living K P c sub m s)
    (p n : String) : Living K P c sub m (s.push p n) := ⟨h.fits, h.executor, h.best, h.pop⟩

theorem evaluatePopulation_total {c : Cfg G κ} {sub : SubCfg G} {m : Mode} (hc : c.Sound P sub m K)
    {s : Run G κ} {is : List Nat} (hi : s.inds = [some is]) (hn : is.length = sub.popSize)
    (hm : ∀ r ∈ is, modeAt s.w r = some m) (hcar : Carry P s.w.heap is) (hx : s.shutdown = false) :
    wp (evaluatePopulation c) (fun b s' => ∃ w log, s' = { s with w := w, log := log } ∧ Ext (· ∈ is) s.w w ∧
      (∀ r, genomeAt w r = genomeAt s.w r) ∧ Evaluated c.size m.hib w is ∧ b ∈ is) s := by
  unfold evaluatePopulation act
  rw [wp_bind]
  refine wp_publish ?_
  rw [wp_bind]
  unfold evaluateBody
  rw [wp_bind, wp_get, hc.subs]
  show wp (match [sub], s.inds with
    | [sub], [some is] => _
    | [_], [none] => _
    | _, _ => _) _ _
  rw [hi]
  dsimp only
  have hx' : (s.push "population_evaluator" "before_operator").shutdown = false := hx
  rw [hx', Bool.false_and, if_neg (by simp)]
  refine wp_world ?_
  rw [hc.map, if_neg (by simp)]
  refine (evaluateMap_total (P := P) (size := c.size) (d := m.hib) (hc.sched _ _) ?_ hc.evaluate hcar
    (fun r hr i hri => modeAt_hib (hm r hr) hri)).mono ?_
  · intro h
    have := hc.popSize
    rw [h] at hn
    simp at hn
    omega
  rintro b w ⟨e, hg, -, hev, hfb⟩
  rw [wp_bind]
  refine wp_publish ?_
  rw [wp_pure]
  refine ⟨w, (Run.push { s.push "population_evaluator" "before_operator" with w := w } "population_evaluator" "after_operator").log,
    ?_, e, hg, hev, hfb.mem⟩
  rw [← hi]
  rfl

theorem generation_total {c : Cfg G κ} {sub : SubCfg G} {m : Mode} (hc : c.Sound P sub m K) {s : Run G κ}
    (h : Living K P c sub m s) : wp (generationIteration c) (fun _ s' => Living K P c sub m s') s := by
  obtain ⟨hfits, hexec, ⟨b₀, x₀, hb₀, hx₀⟩, is, hi, hn, hnd, hm, hev, hcar⟩ := h
  unfold generationIteration
  rw [wp_bind]
  unfold breed act
  rw [wp_bind]
  refine wp_publish ?_
  rw [wp_bind]
  unfold breedBody
  rw [wp_bind, wp_get, wp_bind]
  refine wp_world ?_
  show wp (breedAll c.size (c.subs.zip s.inds)) _ s.w
  rw [hc.subs, hi]
  show wp (breedAll c.size [(sub, some is)]) _ _
  unfold breedAll
  rw [wp_bind]
  refine (breedSub_total hc hn hm hev hcar).mono ?_
  rintro res w ⟨hb, hcar1⟩
  unfold breedAll
  rw [wp_bind, wp_pure, wp_pure, wp_modify, wp_bind]
  refine wp_publish ?_
  rw [wp_pure, wp_bind]
  refine (evaluatePopulation_total hc (s := Run.push { s.push "breeder" "before_operator" with w := w, inds := [some res] } "breeder" "after_operator") (is := res) rfl hb.length hb.mode hcar1 hexec).mono ?_
  rintro b s₂ ⟨w2, log, rfl, e, hg, hev2, hbmem⟩
  rw [wp_bind, wp_modify, wp_bind]
  unfold recordBest
  rw [wp_bind, wp_get, wp_bind]
  refine wp_world ?_
  rw [wp_reading]
  obtain ⟨y, hy⟩ := hev2 b hbmem
  have hx2 : HasScore c.size m.hib w2 b₀ x₀ := by
    refine (hx₀.ext hb.ext (by simp)).ext e ?_
    intro hmem
    have h1 := hb.fresh b₀ hmem
    have h2 := hx₀.lt
    omega
  obtain ⟨v, hv, -⟩ := betterOf_eq hy hx2
  have hnew : ∀ (b : Nat) (x : ℚ) (t : Run G κ), HasScore c.size m.hib w2 b x → t.w = w2 → t.inds = [some res] →
      t.checkers = s.checkers → t.shutdown = false → t.bestOfRun = some b → Living K P c sub m t := by
    intro b x t hbx h1 h2 h3 h4 h5
    refine ⟨by rw [h3]; exact hfits, h4, ⟨b, x, h5, by rw [h1]; exact hbx⟩, res, h2, hb.length, hb.nodup, ?_, ?_, ?_⟩
    · intro r hr
      rw [h1, modeAt_ext e (hb.valid r hr)]
      exact hb.mode r hr
    · rw [h1]; exact hev2
    · rw [h1]; exact carry_of_genomes hcar1 fun r _ => hg r
  have hworst : ∀ t : Run G κ, Living K P c sub m t → wp (recordWorst c) (fun _ s' => Living K P c sub m s') t := by
    intro t ht
    unfold recordWorst
    rw [wp_bind, wp_get, hc.subs]
    obtain ⟨is, hi, hn, hnd, hm, hev, hcar⟩ := ht.pop
    rw [hi]
    dsimp only
    rw [wp_bind]
    refine wp_world ?_
    rw [wp_reading]
    rw [hc.dir] at hev
    obtain ⟨r, hr, -⟩ := C46_worst hev (by
      intro h
      have := hc.popSize
      rw [h] at hn
      simp at hn
      omega)
    refine ⟨r, hr, ?_⟩
    rw [wp_modify]
    exact ⟨ht.fits, ht.executor, ht.best, ht.pop⟩
  refine ⟨v, ?_, ?_⟩
  · show betterOf c.size w2.heap b s.bestOfRun = _
    rw [hb₀]; exact hv
  rw [wp_ite]
  refine ⟨fun _ => ?_, fun _ => ?_⟩
  · rw [wp_modify]
    exact hworst _ (hnew b y _ hy rfl rfl rfl hexec rfl)
  · rw [wp_pure]
    exact hworst _ (hnew b₀ x₀ _ hx2 rfl rfl rfl hexec hb₀)

theorem consult_total {c : Cfg G κ} {hib : Bool} {w : World G} {is : List Nat} {b gen : Nat} {x : ℚ} (hne : is ≠ [])
    (hev : Evaluated c.size hib w is) (hx : HasScore c.size hib w b x) {ts : List (Checker G κ)}
    (ht : ∀ t ∈ ts, Checker.Calm c.size hib K t) {ks : List κ} (hk : ks.length = ts.length) (hK : ∀ k ∈ ks, K k) :
    ∃ bs ks', consult w.heap [some is] (some b) gen ts ks = (.ok bs, ks') ∧ ks'.length = ks.length ∧ ∀ k ∈ ks', K k := by
  induction ts generalizing ks with
  | nil => exact ⟨[], ks, by unfold consult; rfl, rfl, hK⟩
  | cons t ts ih =>
    cases ks with
    | nil => simp at hk
    | cons k ks =>
      obtain ⟨v, k', hv, hk'⟩ := ht t (by simp) k w.heap [some is] (some b) gen
        ⟨hK k (by simp), w, is, b, x, rfl, rfl, hne, hev, rfl, hx⟩
      obtain ⟨bs, ks', h1, h2, h3⟩ := ih (fun t h => ht t (by simp [h])) (ks := ks) (by simpa using hk)
        (fun k h => hK k (by simp [h]))
      refine ⟨v :: bs, k' :: ks', ?_, by simp [h2], ?_⟩
      · unfold consult
        rw [hv]
        dsimp only
        rw [h1]
      · intro j hj
        rcases List.mem_cons.1 hj with rfl | hj
        · exact hk'
        · exact h3 j hj

theorem shouldTerminate_total {c : Cfg G κ} {sub : SubCfg G} {m : Mode} (hc : c.Sound P sub m K) {s : Run G κ}
    (h : Living K P c sub m s) (gen : Nat) :
    wp (shouldTerminate c gen) (fun _ s' => Living K P c sub m s') s := by
  have key : ∀ ks : List κ, ks.length = s.checkers.length → (∀ k ∈ ks, K k) →
      Living K P c sub m { s with checkers := ks } := by
    intro ks hk hK
    refine ⟨⟨?_, hK⟩, h.executor, h.best, h.pop⟩
    have := h.fits.1
    unfold Cfg.Fits at this ⊢
    cases hch : c.checker <;> simp only [hch] at this ⊢ <;> omega
  obtain ⟨hfits, hK⟩ := h.fits
  obtain ⟨b, x, hb, hx⟩ := h.best
  obtain ⟨is, hi, hn, -, -, hev, -⟩ := h.pop
  have hne : is ≠ [] := by
    rintro rfl
    have := hc.popSize
    simp at hn
    omega
  have hcalm := hc.calm
  rw [← hc.dir] at hcalm
  unfold Cfg.Fits at hfits
  unfold Cfg.Calm at hcalm
  unfold shouldTerminate
  cases hch : c.checker with
  | none => exact ⟨false, s, rfl, h⟩
  | one t =>
    rw [hch] at hfits hcalm
    dsimp only at hfits hcalm
    cases hks : s.checkers with
    | nil => rw [hks] at hfits; simp at hfits
    | cons k ks =>
      rw [hks] at hK
      obtain ⟨v, k', hv, hk'⟩ := hcalm k s.w.heap [some is] (some b) gen
        ⟨hK k (by simp), s.w, is, b, x, rfl, rfl, hne, hev, rfl, hx⟩
      refine ⟨v, { s with checkers := k' :: ks }, by simp only [hks, hv, hi, hb], key _ (by rw [hks]; rfl) ?_⟩
      intro j hj
      rcases List.mem_cons.1 hj with rfl | hj
      · exact hk'
      · exact hK j (by simp [hj])
  | many ts =>
    rw [hch] at hfits hcalm
    dsimp only at hfits hcalm
    obtain ⟨bs, ks', h1, h2, h3⟩ := consult_total (gen := gen) hne hev hx hcalm hfits hK
    exact ⟨bs.any id, { s with checkers := ks' }, by simp only [h1, hi, hb], key _ h2 h3⟩

theorem updateGen_total {c : Cfg G κ} {sub : SubCfg G} {m : Mode} {s : Run G κ} (h : Living K P c sub m s)
    (gen : Nat) : wp (updateGen gen) (fun _ s' => Living K P c sub m s') s := by
  obtain ⟨is, hi, hn, hnd, hm, hev, hcar⟩ := h.pop
  obtain ⟨b, x, hb, hx⟩ := h.best
  unfold updateGen
  rw [wp_bind, wp_get, hi]
  unfold forL
  rw [wp_bind]
  refine wp_world ?_
  refine (wp_forL (I := fun _ (w : World G) => ∀ r, essence w.heap r = essence s.w.heap r ∧
    modeAt w r = modeAt s.w r ∧ genomeAt w r = genomeAt s.w r) (fun r => ⟨rfl, rfl, rfl⟩) ?_).mono fun _ w hw => ?_
  · rintro pre a post w _ hw
    rw [wp_update]
    refine fun r => ⟨?_, ?_, ?_⟩
    · rw [← (hw r).1]
      exact essence_modify fun i => ⟨rfl, rfl, rfl⟩
    · rw [← (hw r).2.1]
      unfold modeAt
      simp only [List.getElem?_modify]
      cases w.heap[r]? with
      | none => rfl
      | some i => by_cases ha : a = r <;> simp [ha, Ind.mode]
    · rw [← (hw r).2.2]
      unfold genomeAt
      simp only [List.getElem?_modify]
      cases w.heap[r]? with
      | none => rfl
      | some i => by_cases ha : a = r <;> simp [ha]
  · unfold forL
    rw [wp_pure]
    have hsc : ∀ r x, HasScore c.size m.hib s.w r x → HasScore c.size m.hib w r x := fun r x hx =>
      hasScore_ofHeap.1 ((hasScore_congr (hw r).1).2 (hasScore_ofHeap.2 hx))
    refine ⟨h.fits, h.executor, ⟨b, x, hb, hsc b x hx⟩, is, hi, hn, hnd, fun r hr => ?_, fun r hr => ?_, ?_⟩
    · show modeAt w r = _
      rw [(hw r).2.1]; exact hm r hr
    · obtain ⟨y, hy⟩ := hev r hr
      exact ⟨y, hsc r y hy⟩
    · exact carry_of_genomes hcar fun r _ => (hw r).2.2

theorem mainLoop_total {c : Cfg G κ} {sub : SubCfg G} {m : Mode} (hc : c.Sound P sub m K) (n gen : Nat)
    {s : Run G κ} (h : Living K P c sub m s) :
    wp (mainLoop c n gen) (fun _ s' => Living K P c sub m s') s := by
  induction n generalizing gen s with
  | zero => unfold mainLoop; rw [wp_pure]; exact h
  | succ n ih =>
    unfold mainLoop
    rw [wp_bind, wp_modify, wp_bind]
    refine (updateGen_total (⟨h.fits, h.executor, h.best, h.pop⟩ :
      Living K P c sub m { s with genNum := gen }) gen).mono fun _ s₁ h1 => ?_
    unfold setSeed
    rw [wp_bind, wp_get, wp_bind, wp_modify, wp_bind, wp_modify, wp_bind]
    refine (generation_total hc (⟨h1.fits, h1.executor, h1.best, h1.pop⟩ : Living K P c sub m
      { s₁ with w := { s₁.w with tape := c.stream (nextSeed s₁.genSeed) }, genSeed := nextSeed s₁.genSeed })).mono
      fun _ s₂ h2 => ?_
    rw [wp_bind]
    refine (shouldTerminate_total hc h2 gen).mono fun stop s₃ h3 => ?_
    rw [wp_ite]
    refine ⟨fun _ => ?_, fun _ => ?_⟩
    · rw [wp_bind, wp_modify]
      exact wp_publish ⟨h3.fits, h3.executor, h3.best, h3.pop⟩
    · rw [wp_bind]
      exact wp_publish (ih _ (h3.push _ _))

theorem createSub_total {c : Cfg G κ} {sub : SubCfg G} {m : Mode} (hc : c.Sound P sub m K) {w : World G}
    (o : Option (List Nat)) (ho : ∀ is, o = some is → is.Nodup ∧ (∀ r ∈ is, modeAt w r = some m) ∧
      is.length = sub.popSize ∧ Carry P w.heap is) :
    wp (createSub sub o) (fun res w' => ∃ is, res = some is ∧ is.Nodup ∧ (∀ r ∈ is, modeAt w' r = some m) ∧
      is.length = sub.popSize ∧ Carry P w'.heap is) w := by
  unfold createSub
  cases o with
  | some is => rw [wp_pure]; exact ⟨is, rfl, ho is rfl⟩
  | none =>
    dsimp only
    rw [wp_bind, wp_rand]
    obtain ⟨k, t, hrun, hk⟩ := hc.pick w.tape
    refine ⟨k, t, hrun, ?_⟩
    dsimp only
    rw [List.getElem?_eq_getElem hk]
    dsimp only
    rw [wp_bind]
    have hmem := List.getElem_mem hk
    have hgood := hc.creators _ hmem sub.popSize { w with tape := t }
    rw [hc.dir] at hgood
    refine ((hc.create _ hmem { w with tape := t }).and hgood).mono ?_
    rintro is w' ⟨⟨h1, h2⟩, -, hn, hr⟩
    rw [wp_pure]
    exact ⟨is, rfl, hn, fun r h => (hr r h).2.2, h1, h2⟩

theorem initRun_total {c : Cfg G κ} {sub : SubCfg G} {m : Mode} (hc : c.Sound P sub m K) {s : Run G κ}
    (ho : s.Open P c sub m K) : wp (initRun c) (fun _ s' => Living K P c sub m s') s := by
  unfold initRun setSeed
  rw [wp_bind, wp_get, wp_bind, wp_modify, wp_bind]
  unfold createPopulation
  rw [wp_bind, wp_get, wp_bind]
  refine wp_world ?_
  obtain ⟨o, hi, hgood⟩ : ∃ o, s.inds = [o] ∧ ∀ is, o = some is → is.Nodup ∧ (∀ r ∈ is, modeAt s.w r = some m) ∧
      is.length = sub.popSize ∧ Carry P s.w.heap is := by
    rcases ho.ready with h | ⟨is, h, h1, h2⟩
    · exact ⟨none, h, by simp⟩
    · refine ⟨some is, h, ?_⟩
      rintro is' h'
      cases h'
      exact ⟨h1, h2, ho.given is (by rw [h]; simp)⟩
  rw [hc.subs]
  dsimp only
  rw [hi]
  show wp (mapL _ [(sub, o)]) _ _
  unfold mapL
  rw [wp_bind]
  refine (createSub_total hc o (w := { s.w with tape := c.stream s.randomSeed }) hgood).mono ?_
  rintro res w ⟨is, rfl, hnd, hm, hn, hcar⟩
  unfold mapL
  rw [wp_bind, wp_pure, wp_pure, wp_modify, wp_bind]
  refine (evaluatePopulation_total hc (s := { s with w := w, inds := [some is] }) (is := is) rfl hn hm hcar ho.executor).mono ?_
  rintro b s₂ ⟨w2, log, rfl, e, hg, hev, hbmem⟩
  rw [wp_bind, wp_modify]
  refine wp_publish ?_
  obtain ⟨x, hx⟩ := hev b hbmem
  refine ⟨⟨ho.fits, ho.states⟩, ho.executor, ⟨b, x, rfl, hx⟩, is, rfl, hn, hnd, fun r hr => ?_, hev, ?_⟩
  · show modeAt w2 r = _
    rw [modeAt_ext e (modeAt_lt (hm r hr))]
    exact hm r hr
  · exact carry_of_genomes hcar fun r _ => hg r

theorem evolve_total {c : Cfg G κ} {sub : SubCfg G} {m : Mode} (hc : c.Sound P sub m K) {s : Run G κ}
    (ho : s.Open P c sub m K) : wp (evolve c) (fun _ s' => ∃ b x is, s'.bestOfRun = some b ∧
      HasScore c.size m.hib s'.w b x ∧ s'.inds = [some is] ∧ is.length = sub.popSize ∧ is.Nodup ∧
      Evaluated c.size m.hib s'.w is ∧ Carry P s'.w.heap is) s := by
  unfold evolve
  rw [wp_bind]
  refine (initRun_total hc ho).mono fun _ s₁ h1 => ?_
  rw [wp_bind]
  refine wp.mono (Q := fun _ s₂ => Living K P c sub m s₂) ?_ fun _ s₂ h2 => ?_
  · unfold afterInit
    rw [wp_bind, wp_get, wp_bind]
    refine (shouldTerminate_total hc h1 s₁.genNum).mono fun v s₃ h3 => ?_
    rw [wp_ite]
    refine ⟨fun _ => ?_, fun _ => mainLoop_total hc _ _ h3⟩
    rw [wp_bind, wp_modify]
    exact wp_publish ⟨h3.fits, h3.executor, h3.best, h3.pop⟩
  · rw [wp_bind]
    refine wp_publish ?_
    rw [wp_modify]
    obtain ⟨-, -, ⟨b, x, hb, hx⟩, is, hi, hn, hnd, hm, hev, hcar⟩ := h2
    exact ⟨b, x, is, hb, hx, hi, hn, hnd, hev, hcar⟩

end Verif.Evo
