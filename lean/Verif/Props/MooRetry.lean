import Verif.Props.Retry
import Verif.Props.MooBlame
import Verif.Props.MooAgain

/-!
# C161 — multi-objective runs that were interrupted

What `NSGA2Evolution` leaves behind when the evaluator or the termination checker raises, and what a second call of `evolve`
makes of it.
-/

namespace Verif.Moo
open PyM Evo
variable {G : Type} {P : G → Prop} {n m : Nat} {ds : List Bool} {c : MCfg G} {s : MRun G}

/-- What the population consists of, without the random numbers. -/
def matter (w : MWorld G) : Heap × (Nat → G) × Nat := (w.fits, w.genome, w.next)

theorem matter_runEval (sub : MSub G) (r : Nat) : Keeps matter (runEvalM sub r) := by
  unfold runEvalM
  refine Keeps.bind (fun _ => rfl) fun w => ?_
  intro w'
  rfl

theorem Waiting.of_matter {k : Nat} {l : List Nat} (h : Waiting P k m ds s l) {s' : MRun G} (hw : matter s'.w = matter s.w)
    (hi : s'.inds = s.inds) : Waiting P k m ds s' l := by
  simp only [matter, Prod.mk.injEq] at hw
  obtain ⟨h1, h2, h3⟩ := hw
  refine ⟨⟨hi.trans h.pop.inds, h.pop.length, h.pop.nodup, fun r hr => ?_, fun r hr => ?_⟩, fun r hr => ?_, fun r hr => ?_⟩
  · rw [h3]; exact h.pop.exist r hr
  · rw [h1]; exact h.pop.dirs r (by omega)
  · rw [h2]; exact h.genomes r (by omega)
  · rw [h1]; exact h.objs r hr

theorem _root_.Verif.PyM.Ends.step {σ α β : Type} {x : PyM σ α} {f : α → PyM σ β} {Q : β → σ → Prop} {R : σ → Prop} {t t' : σ} {a : α}
    (h : x t = (.ok a, t')) (hf : Ends (f a) Q R t') : Ends (x >>= f) Q R t := by
  unfold Ends
  rw [bind_of_ok h]
  exact hf

theorem _root_.Verif.PyM.bind_congr_left {σ α β : Type} {x x' : PyM σ α} {f : α → PyM σ β} {t t' : σ} (h : x t = x' t') :
    (x >>= f) t = (x' >>= f) t' := by
  show PyM.bind _ _ _ = PyM.bind _ _ _
  unfold PyM.bind
  rw [h]

/-- What the evaluator does to a population of individuals `l`. -/
theorem mevaluate_eq (c : MCfg G) {l : List Nat} (hi : s.inds = some l) :
    mevaluate c s = (mworld (evaluateM c.sub (c.sched s.genNum l.length) l) >>= fun r => do
      mpublish "population_evaluator" "after_operator"
      PyM.pure r) (mpublish "population_evaluator" "before_operator" s).2 := by
  unfold mevaluate mact
  refine (bind_of_ok (show mpublish _ _ s = (.ok (), _) from rfl)).trans ?_
  have hind : individuals (mpublish "population_evaluator" "before_operator" s).2 =
      (.ok l, (mpublish "population_evaluator" "before_operator" s).2) := by
    unfold individuals
    rw [bind_of_ok (show PyM.get _ = (.ok _, _) from rfl)]
    have : (mpublish "population_evaluator" "before_operator" s).2.inds = some l := hi
    rw [this]
    rfl
  have : mevaluateBody c (mpublish "population_evaluator" "before_operator" s).2 =
      mworld (evaluateM c.sub (c.sched s.genNum l.length) l) (mpublish "population_evaluator" "before_operator" s).2 := by
    unfold mevaluateBody
    rw [bind_of_ok hind, bind_of_ok (show PyM.get _ = (.ok _, _) from rfl)]
    rfl
  exact bind_congr_left this

/-- The evaluation of a population waiting for it stores all objectives, as it would if the evaluator raised nothing, or none. -/
theorem mevaluate_ends {k : Nat} {l : List Nat} (hw : Waiting P k m ds s l) {Q : Nat → MRun G → Prop}
    (ht : wp (mevaluate (c.tame P n m)) Q s) : Ends (mevaluate c) Q (fun s' => Waiting P k m ds s' l) s := by
  have hmap := executorMap_until (B := fun _ => True) (order := c.sched s.genNum l.length)
    (fun r => show Until (fun _ => True) (runEvalM c.sub r) (runEvalM (c.tame P n m).sub r) from
      (Until.refl _).bind fun w => (tameMEval_until (c := c) (P := P) (m := m) (fun _ _ => trivial) _).zoom) l s.w
  cases hx : executorMap (c.sched s.genNum l.length) (runEvalM c.sub) l s.w with
  | mk r w =>
    have hk := Keeps.executorMap (φ := matter) (c.sched s.genNum l.length) (matter_runEval c.sub) l s.w
    rw [hx] at hk hmap
    cases r with
    | error e =>
      refine .inr ⟨e, { (mpublish "population_evaluator" "before_operator" s).2 with w := w }, ?_, ?_⟩
      · rw [mevaluate_eq c hw.pop.inds]
        refine bind_of_error ?_
        have : evaluateM c.sub (c.sched s.genNum l.length) l s.w = (.error e, w) := bind_of_error hx
        show (zoom _ _ _) _ = _
        unfold zoom
        have h2 : (mpublish "population_evaluator" "before_operator" s).2.w = s.w := rfl
        simp only [h2, this]
      · exact hw.of_matter hk rfl
    | ok vs =>
      left
      have hxt : executorMap (c.sched s.genNum l.length) (runEvalM (c.tame P n m).sub) l s.w = (.ok vs, w) := by
        rcases hmap with h | ⟨e, w', -, h⟩
        · exact h.symm
        · cases h
      have : mevaluate c s = mevaluate (c.tame P n m) s := by
        rw [mevaluate_eq c hw.pop.inds, mevaluate_eq (c.tame P n m) hw.pop.inds]
        have h1 : evaluateM c.sub (c.sched s.genNum l.length) l s.w =
            evaluateM (c.tame P n m).sub (c.sched s.genNum l.length) l s.w := by
          unfold evaluateM
          rw [bind_of_ok hx, bind_of_ok hxt]
        have h2 : (mpublish "population_evaluator" "before_operator" s).2.w = s.w := rfl
        have h3 : mworld (evaluateM c.sub (c.sched s.genNum l.length) l) (mpublish "population_evaluator" "before_operator" s).2 =
            mworld (evaluateM (c.tame P n m).sub ((c.tame P n m).sched s.genNum l.length) l) (mpublish "population_evaluator" "before_operator" s).2 := by
          show (zoom _ _ _) _ = (zoom _ _ _) _
          unfold zoom
          simp only [h2, h1]
          rfl
        exact bind_congr_left h3
      obtain ⟨b, s', h1, h2⟩ := ht
      exact ⟨b, s', this.trans h1, h2⟩

/-! ## What an interrupted run leaves behind -/

/-- A population waiting for its evaluation, of the normal size or of twice that, or an evaluated one. -/
def Interrupted (P : G → Prop) (n m : Nat) (ds : List Bool) (s : MRun G) : Prop :=
  (∃ k l, (k = n ∨ k = 2 * n) ∧ Waiting P k m ds s l) ∨ MLiving P n m ds s

/-- Breeding, as in `mgeneration_wp`. -/
theorem mbreed_wp (hc : c.Sound P n m ds) (hl : MLiving P n m ds s) : wp (mbreed c) (fun _ s' => ∃ l' b,
    Waiting P (2 * n) m ds s' l' ∧ s'.bestOfRun = some b ∧ b < s'.w.next ∧ (b ∈ l' ∨ (s'.w.fits b).objs ≠ none)) s := by
  obtain ⟨l, hp, hev⟩ := hl.pop
  obtain ⟨b, hb, hbx, hbo⟩ := hl.best
  unfold mbreed
  refine wp_mact ?_
  unfold mbreedBody
  rw [wp_bind]
  refine (wp_individuals (is := l) (by exact hp.inds)).2 ?_
  rw [wp_bind, wp_mworld, if_pos hc.breeder]
  have hlen := hp.length
  refine (nsga2Breed_wp (P := P) (m := m) (ds := ds) hc.ops hc.sels hc.operate (by rw [hlen]; exact hc.arities)
    (by rw [hlen]; exact hc.select) hp.exist hp.nodup hp.dirs hl.genomes (fun r hr => ?_)).mono ?_
  · obtain ⟨v, hv⟩ := hev r hr
    rw [hv.objs]; simp
  · rintro l' w ⟨⟨a1, a2, a3, a4⟩, a5, a6, a7, a8, a9⟩
    rw [wp_modify]
    refine ⟨l', b, ⟨⟨rfl, by rw [a1, hlen], a2, a3, a4⟩, a5, a6⟩, hb, lt_of_lt_of_le hbx a8, ?_⟩
    by_cases h : b ∈ l
    · exact .inl (a7 b h)
    · refine .inr ?_
      dsimp only
      rw [a9 b hbx h]
      exact hbo

theorem mgeneration_ends (hc : (c.tame P n m).Sound P n m ds) (hl : MLiving P n m ds s) :
    Ends (mgeneration c) (fun _ s' => MLiving P n m ds s') (Interrupted P n m ds) s := by
  obtain ⟨_, s₁, hb, l', b, hw, -⟩ := mbreed_wp hc hl
  have hgen := mgeneration_wp hc hl
  unfold mgeneration at hgen ⊢
  rw [mbreed_tame] at hb hgen
  rw [wp_bind] at hgen
  obtain ⟨_, s₁', hb', hgen⟩ := hgen
  rw [hb] at hb'
  cases hb'
  refine Ends.step hb ?_
  rw [wp_bind] at hgen
  rcases mevaluate_ends hw hgen with ⟨a, s₂, h1, h2⟩ | ⟨e, s₂, h1, h2⟩
  · exact Ends.bind (.inl ⟨_, _, h1, h2⟩) fun a s' h => wp.ends h
  · exact .inr ⟨e, s₂, bind_of_error h1, .inl ⟨_, _, .inr rfl, h2⟩⟩

theorem mstop_ends (hl : MLiving P n m ds s) {g : Nat} : Ends (mstop c g) (fun _ s' => s' = s) (Interrupted P n m ds) s := by
  unfold mstop
  cases h : c.checker s.w.fits (s.inds.getD []) s.bestOfRun g with
  | ok b => exact .inl ⟨b, s, (bind_of_ok (show PyM.get s = (.ok s, s) from rfl)).trans (by rw [h]; rfl), rfl⟩
  | error e => exact .inr ⟨e, s, (bind_of_ok (show PyM.get s = (.ok s, s) from rfl)).trans (by rw [h]; rfl), .inr hl⟩

theorem mloop_stops (hc : (c.tame P n m).Sound P n m ds) (N g : Nat) (hl : MLiving P n m ds s) :
    Ends (mloop c N g) (fun _ s' => MLiving P n m ds s') (Interrupted P n m ds) s := by
  induction N generalizing s g with
  | zero => unfold mloop; exact .inl ⟨_, _, rfl, hl⟩
  | succ N ih =>
    unfold mloop
    obtain ⟨l, hp, -⟩ := hl.pop
    refine Ends.step (show PyM.modify _ s = (.ok (), { s with genNum := g }) from rfl) ?_
    obtain ⟨_, _, h0, rfl⟩ := (wp_individuals (Q := fun _ s' => s' = { s with genNum := g }) (is := l) (by exact hp.inds)).2 rfl
    refine Ends.step h0 ?_
    refine Ends.step (show PyM.get _ = (.ok _, _) from rfl) ?_
    refine Ends.step (show msetSeed _ _ _ = (.ok (), _) from rfl) ?_
    refine Ends.step (show PyM.modify _ _ = (.ok (), _) from rfl) ?_
    refine Ends.bind (mgeneration_ends hc (hl.same rfl rfl rfl rfl rfl)) fun _ s₃ h₃ => ?_
    refine Ends.bind (mstop_ends h₃) ?_
    rintro stop _ rfl
    cases stop with
    | true => exact .inl ⟨_, _, rfl, h₃.same rfl rfl rfl rfl rfl⟩
    | false => exact Ends.step (show mpublish _ _ _ = (.ok (), _) from rfl) (ih _ (h₃.same rfl rfl rfl rfl rfl))

theorem mfinish_wp (h : MLiving P n m ds s) : wp (mfinish (G := G)) (fun _ s' => MLiving P n m ds s') s := by
  unfold mfinish
  rw [wp_bind, wp_get]
  obtain ⟨b, b1, b2, b3⟩ := h.best
  rw [b1]
  dsimp only
  obtain ⟨v, hv⟩ := Option.ne_none_iff_exists'.1 b3
  rw [wp_bind, wp_ofExcept]
  exact ⟨v, by unfold Fit.pure; rw [hv], wp_pure.2 h⟩

/-- Everything after the initialisation. -/
theorem mrest_ends (hc : (c.tame P n m).Sound P n m ds) (hl : MLiving P n m ds s) :
    Ends (mafterInit c >>= fun _ => do
      mpublish "algorithm" "evolution_finished"
      mfinish) (fun _ s' => MLiving P n m ds s') (Interrupted P n m ds) s := by
  refine Ends.bind (Q := fun _ s' => MLiving P n m ds s') ?_ fun _ s₁ h₁ => ?_
  · unfold mafterInit
    refine Ends.step (show PyM.get s = (.ok s, s) from rfl) ?_
    refine Ends.bind (mstop_ends hl) ?_
    rintro stop _ rfl
    cases stop with
    | true => exact .inl ⟨_, _, rfl, hl.same rfl rfl rfl rfl rfl⟩
    | false => exact mloop_stops hc _ _ hl
  · refine Ends.step (show mpublish _ _ _ = (.ok (), _) from rfl) ?_
    exact wp.ends (mfinish_wp (h₁.same rfl rfl rfl rfl rfl))

/-- The initialisation once the population is there. -/
theorem minit_ends (hc : (c.tame P n m).Sound P n m ds) {l : List Nat} (hw : Waiting P n m ds s l) :
    Ends (do
      let b ← mevaluate c
      modify fun s => { s with bestOfRun := some b }
      mpublish "algorithm" "init") (fun _ s' => MLiving P n m ds s') (Interrupted P n m ds) s := by
  rcases mevaluate_ends hw (mevaluate_wp hc hc.size hw) with ⟨b, s₁, h1, hb, hp, hg, hIs, -⟩ | ⟨e, s₁, h1, h2⟩
  · refine Ends.step h1 (.inl ⟨_, _, rfl, ⟨⟨l, ⟨hp.inds, hp.length, hp.nodup, hp.exist, hp.dirs⟩, hIs⟩, hg, b, rfl, hp.exist b hb, ?_⟩⟩)
    obtain ⟨v, hv⟩ := hIs b hb
    dsimp only
    rw [hv.objs]
    simp
  · exact .inr ⟨e, s₁, bind_of_error h1, .inl ⟨_, _, .inl rfl, h2⟩⟩

/-- A run ends, or what is left is an interrupted run. -/
theorem mevolve_stops (hc : (c.tame P n m).Sound P n m ds) (hf : s.Fresh m ds) (hp : AllHave P s.w) :
    Ends (mevolve c) (fun _ s' => MLiving P n m ds s') (Interrupted P n m ds) s := by
  unfold mevolve
  refine Ends.bind (Q := fun _ s' => MLiving P n m ds s') ?_ fun _ s₁ h₁ => mrest_ends hc h₁
  unfold minit
  refine Ends.step (show PyM.get s = (.ok s, s) from rfl) ?_
  refine Ends.step (show msetSeed _ _ _ = (.ok (), _) from rfl) ?_
  have hcr : wp (mcreate c) (fun _ s' => ∃ l, Waiting P n m ds s' l) { s with w := { s.w with tape := c.stream s.randomSeed } } := by
    unfold mcreate
    rw [wp_bind, wp_get]
    dsimp only
    rw [hf.inds]
    dsimp only
    rw [wp_bind, wp_mworld]
    refine ((hc.create { s.w with tape := c.stream s.randomSeed } hf.dirs hp).and
      (hc.creates { s.w with tape := c.stream s.randomSeed } hf.dirs)).mono ?_
    rintro l w ⟨⟨h5, h6⟩, h1, h2, h3, h4⟩
    rw [wp_modify]
    exact ⟨l, ⟨rfl, h1, h2, h3, h4⟩, h5, h6⟩
  obtain ⟨_, s₁, h1, l, hw⟩ := hcr
  exact Ends.step h1 (minit_ends hc hw)

/-! ## Starting again -/

/-- A run of `evolve` on a population that is there and waits for its evaluation. -/
theorem mevolve_waiting (hc : c.Sound P n m ds) {l : List Nat} (hw : Waiting P n m ds s l) :
    wp (mevolve c) (fun _ s' => MLiving P n m ds s') s := by
  unfold mevolve
  rw [wp_bind]
  have hinit : wp (minit c) (fun _ s' => MLiving P n m ds s') s := by
    unfold minit
    rw [wp_bind, wp_get, wp_bind]
    unfold msetSeed
    rw [wp_modify, wp_bind]
    have hcr : mcreate c { s with w := { s.w with tape := c.stream s.randomSeed } } =
        (.ok (), { s with w := { s.w with tape := c.stream s.randomSeed } }) := by
      unfold mcreate
      rw [bind_of_ok (show PyM.get _ = (.ok _, _) from rfl)]
      dsimp only
      rw [hw.pop.inds]
      rfl
    refine ⟨_, _, hcr, wp_bind.2 ?_⟩
    refine (mevaluate_wp hc (k := n) (l := l) hc.size (hw.of_matter (s' := { s with w := { s.w with tape := c.stream s.randomSeed } })
      rfl rfl)).mono ?_
    rintro b s₁ ⟨hb, hp, hg, hIs, -, -, -⟩
    rw [wp_bind, wp_modify, wp_mpublish]
    refine ⟨⟨l, ⟨hp.inds, hp.length, hp.nodup, hp.exist, hp.dirs⟩, hIs⟩, hg, b, rfl, hp.exist b hb, ?_⟩
    obtain ⟨v, hv⟩ := hIs b hb
    dsimp only
    rw [hv.objs]
    simp
  refine hinit.mono fun _ s₁ h₁ => ?_
  rw [wp_bind]
  have hafter : wp (mafterInit c) (fun _ s' => MLiving P n m ds s') s₁ := by
    unfold mafterInit
    rw [wp_bind, wp_get, wp_bind]
    refine (mstop_wp hc h₁).mono ?_
    rintro stop _ rfl
    rw [wp_ite]
    refine ⟨fun _ => ?_, fun _ => mloop_wp hc _ _ h₁⟩
    rw [wp_bind, wp_modify, wp_mpublish]
    exact h₁.same rfl rfl rfl rfl rfl
  refine hafter.mono fun _ s₂ h₂ => ?_
  rw [wp_bind, wp_mpublish]
  exact mfinish_wp (h₂.same rfl rfl rfl rfl rfl)

/-- The same configuration with another creator. -/
def MCfg.createBy (c : MCfg G) (create : MM G (List Nat)) : MCfg G := { c with sub := { c.sub with create := create } }

theorem mloop_createBy (create : MM G (List Nat)) (N g : Nat) : mloop (c.createBy create) N g = mloop c N g := by
  induction N generalizing g with
  | zero => rfl
  | succ N ih =>
    unfold mloop
    simp only [ih]
    rfl

/-- With the population there, the creator is not asked. -/
theorem mevolve_createBy (create : MM G (List Nat)) {l : List Nat} (hi : s.inds = some l) :
    mevolve (c.createBy create) s = mevolve c s := by
  have hcr : ∀ (c : MCfg G) (t : Tape), mcreate c { s with w := { s.w with tape := t } } =
      (.ok (), { s with w := { s.w with tape := t } }) := by
    intro c t
    unfold mcreate
    rw [bind_of_ok (show PyM.get _ = (.ok _, _) from rfl)]
    dsimp only
    rw [hi]
    rfl
  have hinit : minit (c.createBy create) s = minit c s := by
    unfold minit
    rw [bind_of_ok (show PyM.get s = (.ok s, s) from rfl), bind_of_ok (show PyM.get s = (.ok s, s) from rfl),
      bind_of_ok (show msetSeed (c.createBy create) s.randomSeed s = (.ok (), _) from rfl),
      bind_of_ok (show msetSeed c s.randomSeed s = (.ok (), _) from rfl)]
    rw [bind_of_ok (hcr _ _), bind_of_ok (hcr _ _)]
    rfl
  have hafter : mafterInit (c.createBy create) = mafterInit c := by
    unfold mafterInit
    rw [mloop_createBy]
    rfl
  unfold mevolve
  rw [hafter]
  exact bind_congr_left hinit

/-- The evaluator and the checker raise nothing any more: the evaluator on genomes satisfying `P`, the checker on populations
of `n` or `2 * n` individuals. -/
structure MCfg.Mended (P : G → Prop) (n m : Nat) (c : MCfg G) : Prop where
  evaluate : ∀ g, P g → Total (c.sub.evaluate g)
  calm : ∀ k, k = n ∨ k = 2 * n → ∀ h l b g, MConsulted k m h l b → ∃ v, c.checker h l b g = .ok v

theorem MLiving.completed (hd : ds.length = m) (h : MLiving P n m ds s) : MCompleted P n m s := by
  obtain ⟨l, hp, hev⟩ := h.pop
  obtain ⟨b, b1, b2, b3⟩ := h.best
  obtain ⟨v, hv⟩ := Option.ne_none_iff_exists'.1 b3
  refine ⟨l, b, v, hp.inds, hp.length, hp.nodup, fun r hr => ⟨h.genomes r (hp.exist r hr), ?_⟩, b1, hv⟩
  obtain ⟨u, hu⟩ := hev r hr
  exact ⟨u, hu.objs, by rw [hu.length, hd]⟩

/-- The population is there and its genomes satisfy `P`.  Either there are `n` or `2 * n` individuals without objectives, and
`evolve` of the configuration `c` completes with as many; or there are `n` individuals with objectives, and it raises
`AttributeError`. -/
def Resumes (P : G → Prop) (n m : Nat) (c : MCfg G) (s : MRun G) : Prop :=
  ∃ is, s.inds = some is ∧ is.Nodup ∧ (∀ r ∈ is, P (s.w.genome r)) ∧
    (((is.length = n ∨ is.length = 2 * n) ∧ (∀ r ∈ is, (s.w.fits r).objs = none) ∧
        ∃ s', mevolve c s = (.ok (), s') ∧ MCompleted P is.length m s') ∨
      (is.length = n ∧ (∀ r ∈ is, (s.w.fits r).objs ≠ none) ∧ (mevolve c s).1 = .error .attributeError))

theorem Interrupted.resumes {Creator : MM G (List Nat) → Prop} {Ops : MOp G → Prop} (hi : Interrupted P n m ds s)
    (h : c.Composed Creator Ops n m ds) (hm : c.Mended P n m)
    (hg : ∀ o, Ops o → o.Good) (hw : ∀ o, Ops o → o.arity ≠ 0 → o.WorksOn P) {fit : Fit} (hfit : FitForM m ds fit) :
    Resumes P n m c s := by
  rcases hi with ⟨k, l, hk, hwait⟩ | hl
  · refine ⟨l, hwait.pop.inds, hwait.pop.nodup, fun r hr => hwait.genomes r (hwait.pop.exist r hr), .inl ⟨?_, hwait.objs, ?_⟩⟩
    · rw [hwait.pop.length]; exact hk
    have hn := h.size
    have hle : n ∣ k := by rcases hk with rfl | rfl <;> simp
    have hk0 : 0 < k := by rcases hk with rfl | rfl <;> omega
    obtain ⟨r, hr⟩ : ∃ r, r ∈ l := by
      have := hwait.pop.length
      cases l with
      | nil => simp at this; omega
      | cons r _ => exact ⟨r, by simp⟩
    have hP := hwait.genomes r (hwait.pop.exist r hr)
    have hcr := createM_creates (P := P) (s.w.genome r) (genome := PyM.pure (s.w.genome r)) (Ensures.pure hP) fit k
    have hass : (c.createBy (createM (s.w.genome r) (PyM.pure (s.w.genome r)) fit k)).Assembled P
        (fun create => CreatesM P fit k create) Ops k m ds :=
      { breeder := h.breeder, size := hk0, directions := h.directions, creator := hcr, ops := h.ops
        arities := fun o ho => ⟨(h.arities o ho).1, (h.arities o ho).2.trans hle⟩
        sels := by
          obtain ⟨a, j, rep, h1, h2⟩ := h.sels
          exact ⟨a, j, rep, h1, h2.imp_right fun h2 => h2.trans (Nat.le_of_dvd hk0 hle)⟩
        evaluates := h.evaluates, evaluate := hm.evaluate, order := h.order, sched := h.sched, calm := hm.calm k hk }
    have hsound := hass.sound (fun create hc => ⟨fit, hfit, hc⟩) hg hw
    obtain ⟨_, s', h1, h2⟩ := mevolve_waiting hsound hwait
    rw [mevolve_createBy _ hwait.pop.inds] at h1
    refine ⟨s', h1, ?_⟩
    rw [hwait.pop.length]
    exact h2.completed h.directions
  · obtain ⟨l, hp, hev⟩ := hl.pop
    have hne : ∀ r ∈ l, (s.w.fits r).objs ≠ none := fun r hr => by
      obtain ⟨v, hv⟩ := hev r hr
      rw [hv.objs]; simp
    refine ⟨l, hp.inds, hp.nodup, fun r hr => hl.genomes r (hp.exist r hr), .inr ⟨hp.length, hne, ?_⟩⟩
    have hn := h.size
    have := hp.length
    cases l with
    | nil => simp at this; omega
    | cons r rest =>
      obtain ⟨t, e, he⟩ := mevolve_evaluated hp.inds h.sched
        (fun x hx => hm.evaluate _ (hl.genomes x (hp.exist x hx))) (hne r (by simp))
      rw [he]

/-- `evolve` of `c` completes, or raises and leaves a state from which `Resumes` says what `evolve` of `c'` does. -/
def CompletesOrResumes (P : G → Prop) (n m : Nat) (c c' : MCfg G) (s : MRun G) : Prop :=
  (∃ s', mevolve c s = (.ok (), s') ∧ MCompleted P n m s') ∨ ∃ e s', mevolve c s = (.error e, s') ∧ Resumes P n m c' s'

/-- **C161** as one would expect it: whatever interrupts a run, once the evaluator and the checker raise nothing any more,
`evolve` can be called again and completes with `n` individuals. -/
def C161_statement : Prop :=
  ∀ (kind : GA.Kind) (bounds : GA.Bounds) (length n m : Nat) (ds : List Bool) (c c' : MCfg GA.Vec) (s s' : MRun GA.Vec) (e : Err),
    bounds.Proper kind length →
    c.Composed (VecCreator kind bounds length n m ds) (VecOp kind length) n m ds →
    c'.Composed (VecCreator kind bounds length n m ds) (VecOp kind length) n m ds →
    c'.Mended (GA.Legal kind bounds length) n m →
    s.Fresh m ds → AllHave (GA.Legal kind bounds length) s.w → mevolve c s = (.error e, s') →
    ∃ s'', mevolve c' s' = (.ok (), s'') ∧ MCompleted (GA.Legal kind bounds length) n m s''

/-- **C161**, vectors. -/
theorem C161_vectors_partial {kind : GA.Kind} {bounds : GA.Bounds} {length : Nat} (hb : bounds.Proper kind length) {c c' : MCfg GA.Vec}
    (h : c.Composed (VecCreator kind bounds length n m ds) (VecOp kind length) n m ds)
    (h' : c'.Composed (VecCreator kind bounds length n m ds) (VecOp kind length) n m ds)
    (hm : c'.Mended (GA.Legal kind bounds length) n m)
    {s : MRun GA.Vec} (hf : s.Fresh m ds) (hp : AllHave (GA.Legal kind bounds length) s.w) :
    CompletesOrResumes (GA.Legal kind bounds length) n m c c' s := by
  have hs := (h.tame (P := GA.Legal kind bounds length) fun _ h => h).sound (fun _ h => h.creates hb) (fun _ h => h.good)
    (fun _ h _ => h.worksOn hb)
  obtain ⟨fit, hfit, -⟩ := VecCreator.creates hb h.creator
  rcases mevolve_stops hs hf hp with ⟨_, s', h1, h2⟩ | ⟨e, s', h1, h2⟩
  · exact .inl ⟨s', h1, h2.completed h.directions⟩
  · exact .inr ⟨e, s', h1, h2.resumes h' hm (fun _ h => h.good) (fun _ h _ => h.worksOn hb) hfit⟩

/-- **C161**, programs. -/
theorem C161_programs_partial {cfg : GP.Cfg} (hcfg : cfg.Plain) {c c' : MCfg GP.Ind}
    (h : c.Composed (TreeCreator cfg n m ds) TreeOp n m ds) (h' : c'.Composed (TreeCreator cfg n m ds) TreeOp n m ds)
    (hm : c'.Mended (GP.PlainLegal cfg) n m)
    {s : MRun GP.Ind} (hf : s.Fresh m ds) (hp : AllHave (GP.PlainLegal cfg) s.w) :
    CompletesOrResumes (GP.PlainLegal cfg) n m c c' s := by
  have hs := (h.tame (P := GP.PlainLegal cfg) fun _ h => h).sound (fun _ h => h.creates hcfg) (fun _ h => h.good)
    (fun _ h ha => h.worksOn hcfg ha)
  obtain ⟨fit, hfit, -⟩ := TreeCreator.creates hcfg h.creator
  rcases mevolve_stops hs hf hp with ⟨_, s', h1, h2⟩ | ⟨e, s', h1, h2⟩
  · exact .inl ⟨s', h1, h2.completed h.directions⟩
  · exact .inr ⟨e, s', h1, h2.resumes h' hm (fun _ h => h.good) (fun _ h ha => h.worksOn hcfg ha) hfit⟩

/-! A run interrupted in its first generation, when there are eight individuals instead of four. -/

theorem exVector_composed : exVector.Composed (VecCreator .float (.tup [0, 1]) 3 4 2 [false, true]) (VecOp .float 3) 4 2 [false, true] where
  breeder := rfl
  size := by decide
  directions := rfl
  creator := exVector_assembled.creator
  ops := exVector_assembled.ops
  arities := exVector_assembled.arities
  sels := exVector_assembled.sels
  evaluates := exVector_assembled.evaluates
  order := exVector_assembled.order
  sched := exVector_assembled.sched

theorem exVector_mended : exVector.Mended (GA.Legal .float (.tup [0, 1]) 3) 4 2 where
  evaluate := exVector_assembled.evaluate
  calm := fun _ _ _ _ _ _ _ => ⟨false, rfl⟩

/-- The hypotheses of `C161_vectors_partial` are met. -/
example : CompletesOrResumes (GA.Legal .float (.tup [0, 1]) 3) 4 2 exMBlame exVector exVectorRun :=
  C161_vectors_partial GA.exLib_proper exMBlame_composed exVector_composed exVector_mended (s := exVectorRun)
    ⟨rfl, fun r hr => absurd hr (Nat.not_lt_zero r), rfl, rfl⟩ (fun r hr => absurd hr (Nat.not_lt_zero r))

theorem exMBlame_stops : (mevolve exMBlame exVectorRun).1 = .error (.user 7) := by decide +kernel

/-- The run started again ends with eight individuals. -/
theorem exMBlame_doubles : (mevolve exVector (mevolve exMBlame exVectorRun).2).1 = .ok () ∧
    (mevolve exVector (mevolve exMBlame exVectorRun).2).2.inds.map List.length = some 8 := by decide +kernel

/-- C161 is false: the population of the run that is started again has twice the size. -/
theorem C161_refuted : ¬ C161_statement := by
  intro h
  obtain ⟨s'', h1, is, b, v, h2, h3, -⟩ := h .float (.tup [0, 1]) 3 4 2 [false, true] exMBlame exVector exVectorRun _ (.user 7) GA.exLib_proper
    exMBlame_composed exVector_composed exVector_mended ⟨rfl, fun r hr => absurd hr (Nat.not_lt_zero r), rfl, rfl⟩
    (fun r hr => absurd hr (Nat.not_lt_zero r)) (raised exMBlame_stops)
  have h4 := exMBlame_doubles.2
  rw [h1] at h4
  change s''.inds.map List.length = some 8 at h4
  rw [h2] at h4
  simp only [Option.map_some, Option.some.injEq] at h4
  omega

/-- An exception of the checker. -/
def exMStopped : MCfg GA.Vec := { exVector with checker := fun _ _ _ g => if g = 1 then .error (.user 1) else .ok false }

theorem exMStopped_stops : (mevolve exMStopped exVectorRun).1 = .error (.user 1) := by decide +kernel

/-- After an exception of the checker the run cannot be started again. -/
theorem C161_checker_refuted : ¬ C161_statement := by
  intro h
  obtain ⟨s'', h1, -⟩ := h .float (.tup [0, 1]) 3 4 2 [false, true] exMStopped exVector exVectorRun _ (.user 1) GA.exLib_proper
    { exVector_composed with } exVector_composed exVector_mended ⟨rfl, fun r hr => absurd hr (Nat.not_lt_zero r), rfl, rfl⟩
    (fun r hr => absurd hr (Nat.not_lt_zero r)) (raised exMStopped_stops)
  have h2 : (mevolve exVector (mevolve exMStopped exVectorRun).2).1 = .error .attributeError := by decide +kernel
  rw [h1] at h2
  cases h2

/-- The same for programs. -/
example : CompletesOrResumes (GP.PlainLegal GP.Sample.cfg) 4 2 exMProgBlame exProg exProgRun :=
  C161_programs_partial GP.exPlain exMProgBlame_composed
    { breeder := rfl, size := by decide, directions := rfl, creator := exProg_assembled.creator, ops := exProg_assembled.ops
      arities := exProg_assembled.arities, sels := exProg_assembled.sels, evaluates := exProg_assembled.evaluates
      order := exProg_assembled.order, sched := exProg_assembled.sched }
    { evaluate := exProg_assembled.evaluate, calm := fun _ _ _ _ _ _ _ => ⟨false, rfl⟩ } (s := exProgRun)
    ⟨rfl, fun r hr => absurd hr (Nat.not_lt_zero r), rfl, rfl⟩ (fun r hr => absurd hr (Nat.not_lt_zero r))

/-- This run is interrupted in its initialisation: the one started again completes with four individuals. -/
example : (mevolve exMProgBlame exProgRun).1 = .error .zeroDivisionError ∧
    (mevolve exProg (mevolve exMProgBlame exProgRun).2).1 = .ok () ∧
    (mevolve exProg (mevolve exMProgBlame exProgRun).2).2.inds.map List.length = some 4 := by decide +kernel

end Verif.Moo
