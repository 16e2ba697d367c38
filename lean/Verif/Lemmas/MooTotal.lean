import Verif.Spec.MooTotal
import Verif.Lemmas.Total

/-! # NSGA-II runs of sound configurations do not raise -/

namespace Verif.Moo
open PyM
variable {G : Type} {P : G → Prop} {n m : Nat} {ds : List Bool} {s s' : MWorld G}

theorem wp_mrand {α : Type} {x : Rand α} {Q : α → MWorld G → Prop} :
    wp (mrand x) Q s ↔ wp x (fun a t => Q a { s with tape := t }) s.tape := wp_zoom

theorem wp_resetFit {r : Nat} {Q : Unit → MWorld G → Prop} :
    wp (resetFit r) Q s ↔ Q () { s with fits := fun x => if x = r then (s.fits r).reset else s.fits x } := by
  unfold resetFit setFit
  rw [wp_bind, wp_get, wp_modify]

theorem resets_wp {refs : List Nat} (hd : AllDir m ds s) :
    wp (forL resetFit refs) (fun _ s' => s'.next = s.next ∧ s'.genome = s.genome ∧ AllDir m ds s' ∧
      (∀ r ∈ refs, (s'.fits r).objs = none) ∧ ∀ r, r ∉ refs → s'.fits r = s.fits r) s := by
  suffices wp (forL resetFit refs) (fun _ _ => True) s from (this.and (resets_wlp hd)).mono fun _ _ h => h.2
  refine wp_forL (I := fun _ _ => True) trivial fun _ _ _ _ _ _ => ?_
  rw [wp_resetFit]
  trivial

theorem cloneM_total (r : Nat) : wp (cloneM r) (fun _ _ => True) s := by
  unfold cloneM
  rw [wp_bind, wp_get, wp_bind, wp_set]
  exact wp_pure.2 trivial

theorem clones_have {refs : List Nat} (hx : Exist s refs) (hp : AllHave P s) :
    wlp (mapL cloneM refs) (fun _ s' => s.next ≤ s'.next ∧ AllHave P s') s := by
  refine wlp_mapL (I := fun _ _ s' => s.next ≤ s'.next ∧ AllHave P s') ⟨le_refl _, hp⟩ ?_
  rintro pre x post l s₁ hsplit ⟨h1, h2⟩
  have hxs : x < s₁.next := lt_of_lt_of_le (hx x (by rw [hsplit]; simp)) h1
  refine cloneM_wlp fun s₂ e1 e2 e3 e4 e5 _ => ⟨by omega, fun r hr => ?_⟩
  by_cases he : r = s₁.next
  · rw [he, e5]; exact h2 x hxs
  · rw [e4 r he]; exact h2 r (by omega)

theorem clones_wp {refs : List Nat} (hx : Exist s refs) (hd : AllDir m ds s) (hp : AllHave P s) :
    wp (mapL cloneM refs) (fun l s' => (l.length = refs.length ∧ l.Nodup ∧ s.next ≤ s'.next ∧ AllDir m ds s' ∧
      (∀ r ∈ l, s.next ≤ r ∧ r < s'.next) ∧ ∀ r < s.next, s'.fits r = s.fits r ∧ s'.genome r = s.genome r) ∧
      AllHave P s') s := by
  suffices wp (mapL cloneM refs) (fun _ _ => True) s from
    (this.and ((clones_wlp hx hd).and (clones_have hx hp))).mono fun _ _ h => ⟨h.2.1, h.2.2.2⟩
  refine (wp_mapL (I := fun _ _ _ => True) trivial fun _ x _ _ _ _ _ => ?_).mono fun _ _ _ => trivial
  exact cloneM_total x

/-! ## Breeding -/

theorem applyOp_worksOn {o : MOp G} (hg : o.Good) (ho : o.WorksOn P) {refs : List Nat} (hx : Exist s refs)
    (hl : refs.length = o.arity) (hd : AllDir m ds s) (hp : AllHave P s) :
    wp (applyOp o refs) (fun l s' => l = refs ∧ s.next ≤ s'.next ∧ AllDir m ds s' ∧ AllHave P s' ∧
      ∀ r < s.next, r ∉ refs → s'.fits r = s.fits r) s := by
  unfold applyOp
  rw [wp_bind, wp_mrand]
  obtain ⟨u, t, hrun, -⟩ := Rand.random_ensures s.tape
  refine ⟨u, t, hrun, ?_⟩
  dsimp only
  rw [wp_ite]
  refine ⟨fun _ => ?_, fun _ => wp_pure.2 ⟨rfl, le_refl _, hd, hp, fun _ _ _ => rfl⟩⟩
  rw [wp_bind]
  refine (resets_wp (s := { s with tape := t }) (m := m) (ds := ds) hd).mono ?_
  rintro _ s₁ ⟨e1, e2, e3, -, e5⟩
  dsimp only at e1 e2 e5
  rw [wp_bind]
  have hx1 : Exist s₁ refs := fun r hr => by rw [e1]; exact hx r hr
  have hp1 : AllHave P s₁ := fun r hr => by rw [e2]; exact hp r (by omega)
  refine ((ho refs s₁ hx1 hl hp1).and (hg m ds refs s₁ hx1 e3)).mono ?_
  rintro _ s₂ ⟨⟨rfl, h2, h3⟩, g1, g2, -⟩
  refine wp_pure.2 ⟨rfl, by omega, g2, h2, fun r hr hn => ?_⟩
  rw [h3 r (by omega) hn, e5 r hn]

theorem applyChunksM_worksOn {o : MOp G} (hg : o.Good) (ho : o.WorksOn P) {inds : List Nat} (is : List Nat)
    (hi : ∀ i ∈ is, i + o.arity ≤ inds.length) (hx : Exist s inds) (hd : AllDir m ds s) (hp : AllHave P s) :
    wp (applyChunksM o is inds) (fun l s' => l = inds ∧ s.next ≤ s'.next ∧ AllDir m ds s' ∧ AllHave P s' ∧
      ∀ r < s.next, r ∉ inds → s'.fits r = s.fits r) s := by
  induction is generalizing s with
  | nil => unfold applyChunksM; exact wp_pure.2 ⟨rfl, le_refl _, hd, hp, fun _ _ _ => rfl⟩
  | cons i is ih =>
    unfold applyChunksM
    rw [wp_bind]
    obtain ⟨A, C, hsplit, hset⟩ := Evo.slice_split inds i ((i + o.arity : Nat) : Int)
    have hsub : ∀ r ∈ Py.slice inds i ((i + o.arity : Nat) : Int), r ∈ inds := fun r hr => by
      rw [hsplit]; exact List.mem_append_left _ (List.mem_append_right _ hr)
    have hl := Evo.slice_length inds i o.arity (hi i (by simp))
    refine (applyOp_worksOn hg ho (fun r hr => hx r (hsub r hr)) hl hd hp).mono ?_
    rintro _ s₁ ⟨rfl, h1, h2, h3, h4⟩
    rw [hset, ← hsplit]
    refine (ih (fun i h => hi i (by simp [h])) (fun r hr => lt_of_lt_of_le (hx r hr) h1) h2 h3).mono ?_
    rintro l s₂ ⟨k1, k2, k3, k4, k5⟩
    refine ⟨k1, by omega, k3, k4, fun r hr hn => ?_⟩
    rw [k5 r (by omega) hn, h4 r hr fun h => hn (hsub r h)]

theorem applyOps_worksOn (os : List (MOp G)) (hg : ∀ o ∈ os, o.Good) (ho : ∀ o ∈ os, o.WorksOn P) {inds : List Nat}
    (ha : ∀ o ∈ os, o.arity ≠ 0 ∧ o.arity ∣ inds.length) (hx : Exist s inds) (hd : AllDir m ds s) (hp : AllHave P s) :
    wp (applyOps os inds) (fun l s' => l = inds ∧ s.next ≤ s'.next ∧ AllDir m ds s' ∧ AllHave P s' ∧
      ∀ r < s.next, r ∉ inds → s'.fits r = s.fits r) s := by
  induction os generalizing s with
  | nil => unfold applyOps; exact wp_pure.2 ⟨rfl, le_refl _, hd, hp, fun _ _ _ => rfl⟩
  | cons o os ih =>
    unfold applyOps
    obtain ⟨h0, hdv⟩ := ha o (by simp)
    rw [if_neg h0, wp_bind]
    refine (applyChunksM_worksOn (hg o (by simp)) (ho o (by simp)) _ (fun i hi => Evo.rangeStep_bound h0 hdv hi)
      hx hd hp).mono ?_
    rintro _ s₁ ⟨rfl, h1, h2, h3, h4⟩
    refine (ih (fun o h => hg o (by simp [h])) (fun o h => ho o (by simp [h])) (fun o h => ha o (by simp [h]))
      (fun r hr => lt_of_lt_of_le (hx r hr) h1) h2 h3).mono ?_
    rintro l s₂ ⟨k1, k2, k3, k4, k5⟩
    refine ⟨k1, by omega, k3, k4, fun r hr hn => ?_⟩
    rw [k5 r (by omega) hn, h4 r hr hn]

theorem lexKeys_ok {h : Heap} {rs : List Nat} (hev : ∀ r ∈ rs, (h r).objs ≠ none) : ∃ ks, lexKeys h rs = .ok ks := by
  induction rs with
  | nil => exact ⟨[], rfl⟩
  | cons r rs ih =>
    obtain ⟨ks, hks⟩ := ih fun r hr => hev r (by simp [hr])
    obtain ⟨v, hv⟩ := Option.ne_none_iff_exists'.1 (hev r (by simp))
    exact ⟨(r, v) :: ks, by simp [lexKeys, Fit.pure, hv, hks]⟩

theorem eliteStageM_wp {c : MSub G} {inds : List Nat} (hx : Exist s inds) (hd : AllDir m ds s) (hp : AllHave P s)
    (hev : ∀ r ∈ inds, (s.fits r).objs ≠ none) :
    wp (eliteStageM c inds) (fun _ s' => s.next ≤ s'.next ∧ AllDir m ds s' ∧ AllHave P s' ∧
      ∀ r < s.next, s'.fits r = s.fits r) s := by
  unfold eliteStageM
  rw [wp_ite]
  refine ⟨fun _ => ?_, fun _ => wp_pure.2 ⟨le_refl _, hd, hp, fun _ _ => rfl⟩⟩
  unfold elitesM
  rw [wp_bind, wp_get, wp_bind, wp_ofExcept]
  obtain ⟨ks, hks⟩ := lexKeys_ok hev
  refine ⟨ks, hks, ?_⟩
  have hfst := lexKeys_fst hks
  dsimp only
  set sorted := (Py.sortBy (fun a b : Nat × List ℚ => if c.hib then lexLe b.2 a.2 else lexLe a.2 b.2) ks).map Prod.fst
    with hs
  have hperm : sorted.Perm inds := by
    rw [hs, ← hfst]
    exact (Py.sortBy_perm _ _).map _
  obtain ⟨A, C, hsplit, -⟩ := Evo.slice_split sorted 0 c.nElite
  have hsub : ∀ r ∈ Py.slice sorted 0 c.nElite, r ∈ inds := fun r hr =>
    hperm.mem_iff.1 (by rw [hsplit]; simp [hr])
  rw [wp_bind]
  refine (clones_wp (fun r hr => hx r (hsub r hr)) hd hp).mono ?_
  rintro l s₁ ⟨⟨-, -, h3, h4, -, h6⟩, h7⟩
  exact wp_pure.2 ⟨h3, h4, h7, fun r hr => (h6 r hr).1⟩

/-- Breeding an evaluated population: the doubled population is unevaluated, contains the old individuals, and the
fitness of other existing individuals is as before. -/
theorem nsga2Breed_wp {c : MSub G} (hg : ∀ o ∈ c.ops, o.Good) (hs : ∀ x ∈ c.sels, x.Good) (ho : ∀ o ∈ c.ops, o.WorksOn P)
    {inds : List Nat} (ha : ∀ o ∈ c.ops, o.arity ≠ 0 ∧ o.arity ∣ inds.length)
    (hsel : ∃ sel rest, c.sels = sel :: rest ∧ sel.WorksOn P inds.length)
    (hx : Exist s inds) (hn : inds.Nodup) (hd : AllDir m ds s) (hp : AllHave P s)
    (hev : ∀ r ∈ inds, (s.fits r).objs ≠ none) :
    wp (nsga2Breed c inds) (fun l s' => (l.length = 2 * inds.length ∧ l.Nodup ∧ Exist s' l ∧ AllDir m ds s') ∧
      AllHave P s' ∧ (∀ r ∈ l, (s'.fits r).objs = none) ∧ (∀ r ∈ inds, r ∈ l) ∧ s.next ≤ s'.next ∧
      ∀ r < s.next, r ∉ inds → s'.fits r = s.fits r) s := by
  suffices wp (nsga2Breed c inds) (fun l s' => AllHave P s' ∧ (∀ r ∈ l, (s'.fits r).objs = none) ∧ (∀ r ∈ inds, r ∈ l) ∧
      s.next ≤ s'.next ∧ ∀ r < s.next, r ∉ inds → s'.fits r = s.fits r) s from
    (this.and (nsga2Breed_wlp hg hs hx hn hd)).mono fun _ _ h => ⟨h.2, h.1⟩
  unfold nsga2Breed
  rw [wp_bind]
  refine (eliteStageM_wp hx hd hp hev).mono ?_
  rintro _ s₁ ⟨h1, h2, h3, h4⟩
  rw [wp_bind]
  have hx1 : Exist s₁ inds := fun r hr => lt_of_lt_of_le (hx r hr) h1
  have key : wp (createNextGen c inds) (fun p s' => ∃ old, p = (inds, old ++ inds) ∧ old.length = inds.length ∧
      s₁.next ≤ s'.next ∧ Exist s' (old ++ inds) ∧ AllDir m ds s' ∧ AllHave P s' ∧
      (∀ r ∈ old ++ inds, (s'.fits r).objs = none) ∧ ∀ r < s₁.next, r ∉ inds → s'.fits r = s₁.fits r) s₁ := by
    unfold createNextGen
    rw [wp_bind]
    refine (clones_wp hx1 h2 h3).mono ?_
    rintro old s₂ ⟨⟨c1, c2, c3, c4, c5, c6⟩, c7⟩
    rw [wp_bind]
    refine (applyOps_worksOn c.ops hg ho ha (fun r hr => lt_of_lt_of_le (hx1 r hr) c3) c4 c7).mono ?_
    rintro _ s₃ ⟨rfl, d1, d2, d3, d4⟩
    rename_i inds
    rw [wp_bind]
    refine (resets_wp (m := m) (ds := ds) d2).mono ?_
    rintro _ s₄ ⟨e1, e2, e3, e4, e5⟩
    refine wp_pure.2 ⟨old, rfl, c1, by omega, fun r hr => ?_, e3, fun r hr => ?_, e4, fun r hr hni => ?_⟩
    · rw [e1]
      rcases List.mem_append.1 hr with hr | hr
      · have := c5 r hr; omega
      · have := hx1 r hr; omega
    · rw [e2]; exact d3 r (by omega)
    · have hno : r ∉ old := fun h => by have := c5 r h; omega
      rw [e5 r (by simp [hno, hni]), d4 r (by omega) hni, (c6 r hr).1]
  refine key.mono ?_
  rintro _ s₂ ⟨old, rfl, k1, k2, k3, k4, k5, k6, k7⟩
  obtain ⟨sel, rest, hsels, hw⟩ := hsel
  rw [hsels]
  dsimp only
  have hxi : Exist s₂ inds := fun r hr => k3 r (by simp [hr])
  refine ((hw inds (old ++ inds) s₂ hxi k5 rfl (by simp)).and
    (hs sel (by rw [hsels]; simp) m ds inds (old ++ inds) s₂ hxi k4)).mono ?_
  rintro res s₃ ⟨⟨f1, f2⟩, g1, -, extra, rfl, -, g3, -⟩
  have : extra = [] := by
    rw [List.length_append] at g3
    exact List.length_eq_zero_iff.1 (by omega)
  subst this
  rw [List.append_nil]
  refine ⟨f1, fun r hr => by rw [f2 r (k3 r hr)]; exact k6 r hr, fun r hr => by simp [hr], by omega, fun r hr hni => ?_⟩
  rw [f2 r (by omega), k7 r (by omega) hni, h4 r hr]

/-! ## Evaluation and sorting -/

theorem winner_total {b : Nat} {rest : List Nat} (hIs : ∀ r ∈ b :: rest, ∃ v, (s.fits r).Is ds v) :
    wp (winner b rest) (fun _ _ => True) s := by
  induction rest generalizing b s with
  | nil => unfold winner; exact wp_pure.2 trivial
  | cons p rest ih =>
    unfold winner
    rw [wp_bind, wp_get, wp_bind, wp_mrand]
    have hb : wp ((s.fits p).betterThan (s.fits b)) (fun _ _ => True) s.tape := by
      unfold Fit.betterThan
      obtain ⟨v, hv⟩ := hIs p (by simp)
      obtain ⟨w, hw⟩ := hIs b (by simp)
      cases hr : (s.fits p).rank with
      | none =>
        dsimp only
        rw [wp_bind]
        unfold Rand.below
        rw [if_neg (by omega), wp_bind]
        exact ⟨_, _, rfl, wp_pure.2 (wp_pure.2 trivial)⟩
      | some k =>
        dsimp only
        rw [wp_bind, wp_ofExcept]
        exact ⟨_, hv.comparable hw (hv.length.trans hw.length.symm), wp_pure.2 trivial⟩
    refine hb.mono fun v t _ => ih ?_
    intro r hr
    refine hIs r ?_
    simp only [List.mem_cons] at hr ⊢
    rcases hr with hr | hr
    · split at hr <;> simp [hr]
    · exact .inr (.inr hr)

theorem evaluateM_wp {c : MSub G} (he : c.Evaluates m) (hds : ds.length = m) {order inds : List Nat}
    (hp : order.Perm (List.range inds.length)) (hne : inds ≠ []) (hnd : inds.Nodup)
    (hev : ∀ g, P g → Total (c.evaluate g)) (hx : Exist s inds) (hd : AllDir m ds s) (hP : AllHave P s)
    (hu : ∀ r ∈ inds, (s.fits r).objs = none) :
    wp (evaluateM c order inds) (fun b s' => b ∈ inds ∧ s'.next = s.next ∧ s'.genome = s.genome ∧ AllDir m ds s' ∧
      (∀ r ∈ inds, ∃ v, (s'.fits r).Is ds v) ∧ ∀ r, r ∉ inds → s'.fits r = s.fits r) s := by
  suffices wp (evaluateM c order inds) (fun _ _ => True) s from
    (this.and (evaluateM_wlp he hds hx hd)).mono fun _ _ h => h.2
  unfold evaluateM
  rw [wp_bind]
  have hmap : wp (Evo.executorMap order (runEvalM c) inds) (fun _ _ => True) s := by
    refine Evo.executorMap_total hp (I := fun s' : MWorld G => s'.fits = s.fits ∧ s'.genome = s.genome ∧ s'.next = s.next)
      ⟨rfl, rfl, rfl⟩ ?_
    rintro r hr s₁ h1
    unfold runEvalM
    rw [wp_bind, wp_get, wp_mrand]
    obtain ⟨v, t, hrun⟩ := hev (s₁.genome r) (by rw [h1.2.1]; exact hP r (hx r hr)) s₁.tape
    exact ⟨v, t, hrun, h1⟩
  refine (hmap.and (scores_wlp (m := m) he order inds)).mono ?_
  rintro vs s₁ ⟨-, ⟨hl, hf, hg, hnx⟩, hvs⟩
  have hx1 : Exist s₁ inds := fun r hr => by rw [hnx]; exact hx r hr
  have hd1 : AllDir m ds s₁ := fun r hr => by rw [hf]; exact hd r (by omega)
  have hzip : (inds.zip vs).map Prod.fst = inds := by
    rw [List.map_fst_zip]; omega
  rw [wp_bind]
  have hass : wp (forL (fun (p : Nat × List ℚ) => assign p.1 p.2) (inds.zip vs)) (fun _ _ => True) s₁ := by
    refine (wp_forL (I := fun pre s' => ∀ r ∈ inds, r ∉ pre.map Prod.fst → (s'.fits r).objs = none)
      (fun r hr _ => by rw [hf]; exact hu r hr) ?_).mono fun _ _ _ => trivial
    rintro pre ⟨x, v⟩ post s₂ hsplit hI
    have hxn : x ∉ pre.map Prod.fst := by
      have h1 := hzip
      rw [hsplit, List.map_append, List.map_cons] at h1
      rw [← h1, List.nodup_append] at hnd
      exact fun h => hnd.2.2 x h x (by simp) rfl
    have hxin : x ∈ inds := by
      rw [← hzip, hsplit]; simp
    unfold assign setFit
    rw [wp_bind, wp_get, wp_bind, wp_ofExcept]
    refine ⟨_, by unfold Fit.set; rw [hI x hxin hxn], ?_⟩
    rw [wp_modify]
    intro r hr hrn
    simp only [List.map_append, List.map_cons, List.map_nil, List.mem_append, List.mem_singleton, not_or] at hrn
    dsimp only
    rw [if_neg hrn.2]
    exact hI r hr hrn.1
  refine (hass.and (assigns_wlp hx1 hd1 hds hvs)).mono ?_
  rintro _ s₂ ⟨-, -, -, -, j3, -⟩
  cases inds with
  | nil => exact absurd rfl hne
  | cons b rest =>
    dsimp only
    refine winner_total (ds := ds) fun r hr => ?_
    rw [← hzip] at hr
    obtain ⟨p, hp, rfl⟩ := List.mem_map.1 hr
    exact j3 p hp

theorem sortM_wp {order : Nat → List Nat → List Nat} (horder : ∀ k l, (order k l).Perm l) {inds : List Nat}
    (hn : inds.Nodup) {vec : Nat → List ℚ} (hIs : ∀ r ∈ inds, (s.fits r).Is ds (vec r)) (hd : AllDir m ds s) :
    wp (sortM order inds) (fun l s' => (s'.next = s.next ∧ s'.genome = s.genome ∧ AllDir m ds s' ∧
      l.length = inds.length / 2 ∧ l.Nodup ∧ ∀ r ∈ l, r ∈ inds) ∧
      ∀ r, (s'.fits r).objs = (s.fits r).objs ∧ (s'.fits r).dirs = (s.fits r).dirs) s := by
  unfold sortM
  rw [wp_bind, wp_get]
  obtain ⟨h, dest, hrun⟩ := (C50_terminates (n := none) (fuel := inds.length + 1) hn hIs horder (by omega)).1
    (by simp only [wantedSize]; omega)
  rw [hrun]
  dsimp only
  rw [wp_bind, wp_set]
  have hfr := fun r => (C49_frame hn hIs horder hrun r).2
  refine wp_pure.2 ⟨⟨rfl, rfl, fun r hr => ?_, (C50_size hn hIs horder hrun).1 (.inl rfl),
    (C50_survivors hn hIs horder hrun).1, (C50_survivors hn hIs horder hrun).2.1⟩, fun r => ?_⟩
  · dsimp only
    rw [hfr r]
    exact hd r hr
  · dsimp only
    rw [hfr r]
    exact ⟨rfl, rfl⟩

/-! ## The run -/

section run
variable {c : MCfg G} {s s' : MRun G}

theorem wp_mworld {α : Type} {x : MM G α} {Q : α → MRun G → Prop} :
    wp (mworld x) Q s ↔ wp x (fun a w => Q a { s with w := w }) s.w := wp_zoom

theorem wp_mpublish {publisher name : String} {Q : Unit → MRun G → Prop} :
    wp (mpublish publisher name) Q s ↔ Q () { s with log := s.log ++ [s.event publisher name] } := wp_modify

theorem wp_mact {α : Type} {publisher : String} {x : MRM G α} {Q : α → MRun G → Prop}
    (h : wp x (fun a s' => Q a { s' with log := s'.log ++ [s'.event publisher "after_operator"] })
      { s with log := s.log ++ [s.event publisher "before_operator"] }) : wp (mact publisher x) Q s := by
  unfold mact
  rw [wp_bind, wp_mpublish, wp_bind]
  refine h.mono fun a s' h => ?_
  rw [wp_bind, wp_mpublish]
  exact wp_pure.2 h

theorem wp_individuals {Q : List Nat → MRun G → Prop} {is : List Nat} (hs : s.inds = some is) :
    wp individuals Q s ↔ Q is s := by
  unfold individuals
  rw [wp_bind, wp_get, hs]
  exact wp_pure

/-- What holds between the steps of a run of a sound configuration. -/
structure MLiving (P : G → Prop) (n m : Nat) (ds : List Bool) (s : MRun G) : Prop where
  pop : ∃ l, s.Pop n m ds l ∧ ∀ r ∈ l, ∃ v, (s.w.fits r).Is ds v
  genomes : AllHave P s.w
  best : ∃ b, s.bestOfRun = some b ∧ b < s.w.next ∧ (s.w.fits b).objs ≠ none

/-- A population waiting for its evaluation. -/
structure Waiting (P : G → Prop) (k m : Nat) (ds : List Bool) (s : MRun G) (l : List Nat) : Prop where
  pop : s.Pop k m ds l
  genomes : AllHave P s.w
  objs : ∀ r ∈ l, (s.w.fits r).objs = none

theorem mevaluate_wp (hc : c.Sound P n m ds) {k : Nat} (hk : 0 < k) {l : List Nat} (hw : Waiting P k m ds s l) :
    wp (mevaluate c) (fun b s' => b ∈ l ∧ s'.Pop k m ds l ∧ AllHave P s'.w ∧ (∀ r ∈ l, ∃ v, (s'.w.fits r).Is ds v) ∧
      s'.bestOfRun = s.bestOfRun ∧ s'.w.next = s.w.next ∧ ∀ r, r ∉ l → s'.w.fits r = s.w.fits r) s := by
  unfold mevaluate
  refine wp_mact ?_
  unfold mevaluateBody
  rw [wp_bind]
  refine (wp_individuals (is := l) (by exact hw.pop.inds)).2 ?_
  rw [wp_bind, wp_get, wp_mworld]
  refine (evaluateM_wp (P := P) hc.evaluates hc.directions (hc.sched _ _) ?_ hw.pop.nodup hc.evaluate hw.pop.exist hw.pop.dirs
    hw.genomes hw.objs).mono ?_
  · intro h
    have := hw.pop.length
    rw [h, List.length_nil] at this
    omega
  · rintro b w ⟨h0, h1, h2, h3, h4, h5⟩
    exact ⟨h0, ⟨hw.pop.inds, hw.pop.length, hw.pop.nodup, fun r hr => by dsimp only; rw [h1]; exact hw.pop.exist r hr, h3⟩,
      fun r hr => by dsimp only at hr ⊢; rw [h2]; exact hw.genomes r (by omega), h4, rfl, h1, h5⟩

theorem mgeneration_wp (hc : c.Sound P n m ds) (hl : MLiving P n m ds s) :
    wp (mgeneration c) (fun _ s' => MLiving P n m ds s') s := by
  obtain ⟨l, hp, hev⟩ := hl.pop
  obtain ⟨b, hb, hbx, hbo⟩ := hl.best
  unfold mgeneration
  rw [wp_bind]
  have hbreed : wp (mbreed c) (fun _ s' => ∃ l', Waiting P (2 * n) m ds s' l' ∧ s'.bestOfRun = some b ∧ b < s'.w.next ∧
      (b ∈ l' ∨ (s'.w.fits b).objs ≠ none)) s := by
    unfold mbreed
    refine wp_mact ?_
    unfold mbreedBody
    rw [wp_bind]
    refine (wp_individuals (is := l) (by exact hp.inds)).2 ?_
    rw [wp_bind, wp_mworld, if_pos hc.breeder]
    have hlen := hp.length
    refine (nsga2Breed_wp (P := P) (m := m) (ds := ds) hc.ops hc.sels hc.operate (by rw [hlen]; exact hc.arities)
      (by rw [hlen]; exact hc.select) hp.exist hp.nodup hp.dirs hl.genomes (fun r hr => ?_)).mono ?_
    · obtain ⟨v, hv⟩ := hev r hr
      rw [hv.objs]; simp
    · rintro l' w ⟨⟨a1, a2, a3, a4⟩, a5, a6, a7, a8, a9⟩
      rw [wp_modify]
      refine ⟨l', ⟨⟨rfl, by rw [a1, hlen], a2, a3, a4⟩, a5, a6⟩, hb, lt_of_lt_of_le hbx a8, ?_⟩
      by_cases h : b ∈ l
      · exact .inl (a7 b h)
      · refine .inr ?_
        dsimp only
        rw [a9 b hbx h]
        exact hbo
  refine hbreed.mono ?_
  rintro _ s₁ ⟨l', hw, b1, b2, b3⟩
  rw [wp_bind]
  refine (mevaluate_wp hc (k := 2 * n) (by have := hc.size; omega) hw).mono ?_
  rintro _ s₂ ⟨-, hp₂, hg₂, hIs, hb₂, hn₂, hf₂⟩
  rw [wp_bind]
  unfold msort
  rw [wp_bind]
  refine (wp_individuals (is := l') hp₂.inds).2 ?_
  rw [wp_bind, wp_get, wp_bind, wp_mworld]
  choose! vec hvec using hIs
  refine (sortM_wp (m := m) (hc.order _) hp₂.nodup hvec hp₂.dirs).mono ?_
  rintro l₃ w ⟨⟨q1, q2, q3, q4, q5, q6⟩, q7⟩
  rw [wp_modify]
  unfold mfronts
  rw [wp_bind]
  refine (wp_individuals (is := l₃) rfl).2 ?_
  rw [wp_modify]
  refine ⟨⟨l₃, ⟨rfl, by rw [q4, hp₂.length]; omega, q5, fun r hr => ?_, q3⟩, fun r hr => ⟨vec r, ?_⟩⟩, fun r hr => ?_,
    b, by rw [← b1, ← hb₂], ?_, ?_⟩
  · dsimp only
    rw [q1]
    exact hp₂.exist r (q6 r hr)
  · have hv := hvec r (q6 r hr)
    exact ⟨by rw [← hv.objs]; exact (q7 r).1, by rw [← hv.isEach]; exact (q7 r).2, hv.length⟩
  · dsimp only at hr ⊢
    rw [q2]
    exact hg₂ r (by omega)
  · dsimp only
    omega
  · dsimp only
    rw [(q7 b).1]
    by_cases h : b ∈ l'
    · rw [(hvec b h).objs]; simp
    · rw [hf₂ b h]
      exact b3.resolve_left h

theorem MLiving.consulted (hd : ds.length = m) (h : MLiving P n m ds s) :
    MConsulted n m s.w.fits (s.inds.getD []) s.bestOfRun := by
  obtain ⟨l, hp, hev⟩ := h.pop
  obtain ⟨b, b1, b2, b3⟩ := h.best
  rw [hp.inds]
  refine ⟨hp.length, hp.nodup, fun r hr => ?_, b, ?_⟩
  · obtain ⟨v, hv⟩ := hev r hr
    exact ⟨v, hv.objs, by rw [hv.length, hd]⟩
  · obtain ⟨v, hv⟩ := Option.ne_none_iff_exists'.1 b3
    exact ⟨v, b1, hv⟩

theorem mstop_wp (hc : c.Sound P n m ds) (hl : MLiving P n m ds s) {g : Nat} : wp (mstop c g) (fun _ s' => s' = s) s := by
  unfold mstop
  rw [wp_bind, wp_get, wp_ofExcept]
  obtain ⟨v, hv⟩ := hc.calm s.w.fits (s.inds.getD []) s.bestOfRun g (hl.consulted hc.directions)
  exact ⟨v, hv, rfl⟩

theorem MLiving.same {s s' : MRun G} (h : MLiving P n m ds s) (hf : s'.w.fits = s.w.fits) (hg : s'.w.genome = s.w.genome)
    (hn : s'.w.next = s.w.next) (hi : s'.inds = s.inds) (hb : s'.bestOfRun = s.bestOfRun) : MLiving P n m ds s' := by
  obtain ⟨l, hp, hev⟩ := h.pop
  obtain ⟨b, b1, b2, b3⟩ := h.best
  refine ⟨⟨l, ⟨hi.trans hp.inds, hp.length, hp.nodup, fun r hr => ?_, fun r hr => ?_⟩, fun r hr => ?_⟩, fun r hr => ?_,
    b, hb.trans b1, by rw [hn]; exact b2, by rw [hf]; exact b3⟩
  · rw [hn]; exact hp.exist r hr
  · rw [hf]; exact hp.dirs r (by omega)
  · rw [hf]; exact hev r hr
  · rw [hg]; exact h.genomes r (by omega)

theorem mloop_wp (hc : c.Sound P n m ds) (N g : Nat) (hl : MLiving P n m ds s) :
    wp (mloop c N g) (fun _ s' => MLiving P n m ds s') s := by
  induction N generalizing s g with
  | zero => unfold mloop; exact wp_pure.2 hl
  | succ N ih =>
    unfold mloop
    obtain ⟨l, hp, -⟩ := hl.pop
    rw [wp_bind, wp_modify, wp_bind]
    refine (wp_individuals (is := l) (by exact hp.inds)).2 ?_
    rw [wp_bind, wp_get, wp_bind]
    unfold msetSeed
    rw [wp_modify, wp_bind, wp_modify, wp_bind]
    refine wp.mono (Q := fun _ s' => MLiving P n m ds s') (mgeneration_wp hc ?_) fun _ s₁ h₁ => ?_
    · exact hl.same rfl rfl rfl rfl rfl
    rw [wp_bind]
    refine (mstop_wp hc h₁).mono ?_
    rintro stop _ rfl
    rw [wp_ite]
    refine ⟨fun _ => ?_, fun _ => ?_⟩
    · rw [wp_bind, wp_modify, wp_mpublish]
      exact h₁.same rfl rfl rfl rfl rfl
    · rw [wp_bind, wp_mpublish]
      exact ih _ (h₁.same rfl rfl rfl rfl rfl)

theorem mevolve_wp (hc : c.Sound P n m ds) (hf : s.Fresh m ds) (hp : AllHave P s.w) :
    wp (mevolve c) (fun _ s' => MLiving P n m ds s') s := by
  unfold mevolve
  rw [wp_bind]
  have hinit : wp (minit c) (fun _ s' => MLiving P n m ds s') s := by
    unfold minit
    rw [wp_bind, wp_get, wp_bind]
    unfold msetSeed
    rw [wp_modify, wp_bind]
    unfold mcreate
    rw [wp_bind, wp_get]
    dsimp only
    rw [hf.inds]
    dsimp only
    rw [wp_bind, wp_mworld]
    refine ((hc.create { s.w with tape := c.stream s.randomSeed } hf.dirs hp).and
      (hc.creates { s.w with tape := c.stream s.randomSeed } hf.dirs)).mono ?_
    rintro l w ⟨⟨h5, h6⟩, h1, h2, h3, h4⟩
    rw [wp_modify, wp_bind]
    refine (mevaluate_wp hc (k := n) (l := l) hc.size ⟨⟨rfl, h1, h2, h3, h4⟩, h5, h6⟩).mono ?_
    rintro b s₁ ⟨hb, hp, hg, hIs, -, -, -⟩
    rw [wp_bind, wp_modify, wp_mpublish]
    refine ⟨⟨l, ⟨hp.inds, hp.length, hp.nodup, hp.exist, hp.dirs⟩, hIs⟩, hg, b, rfl, hp.exist b hb, ?_⟩
    obtain ⟨v, hv⟩ := hIs b hb
    dsimp only
    rw [hv.objs]
    simp
  refine hinit.mono fun _ s₁ h₁ => ?_
  rw [wp_bind]
  have hafter : wp (mafterInit c) (fun _ s' => MLiving P n m ds s') s₁ := by
    unfold mafterInit
    rw [wp_bind, wp_get, wp_bind]
    refine (mstop_wp hc h₁).mono ?_
    rintro stop _ rfl
    rw [wp_ite]
    refine ⟨fun _ => ?_, fun _ => mloop_wp hc _ _ h₁⟩
    rw [wp_bind, wp_modify, wp_mpublish]
    exact h₁.same rfl rfl rfl rfl rfl
  refine hafter.mono fun _ s₂ h₂ => ?_
  rw [wp_bind, wp_mpublish]
  unfold mfinish
  rw [wp_bind, wp_get]
  obtain ⟨b, b1, b2, b3⟩ := h₂.best
  dsimp only
  rw [b1]
  dsimp only
  obtain ⟨v, hv⟩ := Option.ne_none_iff_exists'.1 b3
  rw [wp_bind, wp_ofExcept]
  refine ⟨v, by unfold Fit.pure; rw [hv], wp_pure.2 (h₂.same rfl rfl rfl rfl ?_)⟩
  exact b1.symm

end run

end Verif.Moo
