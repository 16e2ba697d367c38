import Verif.Lemmas.MooKeep
import Verif.Spec.MooLibrary
import Verif.Props.NSGA2Evolution

/-! # What breeding and evaluation do to genomes and objectives in NSGA-II -/

namespace Verif.Moo
open PyM
variable {G : Type} {m : Nat} {ds : List Bool} {s s' : MWorld G}

/-- Contract of a genetic operator: of the individuals there are, it changes the genomes of the ones it is given
only. -/
def MOp.Local (o : MOp G) : Prop :=
  ∀ refs s, Exist s refs → wlp (o.apply refs) (fun _ s' => ∀ r < s.next, r ∉ refs → s'.genome r = s.genome r) s

/-- Contract of a selection method: it changes no genome. -/
def MSel.Local (sel : MSel G) : Prop :=
  ∀ source dest s, wlp (sel.select source dest) (fun _ s' => ∀ r < s.next, s'.genome r = s.genome r) s

/-- Contract of an evaluator: the objectives are a function of the genome. -/
def MSub.Computes (c : MSub G) (f : G → List ℚ) : Prop := ∀ g t, wlp (c.evaluate g) (fun v _ => v = f g) t

theorem clones_genomes {refs : List Nat} (hx : Exist s refs) :
    wlp (mapL cloneM refs) (fun l (s' : MWorld G) => s.next ≤ s'.next ∧ (∀ r ∈ l, s.next ≤ r ∧ r < s'.next) ∧
      (∀ r < s.next, s'.genome r = s.genome r) ∧ ∀ x ∈ refs, ∃ y ∈ l, s'.genome y = s.genome x) s := by
  refine wlp_mapL (I := fun pre l (s' : MWorld G) => s.next ≤ s'.next ∧ (∀ r ∈ l, s.next ≤ r ∧ r < s'.next) ∧
      (∀ r < s.next, s'.genome r = s.genome r) ∧ ∀ x ∈ pre, ∃ y ∈ l, s'.genome y = s.genome x)
    ⟨Nat.le_refl _, by simp, fun _ _ => rfl, by simp⟩ ?_
  rintro pre x post l s₁ hsplit ⟨h1, h2, h3, h4⟩
  have hxs : x < s.next := hx x (by rw [hsplit]; simp)
  refine cloneM_wlp fun s₂ e1 e2 e3 e4 e5 _ => ⟨by omega, fun r hr => ?_, fun r hr => ?_, fun z hz => ?_⟩
  · simp only [List.mem_append, List.mem_singleton] at hr
    rcases hr with hr | rfl
    · have := h2 r hr; omega
    · omega
  · rw [e4 r (by omega)]; exact h3 r hr
  · simp only [List.mem_append, List.mem_singleton] at hz
    rcases hz with hz | rfl
    · obtain ⟨y, hy, hg⟩ := h4 z hz
      exact ⟨y, by simp [hy], by rw [e4 y (by have := (h2 y hy).2; omega)]; exact hg⟩
    · exact ⟨s₁.next, by simp, by rw [e5, h3 z hxs]⟩

theorem applyOp_local {o : MOp G} (ho : o.Local) {refs : List Nat} (hx : Exist s refs) (hd : AllDir m ds s) :
    wlp (applyOp o refs) (fun _ s' => ∀ r < s.next, r ∉ refs → s'.genome r = s.genome r) s := by
  unfold applyOp
  rw [wlp_bind, wlp_mrand]
  intro u t _
  rw [wlp_ite]
  refine ⟨fun _ => ?_, fun _ => wlp_pure.2 fun _ _ _ => rfl⟩
  rw [wlp_bind]
  refine (resets_wlp (s := { s with tape := t }) (m := m) (ds := ds) hd).mono ?_
  rintro _ s₁ ⟨e1, e1', -, -, -⟩
  rw [wlp_bind]
  dsimp only at e1 e1'
  refine (ho refs s₁ (fun r hr => by rw [e1]; exact hx r hr)).mono ?_
  rintro res s₂ g
  cases res with
  | none => simp
  | some l =>
    refine wlp_pure.2 fun r hr hn => ?_
    rw [g r (by omega) hn, e1']

theorem applyChunksM_local {inds0 : List Nat} {b₀ n : Nat} {o : MOp G} (ho : o.Good) (hl : o.Local) (is : List Nat)
    {inds : List Nat} (hb : Herd inds0 b₀ n m ds s inds) :
    wlp (applyChunksM o is inds) (fun res s' => Herd inds0 b₀ n m ds s' res ∧
      ∀ r < b₀, r ∉ inds0 → s'.genome r = s.genome r) s := by
  induction is generalizing s inds with
  | nil => unfold applyChunksM; exact wlp_pure.2 ⟨hb, fun _ _ _ => rfl⟩
  | cons i is ih =>
    unfold applyChunksM
    rw [wlp_bind]
    obtain ⟨A, C, hsplit, -⟩ := Evo.slice_split inds i ((i + o.arity : Nat) : Int)
    have hsub : ∀ r ∈ Py.slice inds i ((i + o.arity : Nat) : Int), r ∈ inds := fun r hr => by
      rw [hsplit]; exact List.mem_append_left _ (List.mem_append_right _ hr)
    refine ((applyOp_herd ho hb _ _).and (applyOp_local (m := m) (ds := ds) hl
      (fun r hr => hb.exist r (hsub r hr)) hb.dirs)).mono ?_
    rintro res s₁ ⟨h1, h2⟩
    refine (ih h1).mono ?_
    rintro res' s₂ ⟨h3, h4⟩
    refine ⟨h3, fun r hr hn => ?_⟩
    rw [h4 r hr hn]
    refine h2 r (lt_of_lt_of_le hr hb.base) fun hc => ?_
    rcases hb.mem r (hsub r hc) with h | h
    · exact hn h
    · omega

theorem applyOps_local {inds0 : List Nat} {b₀ n : Nat} (os : List (MOp G)) (ho : ∀ o ∈ os, o.Good)
    (hl : ∀ o ∈ os, o.Local) {inds : List Nat} (hb : Herd inds0 b₀ n m ds s inds) :
    wlp (applyOps os inds) (fun res s' => Herd inds0 b₀ n m ds s' res ∧
      ∀ r < b₀, r ∉ inds0 → s'.genome r = s.genome r) s := by
  induction os generalizing s inds with
  | nil => unfold applyOps; exact wlp_pure.2 ⟨hb, fun _ _ _ => rfl⟩
  | cons o os ih =>
    unfold applyOps
    rw [wlp_ite]
    refine ⟨fun _ => by simp, fun _ => ?_⟩
    rw [wlp_bind]
    refine (applyChunksM_local (ho o (by simp)) (hl o (by simp)) _ hb).mono ?_
    rintro res s₁ ⟨h1, h2⟩
    refine (ih (fun o ho' => ho o (by simp [ho'])) (fun o ho' => hl o (by simp [ho'])) h1).mono ?_
    rintro res' s₂ ⟨h3, h4⟩
    exact ⟨h3, fun r hr hn => by rw [h4 r hr hn, h2 r hr hn]⟩

theorem eliteStageM_local {c : MSub G} {inds : List Nat} (hx : Exist s inds) :
    wlp (eliteStageM c inds) (fun _ s' => ∀ r < s.next, s'.genome r = s.genome r) s := by
  unfold eliteStageM
  rw [wlp_ite]
  refine ⟨fun _ => ?_, fun _ => wlp_pure.2 fun _ _ => rfl⟩
  unfold elitesM
  rw [wlp_bind, wlp_get, wlp_bind, wlp_ofExcept]
  intro ks hks
  have hfst := lexKeys_fst hks
  dsimp only
  set sorted := (Py.sortBy (fun a b : Nat × List ℚ => if c.hib then lexLe b.2 a.2 else lexLe a.2 b.2) ks).map Prod.fst
    with hs
  have hp : sorted.Perm inds := by
    rw [hs, ← hfst]
    exact (Py.sortBy_perm _ _).map _
  obtain ⟨A, C, hsplit, -⟩ := Evo.slice_split sorted 0 c.nElite
  have hsub : ∀ r ∈ Py.slice sorted 0 c.nElite, r ∈ inds := fun r hr =>
    hp.mem_iff.1 (by rw [hsplit]; simp [hr])
  rw [wlp_bind]
  refine (clones_genomes fun r hr => hx r (hsub r hr)).mono ?_
  rintro l s₁ ⟨-, -, h3, -⟩
  exact wlp_pure.2 h3

/-- `NSGA2Breeder` carries every genome over. -/
theorem nsga2Breed_genomes {c : MSub G} (ho : ∀ o ∈ c.ops, o.Good) (hol : ∀ o ∈ c.ops, o.Local)
    (hs : ∀ x ∈ c.sels, x.Good) (hsl : ∀ x ∈ c.sels, x.Local) {inds : List Nat}
    (hx : Exist s inds) (hn : inds.Nodup) (hd : AllDir m ds s) :
    wlp (nsga2Breed c inds) (fun l s' => ∀ x ∈ inds, ∃ y ∈ l, s'.genome y = s.genome x) s := by
  unfold nsga2Breed
  rw [wlp_bind]
  refine ((eliteStageM_wlp hx hd).and (eliteStageM_local hx)).mono ?_
  rintro _ s₁ ⟨⟨h1, h2, -, -, -⟩, h3⟩
  rw [wlp_bind]
  have hx1 : Exist s₁ inds := fun r hr => lt_of_lt_of_le (hx r hr) h1
  have key : wlp (createNextGen c inds) (fun p s' => ∃ old, p.2 = old ++ p.1 ∧ old.length = inds.length ∧
      p.1.length = inds.length ∧ Exist s' (old ++ p.1) ∧ AllDir m ds s' ∧
      ∀ x ∈ inds, ∃ y ∈ old, s'.genome y = s.genome x) s₁ := by
    unfold createNextGen
    rw [wlp_bind]
    refine ((clones_wlp hx1 h2).and (clones_genomes hx1)).mono ?_
    rintro old s₂ ⟨⟨c1, c2, c3, c4, c5, -⟩, -, -, -, d4⟩
    rw [wlp_bind]
    refine (applyOps_local (inds0 := inds) (b₀ := s₂.next) (n := inds.length) c.ops ho hol
      ⟨rfl, hn, fun r hr => lt_of_lt_of_le (hx1 r hr) c3, c4, le_refl _, fun r hr => .inl hr⟩).mono ?_
    rintro new s₃ ⟨hh, hloc⟩
    rw [wlp_bind]
    refine (resets_wlp (m := m) (ds := ds) hh.dirs).mono ?_
    rintro _ s₄ ⟨e1, e1', e2, -, -⟩
    refine wlp_pure.2 ⟨old, rfl, c1, hh.length, ?_, e2, fun x hxi => ?_⟩
    · intro r hr
      rw [e1]
      rcases List.mem_append.1 hr with hr | hr
      · have h3 := c5 r hr; have h4 := hh.base; omega
      · exact hh.exist r hr
    · obtain ⟨y, hy, hg⟩ := d4 x hxi
      refine ⟨y, hy, ?_⟩
      rw [e1', hloc y (c5 y hy).2 (fun hc => by have := hx1 y hc; have := (c5 y hy).1; omega), hg, h3 x (hx x hxi)]
  refine key.mono ?_
  rintro ⟨new, next⟩ s₂ ⟨old, hnext, k1, k2, k4, k5, k6⟩
  dsimp only at hnext k2 k4 ⊢
  subst hnext
  cases hsel : c.sels with
  | nil => simp
  | cons x rest =>
    dsimp only
    refine ((hs x (by rw [hsel]; simp) m ds new (old ++ new) s₂ (fun r hr => k4 r (by simp [hr])) k5).and
      (hsl x (by rw [hsel]; simp) new (old ++ new) s₂)).mono ?_
    rintro res s₃ ⟨⟨g1, g2, extra, rfl, -, g3, -⟩, hloc⟩
    intro z hz
    obtain ⟨y, hy, hg⟩ := k6 z hz
    exact ⟨y, by simp [hy], by rw [hloc y (k4 y (by simp [hy])), hg]⟩

/-! ## Evaluation -/

theorem executorMap_value {σ α : Type} {s : σ} (order : List Nat) {refs : List Nat} {task : Nat → PyM σ α} {val : Nat → α}
    {I : σ → Prop} (hI : I s) (ht : ∀ r ∈ refs, ∀ s, I s → wlp (task r) (fun v s' => v = val r ∧ I s') s) :
    wlp (Evo.executorMap order task refs) (fun vs _ => vs = refs.map val) s := by
  unfold Evo.executorMap
  rw [wlp_bind]
  have h1 : wlp (mapL (Evo.runTask task refs) order) (fun (rs : List (Nat × α)) s' =>
      (∀ p ∈ rs, ∃ r, refs[p.1]? = some r ∧ p.2 = val r) ∧ I s') s := by
    refine wlp_mapL (I := fun _ (rs : List (Nat × α)) s' => (∀ p ∈ rs, ∃ r, refs[p.1]? = some r ∧ p.2 = val r) ∧ I s')
      ⟨by simp, hI⟩ ?_
    rintro pre i post rs s₁ _ ⟨hrs, hI₁⟩
    unfold Evo.runTask
    cases hr : refs[i]? with
    | none => simp
    | some r =>
      dsimp only
      rw [wlp_bind]
      refine (ht r (List.mem_of_getElem? hr) s₁ hI₁).mono ?_
      rintro v s₂ ⟨hv, hI₂⟩
      refine wlp_pure.2 ⟨fun p hp => ?_, hI₂⟩
      simp only [List.mem_append, List.mem_singleton] at hp
      rcases hp with hp | rfl
      · exact hrs p hp
      · exact ⟨r, hr, hv⟩
  refine h1.mono ?_
  rintro rs s₁ ⟨hrs, -⟩
  have h2 : wlp (mapL (Evo.lookupResult rs) (List.range refs.length)) (fun (vs : List α) (_ : σ) =>
      vs.map some = (List.range refs.length).map fun i => refs[i]?.map val) s₁ := by
    refine wlp_mapL (I := fun pre (vs : List α) (_ : σ) => vs.map some = pre.map fun i => refs[i]?.map val) rfl ?_
    rintro pre i post vs s₂ _ hvs
    unfold Evo.lookupResult
    split
    · rename_i p hp
      refine wlp_pure.2 ?_
      obtain ⟨r, hr, hv⟩ := hrs p (List.mem_of_find?_eq_some hp)
      have hpi : p.1 = i := by simpa using List.find?_some hp
      rw [hpi] at hr
      simp [hvs, hr, hv]
    · simp
  refine h2.mono fun vs s₂ hvs => ?_
  have : vs.map some = (refs.map val).map some := by
    rw [hvs]
    apply List.ext_getElem
    · simp
    · intro i h3 h4
      simp only [List.length_map, List.length_range] at h3
      simp [h3]
  exact List.map_injective_iff.2 (Option.some_injective _) this

theorem assigns_value {val : Nat → List ℚ} {ps : List (Nat × List ℚ)} (hv : ∀ p ∈ ps, p.2 = val p.1) :
    wlp (forL (fun (p : Nat × List ℚ) => assign p.1 p.2) ps) (fun _ (s' : MWorld G) =>
      ∀ p ∈ ps, (s'.fits p.1).objs = some (val p.1)) s := by
  refine wlp_forL (I := fun (pre : List (Nat × List ℚ)) (s' : MWorld G) => ∀ p ∈ pre, (s'.fits p.1).objs = some (val p.1)) (by simp) ?_
  rintro pre ⟨x, v⟩ post s₂ hsplit hI
  have hxv : v = val x := hv (x, v) (by rw [hsplit]; simp)
  unfold assign
  rw [wlp_bind, wlp_get, wlp_bind, wlp_ofExcept]
  intro f hset
  rw [wlp_setFit]
  have hf : f.objs = some v := by
    unfold Fit.set at hset
    cases ho : (s₂.fits x).objs with
    | some w => rw [ho] at hset; simp at hset
    | none =>
      rw [ho] at hset
      simp only [Except.ok.injEq] at hset
      subst hset
      rfl
  intro p hp
  dsimp only
  split
  · rename_i he; rw [he, hf, hxv]
  · rename_i he
    simp only [List.mem_append, List.mem_singleton] at hp
    rcases hp with hp | rfl
    · exact hI p hp
    · exact absurd rfl he

/-- After the evaluation each individual has the objectives of its genome. -/
theorem evaluateM_value {c : MSub G} {f : G → List ℚ} (he : c.Computes f) {order inds : List Nat} :
    wlp (evaluateM c order inds) (fun _ s' => ∀ r ∈ inds, (s'.fits r).objs = some (f (s.genome r))) s := by
  unfold evaluateM
  rw [wlp_bind]
  refine (executorMap_value order (val := fun r => f (s.genome r)) (I := fun s' : MWorld G => s'.genome = s.genome) rfl ?_).mono ?_
  · rintro r _ s₁ hg
    unfold runEvalM
    rw [wlp_bind, wlp_get, wlp_mrand]
    refine (he _ _).mono fun v t hv => ⟨by rw [hv, hg], hg⟩
  · rintro vs s₁ rfl
    rw [wlp_bind]
    have hzip : inds.zip (inds.map fun r => f (s.genome r)) = inds.map fun r => (r, f (s.genome r)) := by
      clear he
      induction inds with
      | nil => rfl
      | cons a l ih => simp [ih]
    rw [hzip]
    refine (assigns_value (val := fun r => f (s.genome r)) (by
      intro p hp
      obtain ⟨r, -, rfl⟩ := List.mem_map.1 hp
      rfl)).mono ?_
    rintro _ s₂ h2
    cases inds with
    | nil => simp
    | cons b rest =>
      dsimp only
      refine winner_wlp.mono ?_
      rintro x s₃ ⟨-, k1, -, -⟩ r hr
      rw [k1]
      exact h2 (r, _) (List.mem_map.2 ⟨r, hr, rfl⟩)

/-! ## Components that meet the contracts -/

theorem putGenomesM_local {refs : List Nat} {gs : List G} :
    wlp (putGenomesM refs gs) (fun _ s' => ∀ r, r ∉ refs → s'.genome r = s.genome r) s := by
  unfold putGenomesM
  refine wlp_forL (I := fun _ (s' : MWorld G) => ∀ r, r ∉ refs → s'.genome r = s.genome r) (fun _ _ => rfl) ?_
  rintro pre ⟨r, g⟩ post s₁ hsplit h
  rw [wlp_modify]
  intro x hx
  dsimp only
  have : (r, g) ∈ refs.zip gs := by rw [hsplit]; simp
  have hr := (List.of_mem_zip this).1
  rw [if_neg (fun hc => hx (by rw [hc]; exact hr))]
  exact h x hx

/-- Operators that replace the genomes of their arguments, as the library's crossovers and mutations do. -/
theorem onGenomes_local (p : ℚ) (arity : Nat) (f : List G → Rand (Option (List G))) : (MOp.onGenomes p arity f).Local := by
  intro refs s _
  unfold MOp.onGenomes
  dsimp only
  rw [wlp_bind, wlp_get, wlp_bind, wlp_mrand]
  refine (wlp_true _ _).mono fun res t _ => ?_
  cases res with
  | none => exact wlp_pure.2 fun _ _ _ => rfl
  | some gs =>
    dsimp only
    rw [wlp_bind]
    refine putGenomesM_local.mono fun _ s₁ h => wlp_pure.2 fun r _ hr => h r hr

theorem MSel.tournament_local (arity size : Nat) (replace : Bool) :
    (⟨arity, tournamentM size replace⟩ : MSel G).Local := by
  intro source dest s
  dsimp only
  unfold tournamentM
  rw [wlp_ite]
  refine ⟨fun _ => by simp, fun _ => ?_⟩
  rw [wlp_bind, wlp_mrand]
  refine (wlp_true _ _).mono fun tours t _ => ?_
  rw [wlp_bind]
  have key : wlp (mapL pickM tours) (fun _ s' => s.next ≤ s'.next ∧ ∀ r < s.next, s'.genome r = s.genome r)
      ({ s with tape := t } : MWorld G) := by
    refine wlp_mapL (s := { s with tape := t }) (I := fun (_ : List (List Nat)) (_ : List Nat) s' =>
      s.next ≤ s'.next ∧ ∀ r < s.next, s'.genome r = s.genome r) ⟨Nat.le_refl _, fun _ _ => rfl⟩ ?_
    rintro pre x post l s₁ _ ⟨i1, i2⟩
    unfold pickM
    cases x with
    | nil => simp
    | cons b rest =>
      dsimp only
      rw [wlp_bind]
      refine winner_wlp.mono ?_
      rintro w s₂ ⟨-, -, k2, k3⟩
      exact cloneM_wlp fun s₃ e1 e2 e3 e4 e5 _ => ⟨by omega, fun r hr => by rw [e4 r (by omega), k2]; exact i2 r hr⟩
  exact key.mono fun l s' h => wlp_pure.2 h.2

end Verif.Moo
