import Verif.Props.MooProgress
import Verif.Props.MooTotal

/-! # In NSGA-II, objectives belong to genomes -/

namespace Verif.Moo
open PyM
variable {G : Type} {f : G → List ℚ} {s : MWorld G}

/-- Whatever has objectives has the objectives of its genome. -/
def Truthful (f : G → List ℚ) (w : MWorld G) : Prop := ∀ r v, (w.fits r).objs = some v → v = f (w.genome r)

/-- Contract of a genetic operator that is given individuals without objectives. -/
def MOp.Truthful (f : G → List ℚ) (o : MOp G) : Prop :=
  ∀ refs w, (∀ r ∈ refs, (w.fits r).objs = none) → Moo.Truthful f w → wlp (o.apply refs) (fun _ w' => Moo.Truthful f w') w

/-- Contract of a selection method. -/
def MSel.Truthful (f : G → List ℚ) (x : MSel G) : Prop :=
  ∀ source dest w, Moo.Truthful f w → wlp (x.select source dest) (fun _ w' => Moo.Truthful f w') w

/-- Contract of a creator. -/
def CreatesTruthful (f : G → List ℚ) (create : MM G (List Nat)) : Prop :=
  ∀ w, Truthful f w → wlp create (fun _ w' => Truthful f w') w

theorem copy_objs {x : Fit} {v : List ℚ} (h : x.copy.objs = some v) : x.objs = some v := by
  unfold Fit.copy at h
  split at h
  · exact h
  · cases h

theorem cloneM_truthful {r : Nat} (h : Truthful f s) : wlp (cloneM r) (fun _ s' => Truthful f s') s := by
  refine cloneM_wlp fun s' _ e2 e3 e4 e5 _ x v hv => ?_
  by_cases hx : x = s.next
  · subst hx
    rw [e3] at hv
    rw [e5]
    exact h r v (copy_objs hv)
  · rw [e2 x hx] at hv
    rw [e4 x hx]
    exact h x v hv

theorem clones_truthful {refs : List Nat} (h : Truthful f s) : wlp (mapL cloneM refs) (fun _ s' => Truthful f s') s :=
  wlp_mapL (I := fun (_ : List Nat) (_ : List Nat) (s' : MWorld G) => Truthful f s') h fun _ _ _ _ _ _ h => cloneM_truthful h

theorem resets_truthful {refs : List Nat} (h : Truthful f s) :
    wlp (forL resetFit refs) (fun _ s' => Truthful f s' ∧ ∀ r ∈ refs, (s'.fits r).objs = none) s := by
  refine wlp_forL (I := fun pre (s' : MWorld G) => Truthful f s' ∧ ∀ r ∈ pre, (s'.fits r).objs = none) ⟨h, by simp⟩ ?_
  rintro pre x post s₁ _ ⟨h1, h2⟩
  rw [wlp_resetFit]
  refine ⟨fun r v hv => ?_, fun r hr => ?_⟩
  · dsimp only at hv ⊢
    split at hv
    · cases hv
    · exact h1 r v hv
  · dsimp only
    split
    · rfl
    · rename_i hne
      simp only [List.mem_append, List.mem_singleton, hne, or_false] at hr
      exact h2 r hr

theorem applyOp_truthful {o : MOp G} (ho : o.Truthful f) {refs : List Nat} (h : Truthful f s) :
    wlp (applyOp o refs) (fun _ s' => Truthful f s') s := by
  unfold applyOp
  rw [wlp_bind, wlp_mrand]
  intro u t _
  rw [wlp_ite]
  refine ⟨fun _ => ?_, fun _ => wlp_pure.2 h⟩
  rw [wlp_bind]
  refine (resets_truthful (s := { s with tape := t }) h).mono ?_
  rintro _ s₁ ⟨h1, h2⟩
  rw [wlp_bind]
  refine (ho refs s₁ h2 h1).mono ?_
  rintro res s₂ h3
  cases res with
  | none => simp
  | some l => exact wlp_pure.2 h3

theorem applyChunksM_truthful {o : MOp G} (ho : o.Truthful f) (is : List Nat) {inds : List Nat} (h : Truthful f s) :
    wlp (applyChunksM o is inds) (fun _ s' => Truthful f s') s := by
  induction is generalizing s inds with
  | nil => unfold applyChunksM; exact wlp_pure.2 h
  | cons i is ih =>
    unfold applyChunksM
    rw [wlp_bind]
    exact (applyOp_truthful ho h).mono fun _ _ h1 => ih h1

theorem applyOps_truthful (os : List (MOp G)) (ho : ∀ o ∈ os, o.Truthful f) {inds : List Nat} (h : Truthful f s) :
    wlp (applyOps os inds) (fun _ s' => Truthful f s') s := by
  induction os generalizing s inds with
  | nil => unfold applyOps; exact wlp_pure.2 h
  | cons o os ih =>
    unfold applyOps
    rw [wlp_ite]
    refine ⟨fun _ => by simp, fun _ => ?_⟩
    rw [wlp_bind]
    exact (applyChunksM_truthful (ho o (by simp)) _ h).mono fun _ _ h1 => ih (fun o ho' => ho o (by simp [ho'])) h1

theorem eliteStageM_truthful {c : MSub G} {inds : List Nat} (h : Truthful f s) :
    wlp (eliteStageM c inds) (fun _ s' => Truthful f s') s := by
  unfold eliteStageM
  rw [wlp_ite]
  refine ⟨fun _ => ?_, fun _ => wlp_pure.2 h⟩
  unfold elitesM
  rw [wlp_bind, wlp_get, wlp_bind, wlp_ofExcept]
  intro ks _
  dsimp only
  rw [wlp_bind]
  exact (clones_truthful h).mono fun _ _ h1 => wlp_pure.2 h1

theorem nsga2Breed_truthful {c : MSub G} (ho : ∀ o ∈ c.ops, o.Truthful f) (hs : ∀ x ∈ c.sels, x.Truthful f) {inds : List Nat}
    (h : Truthful f s) : wlp (nsga2Breed c inds) (fun _ s' => Truthful f s') s := by
  unfold nsga2Breed
  rw [wlp_bind]
  refine (eliteStageM_truthful h).mono fun _ s₁ h1 => ?_
  rw [wlp_bind]
  have key : wlp (createNextGen c inds) (fun _ s' => Truthful f s') s₁ := by
    unfold createNextGen
    rw [wlp_bind]
    refine (clones_truthful h1).mono fun _ s₂ h2 => ?_
    rw [wlp_bind]
    refine (applyOps_truthful _ ho h2).mono fun _ s₃ h3 => ?_
    rw [wlp_bind]
    exact (resets_truthful h3).mono fun _ s₄ h4 => wlp_pure.2 h4.1
  refine key.mono ?_
  rintro ⟨a, b⟩ s₂ h2
  dsimp only
  cases hsel : c.sels with
  | nil => simp
  | cons x rest => exact hs x (by rw [hsel]; simp) _ _ _ h2

theorem simpleBreed_truthful {c : MSub G} (ho : ∀ o ∈ c.ops, o.Truthful f) (hs : ∀ x ∈ c.sels, x.Truthful f) {inds : List Nat}
    (h : Truthful f s) : wlp (simpleBreed c inds) (fun _ s' => Truthful f s') s := by
  unfold simpleBreed
  rw [wlp_bind]
  refine (Evo.checkArities_wlp c.popSize _).mono ?_
  rintro _ _ ⟨rfl, -⟩
  rw [wlp_bind]
  refine (eliteStageM_truthful h).mono fun _ s₁ h1 => ?_
  cases hsel : c.sels with
  | nil => simp
  | cons x rest =>
    dsimp only
    rw [wlp_bind]
    exact (hs x (by rw [hsel]; simp) _ _ _ h1).mono fun _ s₂ h2 => applyOps_truthful _ ho h2

/-! ## Components that meet the contracts -/

theorem putGenomesM_truthful {refs : List Nat} {gs : List G} (hr : ∀ r ∈ refs, (s.fits r).objs = none) (h : Truthful f s) :
    wlp (putGenomesM refs gs) (fun _ s' => Truthful f s') s := by
  unfold putGenomesM
  refine (wlp_forL (I := fun _ (s' : MWorld G) => Truthful f s' ∧ s'.fits = s.fits) ⟨h, rfl⟩ ?_).mono fun _ _ h => h.1
  rintro pre ⟨r, g⟩ post s₁ hsplit ⟨h1, h2⟩
  rw [wlp_modify]
  refine ⟨fun x v hv => ?_, h2⟩
  dsimp only at hv ⊢
  split
  · rename_i he
    have hm : (r, g) ∈ refs.zip gs := by rw [hsplit]; simp
    rw [h2, he, hr r (List.of_mem_zip hm).1] at hv
    cases hv
  · exact h1 x v hv

/-- Operators that replace the genomes of their arguments, as the library's crossovers and mutations do. -/
theorem onGenomes_truthful (p : ℚ) (arity : Nat) (g : List G → Rand (Option (List G))) : (MOp.onGenomes p arity g).Truthful f := by
  intro refs s hr h
  unfold MOp.onGenomes
  dsimp only
  rw [wlp_bind, wlp_get, wlp_bind, wlp_mrand]
  refine (wlp_true _ _).mono fun res t _ => ?_
  cases res with
  | none => exact wlp_pure.2 h
  | some gs =>
    dsimp only
    rw [wlp_bind]
    exact (putGenomesM_truthful (s := { s with tape := t }) hr h).mono fun _ s₁ h => wlp_pure.2 h

theorem MSel.tournament_truthful (arity size : Nat) (replace : Bool) : (⟨arity, tournamentM size replace⟩ : MSel G).Truthful f := by
  intro source dest s h
  dsimp only
  unfold tournamentM
  rw [wlp_ite]
  refine ⟨fun _ => by simp, fun _ => ?_⟩
  rw [wlp_bind, wlp_mrand]
  refine (wlp_true _ _).mono fun tours t _ => ?_
  rw [wlp_bind]
  have key : wlp (mapL pickM tours) (fun _ s' => Moo.Truthful f s') ({ s with tape := t } : MWorld G) := by
    refine wlp_mapL (s := { s with tape := t }) (I := fun (_ : List (List Nat)) (_ : List Nat) s' => Moo.Truthful f s') h ?_
    rintro pre x post l s₁ _ h1
    unfold pickM
    cases x with
    | nil => simp
    | cons b rest =>
      dsimp only
      rw [wlp_bind]
      refine winner_wlp.mono ?_
      rintro w s₂ ⟨-, k1, k2, -⟩
      refine cloneM_truthful fun r v hv => ?_
      rw [k1] at hv
      rw [k2]
      exact h1 r v hv
  exact key.mono fun l s' h => wlp_pure.2 h

theorem createM_truthful (empty : G) (genome : Rand G) {fit : Fit} (hfit : fit.objs = none) (n : Nat) :
    CreatesTruthful f (createM empty genome fit n) := by
  intro s h
  unfold createM
  rw [wlp_bind]
  have key : wlp (mapL (fun (_ : Nat) => newM empty fit) (List.range n)) (fun l s' => (Truthful f s' ∧ ∀ r ∈ l, (s'.fits r).objs = none)) s := by
    refine wlp_mapL (I := fun (_ : List Nat) (l : List Nat) (s' : MWorld G) => Truthful f s' ∧ ∀ r ∈ l, (s'.fits r).objs = none)
      ⟨h, by simp⟩ ?_
    rintro pre x post l s₁ _ ⟨h1, h2⟩
    unfold newM
    rw [wlp_bind, wlp_get, wlp_bind, wlp_set]
    refine wlp_pure.2 ⟨fun r v hv => ?_, fun r hr => ?_⟩
    · dsimp only at hv ⊢
      split at hv
      · rw [hfit] at hv; cases hv
      · rename_i hne; rw [if_neg hne]; exact h1 r v hv
    · dsimp only
      split
      · exact hfit
      · rename_i hne
        simp only [List.mem_append, List.mem_singleton, hne, or_false] at hr
        exact h2 r hr
  refine key.mono ?_
  rintro l s₁ ⟨h1, h2⟩
  rw [wlp_bind]
  refine (wlp_forL (I := fun _ (s' : MWorld G) => Truthful f s' ∧ s'.fits = s₁.fits) ⟨h1, rfl⟩ ?_).mono fun _ _ h => wlp_pure.2 h.1
  rintro pre r post s₂ hsplit ⟨h3, h4⟩
  rw [wlp_bind, wlp_mrand]
  refine (wlp_true _ _).mono fun g t _ => ?_
  rw [wlp_modify]
  refine ⟨fun x v hv => ?_, h4⟩
  dsimp only at hv ⊢
  split
  · rename_i he
    rw [h4, he, h2 r (by rw [hsplit]; simp)] at hv
    cases hv
  · exact h3 x v hv

theorem halfGroupsM_truthful {grow full : Nat → Nat → MM G (List Nat)} (hg : ∀ d k, CreatesTruthful f (grow d k))
    (hf : ∀ d k, CreatesTruthful f (full d k)) (group : Nat) (l : List Nat) : CreatesTruthful f (halfGroupsM grow full group l) := by
  induction l with
  | nil => intro s h; unfold halfGroupsM; exact wlp_pure.2 h
  | cons d l ih =>
    intro s h
    unfold halfGroupsM
    rw [wlp_bind]
    refine (hg d group s h).mono fun _ s₁ h1 => ?_
    rw [wlp_bind]
    refine (hf d group s₁ h1).mono fun _ s₂ h2 => ?_
    rw [wlp_bind]
    exact (ih s₂ h2).mono fun _ s₃ h3 => wlp_pure.2 h3

theorem halfM_truthful {grow full : Nat → Nat → MM G (List Nat)} (hg : ∀ d k, CreatesTruthful f (grow d k))
    (hf : ∀ d k, CreatesTruthful f (full d k)) (minDepth depths n : Nat) : CreatesTruthful f (halfM grow full minDepth depths n) := by
  intro s h
  unfold halfM
  dsimp only
  rw [wlp_ite]
  refine ⟨fun _ => ?_, fun _ => ?_⟩
  · first | exact hf _ _ s h | simp
  · rw [wlp_bind]
    refine (halfGroupsM_truthful hg hf _ _ s h).mono fun l s₁ h1 => ?_
    rw [wlp_ite]
    refine ⟨fun _ => ?_, fun _ => wlp_pure.2 h1⟩
    rw [wlp_bind]
    exact (hf _ _ s₁ h1).mono fun _ s₂ h2 => wlp_pure.2 h2

/-! ## Runs -/

variable {n m : Nat} {ds : List Bool} {c : MCfg G} {t : MRun G}

/-- What the parts of the run must do. -/
structure MCfg.Truthful (c : MCfg G) (f : G → List ℚ) : Prop where
  create : CreatesTruthful f c.sub.create
  ops : ∀ o ∈ c.sub.ops, o.Truthful f
  sels : ∀ x ∈ c.sub.sels, x.Truthful f
  evaluates : c.sub.Computes f

theorem mevaluate_truthful (hc : c.Good n m ds) (ht : c.Truthful f) {k : Nat} {inds : List Nat} (hp : t.Pop k m ds inds)
    (h : Truthful f t.w) : wlp (mevaluate c) (fun b t' => Truthful f t'.w ∧ t'.bestOfRun = t.bestOfRun ∧ ∃ v, (t'.w.fits b).objs = some v) t := by
  unfold mevaluate
  rw [wlp_mact]
  unfold mevaluateBody
  rw [wlp_bind, wlp_individuals]
  intro is his
  obtain rfl : is = inds := Option.some.inj (his.symm.trans hp.inds)
  rw [wlp_bind, wlp_get, wlp_mworld]
  refine ((evaluateM_wlp hc.evaluates hc.directions hp.exist hp.dirs).and (evaluateM_value ht.evaluates)).mono ?_
  rintro b w ⟨⟨h0, -, h2, -, -, h5⟩, h6⟩
  refine ⟨fun r v hv => ?_, rfl, _, h6 b h0⟩
  dsimp only at hv ⊢
  by_cases hr : r ∈ is
  · rw [h6 r hr] at hv
    rw [h2]
    exact (Option.some.inj hv).symm
  · rw [h5 r hr] at hv
    rw [h2]
    exact h r v hv

theorem mbreed_truthful (ht : c.Truthful f) (h : Truthful f t.w) :
    wlp (mbreed c) (fun _ t' => Truthful f t'.w ∧ t'.bestOfRun = t.bestOfRun) t := by
  unfold mbreed
  rw [wlp_mact]
  unfold mbreedBody
  rw [wlp_bind, wlp_individuals]
  intro is _
  rw [wlp_bind, wlp_mworld]
  cases hb : c.nsga2Breeder with
  | true =>
    rw [if_pos rfl]
    exact (nsga2Breed_truthful ht.ops ht.sels h).mono fun l w h => by rw [wlp_modify]; exact ⟨h, rfl⟩
  | false =>
    rw [if_neg (by simp)]
    exact (simpleBreed_truthful ht.ops ht.sels h).mono fun l w h => by rw [wlp_modify]; exact ⟨h, rfl⟩

theorem mgeneration_truthful (hc : c.Good n m ds) (ht : c.Truthful f) {k : Nat} {inds : List Nat} (hp : t.Pop k m ds inds)
    (h : Truthful f t.w) : wlp (mgeneration c) (fun _ t' => (∃ inds', t'.Pop ((if c.nsga2Breeder then 2 * k else k) / 2) m ds inds') ∧
      Truthful f t'.w ∧ t'.bestOfRun = t.bestOfRun ∧ t'.genNum = t.genNum) t := by
  unfold mgeneration
  rw [wlp_bind]
  refine ((mbreed_wlp hc hp).and (mbreed_truthful ht h)).mono ?_
  rintro _ s₁ ⟨⟨⟨inds₁, hp₁⟩, g1, -⟩, h1, b1⟩
  rw [wlp_bind]
  refine ((mevaluate_wlp hc hp₁).and (mevaluate_truthful hc ht hp₁ h1)).mono ?_
  rintro b s₂ ⟨⟨-, hp₂, g2, ⟨vec, hvec⟩, -⟩, h2, b2, -⟩
  rw [wlp_bind]
  unfold msort
  rw [wlp_bind, wlp_individuals]
  intro is his
  obtain rfl : is = inds₁ := Option.some.inj (his.symm.trans hp₂.inds)
  rw [wlp_bind, wlp_get, wlp_bind, wlp_mworld]
  refine ((sortM_wlp (hc.order _) hp₂.nodup hvec hp₂.dirs).and (sortM_keeps (hc.order _) hp₂.nodup hvec)).mono ?_
  rintro l w ⟨⟨q1, q2, q3, q4, q5, q6, -, -⟩, r1, -, -⟩
  rw [wlp_modify]
  unfold mfronts
  rw [wlp_bind, wlp_individuals]
  intro is' his'
  obtain rfl : l = is' := Option.some.inj his'
  rw [wlp_modify]
  refine ⟨⟨l, rfl, by rw [q4, hp₂.length], q5, ?_, q3⟩, fun r v hv => ?_, by rw [← b1, ← b2], by rw [← g1, ← g2]⟩
  · intro r hr
    dsimp only
    rw [q1]
    exact hp₂.exist r (q6 r hr)
  · dsimp only at hv ⊢
    rw [r1 r] at hv
    rw [q2]
    exact h2 r v hv

/-- The invariant at the end of a generation. -/
def MRun.True (n m : Nat) (ds : List Bool) (c : MCfg G) (f : G → List ℚ) (t : MRun G) : Prop :=
  (∃ inds, t.Pop (c.size n t.genNum) m ds inds) ∧ Moo.Truthful f t.w

theorem mloop_truthful (hc : c.Good n m ds) (ht : c.Truthful f) (N : Nat) (hi : t.True n m ds c f) :
    wlp (mloop c N (t.genNum + 1)) (fun _ t' => t'.True n m ds c f ∧ t'.bestOfRun = t.bestOfRun) t := by
  induction N generalizing t with
  | zero => unfold mloop; exact wlp_pure.2 ⟨hi, rfl⟩
  | succ N ih =>
    unfold mloop
    rw [wlp_bind, wlp_modify, wlp_bind, wlp_individuals]
    intro is his
    rw [wlp_bind, wlp_get, wlp_bind]
    unfold msetSeed
    rw [wlp_modify, wlp_bind, wlp_modify, wlp_bind]
    obtain ⟨⟨inds, hp⟩, h0⟩ := hi
    refine wlp.mono (mgeneration_truthful (k := c.size n t.genNum) (inds := inds) hc ht
      (by exact ⟨hp.inds, hp.length, hp.nodup, hp.exist, hp.dirs⟩) (by exact h0)) ?_
    rintro _ s₁ ⟨⟨l, hp1⟩, h1, b1, hg1⟩
    dsimp only at hg1 b1
    rw [bred_eq, size_eq, ← hg1] at hp1
    have hinv : ∀ x log, MRun.True n m ds c f { s₁ with finalGen := x, log := log } := fun x log =>
      ⟨⟨l, hp1.inds, hp1.length, hp1.nodup, hp1.exist, hp1.dirs⟩, h1⟩
    rw [wlp_bind]
    unfold mstop
    rw [wlp_bind, wlp_get, wlp_ofExcept]
    intro stop _
    rw [wlp_ite]
    refine ⟨fun _ => ?_, fun _ => ?_⟩
    · rw [wlp_bind, wlp_modify, wlp_mpublish]
      exact ⟨hinv _ _, b1⟩
    · rw [wlp_bind, wlp_mpublish]
      have := ih (hinv s₁.finalGen (s₁.log ++ [s₁.event "algorithm" "after_generation"]))
      dsimp only at this
      rw [← hg1]
      exact this.mono fun _ _ h => ⟨h.1, h.2.trans b1⟩

theorem minit_truthful (hc : c.Good n m ds) (ht : c.Truthful f) (hf : t.Fresh m ds) (h : Truthful f t.w) :
    wlp (minit c) (fun _ t' => t'.True n m ds c f ∧ t'.genNum = 0 ∧ ∃ b, t'.bestOfRun = some b) t := by
  have h1 : wlp (minit c) (fun _ t' => Truthful f t'.w) t := by
    unfold minit
    rw [wlp_bind, wlp_get, wlp_bind]
    unfold msetSeed
    rw [wlp_modify, wlp_bind]
    unfold mcreate
    rw [wlp_bind, wlp_get]
    dsimp only
    rw [hf.inds]
    dsimp only
    rw [wlp_bind, wlp_mworld]
    refine ((hc.creates { t.w with tape := c.stream t.randomSeed } hf.dirs).and (ht.create _ h)).mono ?_
    rintro l w ⟨⟨h1, h2, h3, h4⟩, h5⟩
    rw [wlp_modify, wlp_bind]
    refine (mevaluate_truthful (k := n) (inds := l) hc ht ⟨rfl, h1, h2, h3, h4⟩ h5).mono ?_
    rintro b s₁ ⟨h6, -, -⟩
    rw [wlp_bind, wlp_modify, wlp_mpublish]
    exact h6
  refine ((minit_wlp hc hf.inds hf.dirs hf.log hf.genNum).and h1).mono ?_
  rintro _ s₁ ⟨⟨hi, hg, b, v, hb, -⟩, h2⟩
  exact ⟨⟨hi.pop, h2⟩, hg, b, hb⟩

theorem mevolve_truthful (hc : c.Good n m ds) (ht : c.Truthful f) (hf : t.Fresh m ds) (h : Truthful f t.w) :
    wlp (mevolve c) (fun _ t' => Truthful f t'.w ∧ ∃ b, t'.bestOfRun = some b ∧ (t'.w.fits b).objs = some (f (t'.w.genome b))) t := by
  unfold mevolve
  rw [wlp_bind]
  refine (minit_truthful hc ht hf h).mono ?_
  rintro _ s₁ ⟨hi, hg, b, hb⟩
  rw [wlp_bind]
  have key : wlp (mafterInit c) (fun _ t' => t'.True n m ds c f ∧ t'.bestOfRun = some b) s₁ := by
    unfold mafterInit
    rw [wlp_bind, wlp_get, wlp_bind]
    unfold mstop
    rw [wlp_bind, wlp_get, wlp_ofExcept]
    intro stop _
    rw [wlp_ite]
    refine ⟨fun _ => ?_, fun _ => ?_⟩
    · rw [wlp_bind, wlp_modify, wlp_mpublish]
      obtain ⟨⟨inds, hp⟩, h2⟩ := hi
      exact ⟨⟨⟨inds, hp.inds, hp.length, hp.nodup, hp.exist, hp.dirs⟩, h2⟩, hb⟩
    · have := mloop_truthful hc ht c.maxGen hi
      rw [hg] at this
      exact this.mono fun _ _ h => ⟨h.1, h.2.trans hb⟩
  refine key.mono ?_
  rintro _ s₂ ⟨hi2, hb2⟩
  rw [wlp_bind, wlp_mpublish]
  unfold mfinish
  rw [wlp_bind, wlp_get]
  dsimp only
  rw [hb2]
  dsimp only
  rw [wlp_bind, wlp_ofExcept]
  intro v hv
  refine wlp_pure.2 ⟨hi2.2, b, rfl, ?_⟩
  have ho : (s₂.w.fits b).objs = some v := by
    unfold Fit.pure at hv
    split at hv
    · rename_i e; cases hv; exact e
    · cases hv
  dsimp only
  rw [ho, hi2.2 b v ho]

end Verif.Moo
