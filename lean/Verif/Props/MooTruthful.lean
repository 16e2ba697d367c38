import Verif.Lemmas.MooTruthful

/-! # C136: is the best individual NSGA-II reports when the run begins still what it was when the run ends? -/

namespace Verif.Moo
open PyM
variable {G : Type} {n m : Nat} {ds : List Bool} {c : MCfg G} {s s' : MRun G} {f : G → List ℚ}

/-- C136 as stated: the individual that the run ends with as `best_of_run_` is the one announced at `init`, with the objectives it was
announced with. -/
def C136_statement : Prop :=
  ∀ (G : Type) (c : MCfg G) (n m : Nat) (ds : List Bool) (f : G → List ℚ) (s s' : MRun G), c.Good n m ds → c.Steady f → c.Truthful f →
    s.Fresh m ds → mevolve c s = (.ok (), s') → ∀ e ∈ s'.log, e.name = "init" → ∀ b, e.bestOfRun = some b →
      s'.bestOfRun = some b ∧ (s'.w.fits b).objs = (e.fits b).objs

/-- **C136, proved part.** In a run of `NSGA2Evolution` with either breeder and an evaluator whose objectives depend on the genome only,
the objectives of every individual there is at the end of the run — in the population or not — are those of the genome it has then;
in particular those of `best_of_run_`, which has objectives. -/
theorem C136_objectives_partial (hc : c.Good n m ds) (ht : c.Truthful f) (hf : s.Fresh m ds) (h0 : ∀ r, (s.w.fits r).objs = none)
    (hrun : mevolve c s = (.ok (), s')) :
    (∀ r v, (s'.w.fits r).objs = some v → v = f (s'.w.genome r)) ∧
    ∃ b, s'.bestOfRun = some b ∧ (s'.w.fits b).objs = some (f (s'.w.genome b)) :=
  mevolve_truthful hc ht hf (fun r v hv => by rw [h0 r] at hv; cases hv) () s' hrun

/-- A run that completes and reports truthfully. -/
def ReportsTruth (f : G → List ℚ) (c : MCfg G) (s : MRun G) (n m : Nat) : Prop :=
  ∃ s' is b, mevolve c s = (.ok (), s') ∧ MCompleted (fun _ => True) n m s' ∧ s'.inds = some is ∧ s'.bestOfRun = some b ∧
    ∀ r ∈ b :: is, (s'.w.fits r).objs = some (f (s'.w.genome r))

theorem reportsTruth (hc : c.Good n m ds) (ht : c.Truthful f) (hf : s.Fresh m ds) (h0 : ∀ r, (s.w.fits r).objs = none) {P : G → Prop}
    (h : ∃ s', mevolve c s = (.ok (), s') ∧ MCompleted P n m s') : ReportsTruth f c s n m := by
  obtain ⟨s', h1, is, b, v, k1, k2, k3, k4, k5, k6⟩ := h
  obtain ⟨h2, b', hb, hob⟩ := C136_objectives_partial hc ht hf h0 h1
  obtain rfl : b' = b := Option.some.inj (hb.symm.trans k5)
  refine ⟨s', is, b', h1, ⟨is, b', v, k1, k2, k3, fun r hr => ⟨trivial, (k4 r hr).2⟩, k5, k6⟩, k1, hb, fun r hr => ?_⟩
  rcases List.mem_cons.1 hr with rfl | hr
  · exact hob
  · obtain ⟨u, hu, -⟩ := (k4 r hr).2
    rw [hu, h2 r u hu]

section programs
open GP
variable {cfg : GP.Cfg}

theorem TreeCreator.truthful {f : GP.Ind → List ℚ} {create : MM GP.Ind (List Nat)} (h : TreeCreator cfg n m ds create) :
    CreatesTruthful f create := by
  cases h with
  | full d fit h => exact createM_truthful _ _ h.1 _
  | grow q lo hi fit h => exact createM_truthful _ _ h.1 _
  | half q lo hi fit h hd hn =>
    exact halfM_truthful (fun _ _ => createM_truthful _ _ h.1 _) (fun _ _ => createM_truthful _ _ h.1 _) _ _ _

theorem TreeOp.truthful {f : GP.Ind → List ℚ} {o : MOp GP.Ind} (h : TreeOp o) : o.Truthful f := by
  cases h <;> exact onGenomes_truthful _ _ _

/-- **C136, programs**: what a run over trees put together from the library ends with. -/
theorem C136_programs_partial (hp : cfg.Plain) {c : MCfg GP.Ind}
    (h : c.Assembled (GP.PlainLegal cfg) (TreeCreator cfg n m ds) TreeOp n m ds) {f : GP.Ind → List ℚ} (he : c.sub.Computes f)
    {s : MRun GP.Ind} (hf : s.Fresh m ds) (h0 : s.w.next = 0) (h1 : ∀ r, (s.w.fits r).objs = none) : ReportsTruth f c s n m :=
  reportsTruth (h.sound (fun _ h => h.creates hp) (fun _ h => h.good) (fun _ h ha => h.worksOn hp ha)).toGood
    ⟨h.creator.truthful, fun o ho => (h.ops o ho).truthful, fun x hx => by
      obtain ⟨a, k, rep, e, -⟩ := h.sels
      rw [e, List.mem_singleton] at hx
      subst hx
      exact MSel.tournament_truthful _ _ _, he⟩ hf h1
    (C82_programs hp h hf fun r hr => absurd hr (by rw [h0]; exact Nat.not_lt_zero r))

end programs

section vectors
variable {kind : GA.Kind} {bounds : GA.Bounds} {length : Nat}

theorem VecCreator.truthful {f : GA.Vec → List ℚ} {create : MM GA.Vec (List Nat)} (h : VecCreator kind bounds length n m ds create) :
    CreatesTruthful f create := by
  cases h with
  | mk fit h =>
    intro w hw
    unfold vecCreator
    rw [wlp_ite]
    exact ⟨fun _ => by simp, fun _ => createM_truthful _ _ h.1 _ w hw⟩

/-- **C136, vectors**: what a run over vectors put together from the library ends with. -/
theorem C136_vectors_partial (hb : bounds.Proper kind length) {c : MCfg GA.Vec}
    (h : c.Assembled (GA.Legal kind bounds length) (VecCreator kind bounds length n m ds) (VecOp kind length) n m ds)
    {f : GA.Vec → List ℚ} (he : c.sub.Computes f) {s : MRun GA.Vec} (hf : s.Fresh m ds) (h0 : s.w.next = 0)
    (h1 : ∀ r, (s.w.fits r).objs = none) : ReportsTruth f c s n m :=
  reportsTruth (h.sound (fun _ h => h.creates hb) (fun _ h => h.good) (fun _ h _ => h.worksOn hb)).toGood
    ⟨h.creator.truthful, fun o ho => by
      have := h.ops o ho
      cases this <;> exact onGenomes_truthful _ _ _, fun x hx => by
      obtain ⟨a, k, rep, e, -⟩ := h.sels
      rw [e, List.mem_singleton] at hx
      subst hx
      exact MSel.tournament_truthful _ _ _, he⟩ hf h1
    (C82_vectors hb h hf fun r hr => absurd hr (by rw [h0]; exact Nat.not_lt_zero r))

end vectors

/-! ## The counterexample -/

theorem exCfg_truthful (nsga2 : Bool) (maxGen : Nat) : (exCfg nsga2 maxGen).Truthful fun g => [g, g * (5 - g)] := by
  refine ⟨fun w h => ?_, ?_, ?_, fun g t => wlp_pure.2 rfl⟩
  · refine wlp_mapL (I := fun (_ : List ℚ) (_ : List Nat) (w' : MWorld ℚ) => Truthful _ w') h ?_
    rintro pre x post l s₁ - h1
    unfold exNew
    rw [wlp_bind, wlp_get, wlp_bind, wlp_set]
    refine wlp_pure.2 fun r v hv => ?_
    dsimp only at hv ⊢
    split at hv
    · cases hv
    · rename_i hne; rw [if_neg hne]; exact h1 r v hv
  · intro o ho
    simp only [exCfg, List.mem_singleton] at ho
    subst ho
    intro refs w hr h
    unfold MOp.inPlace
    dsimp only
    rw [wlp_bind, wlp_modify]
    refine wlp_pure.2 fun r v hv => ?_
    dsimp only at hv ⊢
    split
    · rename_i hm; rw [hr r hm] at hv; cases hv
    · exact h r v hv
  · intro x hx
    simp only [exCfg, List.mem_singleton] at hx
    subst hx
    exact MSel.tournament_truthful 1 2 true

/-- C136 is false: the breeder applies the operators to the individuals of the population themselves and keeps copies of what they were,
so the individual announced as the best is altered.  Here `[7, -14]` (first objective minimised, second maximised) is announced and
`[8, -24]`, which is worse in both, is reported at the end. -/
theorem C136_refuted : ¬ C136_statement := by
  intro h
  have hrun : mevolve (exCfg true 1) exRun = (.ok (), (mevolve (exCfg true 1) exRun).2) := ok_pair (by decide +kernel)
  have h2 : ((mevolve (exCfg true 1) exRun).2.log[2]?.any fun e =>
      decide (e.name = "init" ∧ e.bestOfRun = some 3 ∧ (e.fits 3).objs = some [(7 : ℚ), -14])) = true := by decide +kernel
  obtain ⟨e, he, h2⟩ := Option.any_eq_true _ _ |>.1 h2
  rw [decide_eq_true_eq] at h2
  obtain ⟨-, h3⟩ := h ℚ (exCfg true 1) 4 2 [false, true] _ exRun _ (exCfg_good true 1) (exCfg_steady true 1) (exCfg_truthful true 1)
    exRun_fresh hrun e (List.mem_of_getElem? he) h2.1 3 h2.2.1
  rw [h2.2.2] at h3
  have h4 : ((mevolve (exCfg true 1) exRun).2.w.fits 3).objs = some [(8 : ℚ), -24] := by decide +kernel
  rw [h4] at h3
  simp at h3

/-! ## Non-vacuity -/

example := C136_objectives_partial (exCfg_good true 1) (exCfg_truthful true 1) exRun_fresh (fun _ => rfl) (ok_pair (by decide +kernel))

example := C136_objectives_partial (exCfg_good false 1) (exCfg_truthful false 1) exRun_fresh (fun _ => rfl) (ok_pair (by decide +kernel))

example : ReportsTruth (fun i => [(i.tree.length : ℚ), - i.tree.length]) exProg exProgRun 4 2 := C136_programs_partial GP.exPlain exProg_assembled
  (fun _ _ => wlp_pure.2 rfl)
  ⟨rfl, fun r hr => absurd hr (Nat.not_lt_zero r), rfl, rfl⟩ rfl (fun _ => rfl)

example : ReportsTruth (fun v => [v.vector.headD 0, v.vector.tail.headD 0]) exVector exVectorRun 4 2 :=
  C136_vectors_partial GA.exLib_proper exVector_assembled (fun _ _ => wlp_pure.2 rfl)
    ⟨rfl, fun r hr => absurd hr (Nat.not_lt_zero r), rfl, rfl⟩ rfl (fun _ => rfl)

end Verif.Moo
