import Verif.Props.Blame

/-!
# C159 — runs that were interrupted can be started again

An exception of the evaluator or of a termination checker ends a run before `finish` shuts the executor down.  The
algorithm is then in a state from which `evolve` can be called again.
-/

namespace Verif.PyM
variable {σ α β : Type}

/-- The computation returns with `Q`, or raises and leaves `R` behind. -/
def Ends (m : PyM σ α) (Q : α → σ → Prop) (R : σ → Prop) (s : σ) : Prop :=
  (∃ a s', m s = (.ok a, s') ∧ Q a s') ∨ ∃ e s', m s = (.error e, s') ∧ R s'

theorem wp.ends {m : PyM σ α} {Q : α → σ → Prop} {R : σ → Prop} {s : σ} (h : wp m Q s) : Ends m Q R s := .inl h

theorem Ends.mono {m : PyM σ α} {Q Q' : α → σ → Prop} {R : σ → Prop} {s : σ} (h : Ends m Q R s) (hQ : ∀ a s, Q a s → Q' a s) :
    Ends m Q' R s := by
  rcases h with ⟨a, s', h1, h2⟩ | h
  · exact .inl ⟨a, s', h1, hQ _ _ h2⟩
  · exact .inr h

theorem Ends.bind {m : PyM σ α} {f : α → PyM σ β} {Q : α → σ → Prop} {Q' : β → σ → Prop} {R : σ → Prop} {s : σ}
    (h : Ends m Q R s) (hf : ∀ a s', Q a s' → Ends (f a) Q' R s') : Ends (m >>= f) Q' R s := by
  rcases h with ⟨a, s', h1, h2⟩ | ⟨e, s', h1, h2⟩
  · rcases hf a s' h2 with ⟨b, s'', h3, h4⟩ | ⟨e, s'', h3, h4⟩
    · exact .inl ⟨b, s'', (bind_of_ok h1).trans h3, h4⟩
    · exact .inr ⟨e, s'', (bind_of_ok h1).trans h3, h4⟩
  · exact .inr ⟨e, s', bind_of_error h1, h2⟩

end Verif.PyM

namespace Verif.Evo
open PyM
variable {G κ : Type} {P : G → Prop} {K : κ → Prop} {c : Cfg G κ} {sub : SubCfg G} {m : Mode}

/-! ## What an evaluation leaves alone -/

/-- Genomes and kinds of fitness of all individuals. -/
def kinds (w : World G) : List (G × Mode) := w.heap.map fun i => (i.genome, i.mode)

theorem kinds_rand {α : Type} (r : Rand α) : Keeps (kinds (G := G)) (rand r) := fun _ => rfl

theorem kinds_deref (r : Nat) : Keeps (kinds (G := G)) (deref r) := by
  intro s
  unfold deref
  rw [bind_of_ok (show PyM.get s = (.ok s, s) from rfl)]
  cases s.heap[r]? <;> rfl

theorem kinds_setFitness (r : Nat) (v : FVal) : Keeps (kinds (G := G)) (setFitness r v) := by
  intro s
  exact map_modify_eq (φ := fun i : Ind G => (i.genome, i.mode)) (f := fun i => { i with fit := i.fit.setFitness v }) (fun i => rfl) s.heap r

theorem kinds_reading {α : Type} (f : List (Ind G) → Except Err α) : Keeps (kinds (G := G)) (reading f) := by
  intro s
  unfold reading
  rw [bind_of_ok (show PyM.get s = (.ok s, s) from rfl)]
  cases f s.heap <;> rfl

theorem kinds_runEval (sub : SubCfg G) (r : Nat) : Keeps kinds (runEval sub r) :=
  (kinds_deref r).bind fun _ => kinds_rand _

theorem kinds_bestLoop (size : G → Nat) (is : List Nat) : ∀ b, Keeps kinds (bestLoop size b is) := by
  induction is with
  | nil => intro b; exact Keeps.pure _
  | cons i is ih => intro b; exact (kinds_reading _).bind fun _ => ih _

theorem Keeps.executorMap {σ τ α : Type} {φ : σ → τ} (order : List Nat) {task : Nat → PyM σ α} (h : ∀ r, Keeps φ (task r))
    (refs : List Nat) : Keeps φ (executorMap order task refs) := by
  unfold Evo.executorMap
  refine Keeps.bind (Keeps.mapL (fun j => ?_) _) fun rs => Keeps.mapL (fun j => ?_) _
  · unfold runTask
    split
    · exact Keeps.raise _
    · exact (h _).bind fun _ => Keeps.pure _
  · unfold lookupResult
    split
    · exact Keeps.pure _
    · exact Keeps.raise _

theorem kinds_evaluateMap (size : G → Nat) (sub : SubCfg G) (order is : List Nat) :
    Keeps kinds (evaluateMap size sub order is) := by
  unfold evaluateMap
  refine (Keeps.executorMap order (kinds_runEval sub) is).bind fun _ => ?_
  refine (Keeps.forL (fun _ => kinds_setFitness _ _) _).bind fun _ => ?_
  split
  · exact Keeps.raise _
  · exact kinds_bestLoop _ _ _

theorem kinds_evaluateSubmit (size : G → Nat) (sub : SubCfg G) (order is : List Nat) :
    Keeps kinds (evaluateSubmit size sub order is) := by
  unfold evaluateSubmit
  refine (Keeps.executorMap order (fun r => (kinds_runEval sub r).bind fun _ => (kinds_setFitness _ _).bind fun _ => Keeps.pure _)
    is).bind fun _ => ?_
  refine (Keeps.forL (fun _ => kinds_setFitness _ _) _).bind fun _ => ?_
  split
  · exact Keeps.raise _
  · exact kinds_bestLoop _ _ _

/-- What a run needs to be started, apart from the states of the checkers. -/
def frame (s : Run G κ) : List (Option (List Nat)) × List κ × Bool × List (G × Mode) :=
  (s.inds, s.checkers, s.shutdown, kinds s.w)

theorem frame_world {α : Type} {x : WM G α} (h : Keeps kinds x) : Keeps (frame (G := G) (κ := κ)) (world x) := by
  intro s
  have := h s.w
  show (s.inds, s.checkers, s.shutdown, kinds (x s.w).2) = _
  rw [this]
  rfl

theorem frame_evaluate (c : Cfg G κ) : Keeps frame (evaluatePopulation c) := by
  unfold evaluatePopulation act
  refine Keeps.bind (fun _ => rfl) fun _ => Keeps.bind ?_ fun _ => Keeps.bind (fun _ => rfl) fun _ => Keeps.pure _
  unfold evaluateBody
  refine Keeps.bind (fun _ => rfl) fun s => ?_
  split
  · refine Keeps.ite (Keeps.raise _) (frame_world ?_)
    exact Keeps.ite (kinds_evaluateSubmit _ _ _ _) (kinds_evaluateMap _ _ _ _)
  · exact Keeps.raise _
  · exact Keeps.raise _

theorem modeAt_kinds {w w' : World G} (h : kinds w' = kinds w) (r : Nat) : modeAt w' r = modeAt w r := by
  have := congrArg (fun l => (l[r]?).map Prod.snd) h
  simp only [kinds, List.getElem?_map, Option.map_map] at this
  exact this

theorem genomeAt_kinds {w w' : World G} (h : kinds w' = kinds w) (r : Nat) : genomeAt w' r = genomeAt w r := by
  have := congrArg (fun l => (l[r]?).map Prod.fst) h
  simp only [kinds, List.getElem?_map, Option.map_map] at this
  exact this

/-- A state in which `evolve` can be called and the population is there. -/
def Run.Reopened (P : G → Prop) (c : Cfg G κ) (sub : SubCfg G) (m : Mode) (s : Run G κ) (K : κ → Prop := fun _ => True) : Prop :=
  s.Open P c sub m K ∧ ∃ is, s.inds = [some is]

theorem Run.Open.of_frame {s s' : Run G κ} (h : s.Open P c sub m K) (hf : frame s' = frame s) : s'.Open P c sub m K := by
  simp only [frame, Prod.mk.injEq] at hf
  obtain ⟨h1, h2, h3, h4⟩ := hf
  refine ⟨?_, ?_, by rw [h2]; exact h.fits, by rw [h3]; exact h.executor, by rw [h2]; exact h.states⟩
  · rcases h.ready with h | ⟨is, h5, h6, h7⟩
    · exact .inl (by rw [h1, h])
    · exact .inr ⟨is, by rw [h1, h5], h6, fun r hr => by rw [modeAt_kinds h4]; exact h7 r hr⟩
  · intro is his
    rw [h1] at his
    obtain ⟨h5, h6⟩ := h.given is his
    exact ⟨h5, carry_of_genomes h6 fun r _ => genomeAt_kinds h4 r⟩

theorem Run.Reopened.of_frame {s s' : Run G κ} (h : s.Reopened P c sub m K) (hf : frame s' = frame s) :
    s'.Reopened P c sub m K := by
  refine ⟨h.1.of_frame hf, ?_⟩
  rw [show s'.inds = s.inds from (Prod.mk.inj hf).1]
  exact h.2

/-! ## The steps of a run -/

/-- Whatever the checkers answer or raise in a run, they stay in states satisfying `K`. -/
def Cfg.HoldsStates (c : Cfg G κ) (hib : Bool) (K : κ → Prop) : Prop :=
  ∀ t ∈ c.checker.all, ∀ k heap inds best gen, Consulted c.size hib K k heap inds best → K (t k heap inds best gen).2

theorem Cfg.HoldsStates.keeps {hib : Bool} (h : c.HoldsStates hib K) : c.KeepsStates hib K := by
  intro t ht k heap inds best gen v k' hc hv
  have := h t ht k heap inds best gen hc
  rwa [hv] at this

theorem Cfg.fits_tame {hib : Bool} {ks : List κ} : (c.tame P hib K).Fits ks ↔ c.Fits ks := by
  unfold Cfg.Fits
  show (match c.checker.tame c.size hib K with | .none => _ | .one _ => _ | .many ts => _) ↔ _
  cases hc : c.checker <;> simp [Checkers.tame]

theorem Living.reopened {s : Run G κ} (h : Living K P (c.tame P sub.hib K) (sub.tame P) m s) : s.Reopened P c sub m K := by
  obtain ⟨is, hi, hn, hnd, hm, hev, hcar⟩ := h.pop
  refine ⟨⟨.inr ⟨is, hi, hnd, hm⟩, ?_, Cfg.fits_tame.1 h.fits.1, h.executor, h.fits.2⟩, is, hi⟩
  intro is' his
  rw [hi] at his
  simp only [List.mem_singleton, Option.some.injEq] at his
  subst his
  exact ⟨hn, hcar⟩

theorem breed_open (hsub : c.subs = [sub]) (hc : (c.tame P sub.hib K).Sound P (sub.tame P) m K) {s : Run G κ}
    (h : Living K P (c.tame P sub.hib K) (sub.tame P) m s) : wp (breed c) (fun _ s' => s'.Reopened P c sub m K) s := by
  rw [← breed_tame (P := P) (hib := sub.hib) (K := K) hsub]
  obtain ⟨hfits, hexec, -, is, hi, hn, hnd, hm, hev, hcar⟩ := h
  unfold breed act
  rw [wp_bind]
  refine wp_publish ?_
  rw [wp_bind]
  unfold breedBody
  rw [wp_bind, wp_get, wp_bind]
  refine wp_world ?_
  show wp (breedAll c.size ((c.tame P sub.hib K).subs.zip s.inds)) _ s.w
  rw [hc.subs, hi]
  show wp (breedAll c.size [(sub.tame P, some is)]) _ _
  unfold breedAll
  rw [wp_bind]
  refine (breedSub_total hc hn hm hev hcar).mono ?_
  rintro res w ⟨hb, hcar1⟩
  unfold breedAll
  rw [wp_bind, wp_pure, wp_pure, wp_modify, wp_bind]
  refine wp_publish ?_
  rw [wp_pure]
  refine ⟨⟨.inr ⟨res, rfl, hb.nodup, hb.mode⟩, ?_, Cfg.fits_tame.1 hfits.1, hexec, hfits.2⟩, res, rfl⟩
  intro is' his
  simp only [Run.push, List.mem_singleton, Option.some.injEq] at his
  subst his
  exact ⟨hb.length, hcar1⟩

theorem generation_ends (hsub : c.subs = [sub]) (hc : (c.tame P sub.hib K).Sound P (sub.tame P) m K) {s : Run G κ}
    (h : Living K P (c.tame P sub.hib K) (sub.tame P) m s) :
    Ends (generationIteration c) (fun _ s' => Living K P (c.tame P sub.hib K) (sub.tame P) m s')
      (fun s' => s'.Reopened P c sub m K) s := by
  obtain ⟨u, s₁, h1, ho⟩ := breed_open hsub hc h
  have hev : generationIteration c s = (evaluatePopulation c >>= fun b => do
      modify fun s => { s with bestOfGen := some b }
      recordBest c b
      recordWorst c) s₁ := bind_of_ok h1
  cases hr : evaluatePopulation c s₁ with
  | mk r s₂ =>
    cases r with
    | error e =>
      refine .inr ⟨e, s₂, hev.trans (bind_of_error hr), ho.of_frame ?_⟩
      have := frame_evaluate c s₁
      rwa [hr] at this
    | ok b =>
      left
      obtain ⟨v, s₃, h3, h4⟩ := generation_total hc h
      refine ⟨v, s₃, ?_, h4⟩
      rw [← h3, hev, bind_of_ok hr]
      have ht : evaluatePopulation (c.tame P sub.hib K) s₁ = (.ok b, s₂) := by
        rcases evaluatePopulation_until (P := P) (hib := sub.hib) (K := K) (B := fun _ => True) hsub (fun _ _ => trivial) s₁ with
          h | ⟨e, s', -, h⟩
        · rw [← h, hr]
        · rw [hr] at h; simp at h
      unfold generationIteration
      rw [breed_tame hsub, recordWorst_tame hsub, bind_of_ok h1, bind_of_ok ht]
      rfl

theorem consult_holds {hib : Bool} {heap : List (Ind G)} {inds : List (Option (List Nat))} {best : Option Nat} {gen : Nat}
    {size : G → Nat} (ts : List (Checker G κ))
    (hK : ∀ t ∈ ts, ∀ k heap inds best gen, Consulted size hib K k heap inds best → K (t k heap inds best gen).2)
    (ks : List κ) (hks : ∀ k ∈ ks, K k) (hcon : ∀ k, K k → Consulted size hib K k heap inds best) :
    (consult heap inds best gen ts ks).2.length = ks.length ∧ ∀ k ∈ (consult heap inds best gen ts ks).2, K k := by
  induction ts generalizing ks with
  | nil => cases ks <;> exact ⟨rfl, hks⟩
  | cons t ts ih =>
    cases ks with
    | nil => exact ⟨rfl, hks⟩
    | cons k ks =>
      have h1 := hK t (by simp) k heap inds best gen (hcon k (hks k (by simp)))
      obtain ⟨h2, h3⟩ := ih (fun t h => hK t (by simp [h])) ks (fun k h => hks k (by simp [h]))
      unfold consult
      cases hr : t k heap inds best gen with
      | mk r k' =>
        rw [hr] at h1
        cases r with
        | error e =>
          refine ⟨rfl, fun j hj => ?_⟩
          rcases List.mem_cons.1 hj with rfl | hj
          · exact h1
          · exact hks j (by simp [hj])
        | ok b =>
          dsimp only
          cases hq : consult heap inds best gen ts ks with
          | mk q ks' =>
            rw [hq] at h2 h3
            cases q <;>
            · refine ⟨by simpa using h2, fun j hj => ?_⟩
              rcases List.mem_cons.1 hj with rfl | hj
              · exact h1
              · exact h3 j hj

theorem shouldTerminate_ends (hc : (c.tame P sub.hib K).Sound P (sub.tame P) m K) (hK : c.HoldsStates sub.hib K)
    {s : Run G κ} (h : Living K P (c.tame P sub.hib K) (sub.tame P) m s) (gen : Nat) :
    Ends (shouldTerminate c gen) (fun _ s' => Living K P (c.tame P sub.hib K) (sub.tame P) m s')
      (fun s' => s'.Reopened P c sub m K) s := by
  have hdir : sub.hib = m.hib := hc.dir.symm
  have key : ∀ ks : List κ, ks.length = s.checkers.length → (∀ k ∈ ks, K k) →
      Living K P (c.tame P sub.hib K) (sub.tame P) m { s with checkers := ks } := by
    intro ks hk hK
    refine ⟨⟨?_, hK⟩, h.executor, h.best, h.pop⟩
    have := Cfg.fits_tame.1 h.fits.1
    refine Cfg.fits_tame.2 ?_
    unfold Cfg.Fits at this ⊢
    cases hch : c.checker <;> simp only [hch] at this ⊢ <;> omega
  suffices hs : ∃ r ks, shouldTerminate c gen s = (r, { s with checkers := ks }) ∧ ks.length = s.checkers.length ∧ ∀ k ∈ ks, K k by
    obtain ⟨r, ks, h1, h2, h3⟩ := hs
    cases r with
    | ok b => exact .inl ⟨b, _, h1, key ks h2 h3⟩
    | error e => exact .inr ⟨e, _, h1, (key ks h2 h3).reopened⟩
  have hfits := Cfg.fits_tame.1 h.fits.1
  have hst := h.fits.2
  obtain ⟨b, x, hb, hx⟩ := h.best
  obtain ⟨is, hi, hn, -, -, hev, -⟩ := h.pop
  have hne : is ≠ [] := by
    rintro rfl
    have := hc.popSize
    simp at hn
    omega
  have hcon : ∀ k, K k → Consulted c.size sub.hib K k s.w.heap s.inds s.bestOfRun := by
    intro k hk
    rw [hdir]
    exact ⟨hk, s.w, is, b, x, rfl, hi, hne, hev, hb, hx⟩
  unfold Cfg.HoldsStates at hK
  unfold Cfg.Fits at hfits
  unfold shouldTerminate
  cases hch : c.checker with
  | none => exact ⟨.ok false, s.checkers, rfl, rfl, hst⟩
  | one t =>
    rw [hch] at hfits hK
    dsimp only at hfits
    cases hks : s.checkers with
    | nil => rw [hks] at hfits; simp at hfits
    | cons k ks =>
      rw [hks] at hst
      have h1 := hK t (by simp [Checkers.all]) k s.w.heap s.inds s.bestOfRun gen (hcon k (hst k (by simp)))
      refine ⟨_, _, rfl, rfl, fun j hj => ?_⟩
      rcases List.mem_cons.1 hj with rfl | hj
      · exact h1
      · exact hst j (by simp [hj])
  | many ts =>
    rw [hch] at hK
    obtain ⟨h1, h2⟩ := consult_holds (gen := gen) ts (by simpa [Checkers.all] using hK) s.checkers hst hcon
    dsimp only
    cases hq : consult s.w.heap s.inds s.bestOfRun gen ts s.checkers with
    | mk q ks' =>
      rw [hq] at h1 h2
      cases q with
      | error e => exact ⟨_, _, rfl, h1, h2⟩
      | ok bs => exact ⟨_, _, rfl, h1, h2⟩

theorem Ends.modify {f : Run G κ → Run G κ} {Q : Unit → Run G κ → Prop} {R : Run G κ → Prop} {s : Run G κ} (h : Q () (f s)) :
    Ends (PyM.modify f) Q R s := .inl ⟨(), f s, rfl, h⟩

theorem mainLoop_ends (hsub : c.subs = [sub]) (hc : (c.tame P sub.hib K).Sound P (sub.tame P) m K)
    (hK : c.HoldsStates sub.hib K) (n gen : Nat) {s : Run G κ} (h : Living K P (c.tame P sub.hib K) (sub.tame P) m s) :
    Ends (mainLoop c n gen) (fun _ s' => Living K P (c.tame P sub.hib K) (sub.tame P) m s')
      (fun s' => s'.Reopened P c sub m K) s := by
  induction n generalizing gen s with
  | zero => exact .inl ⟨(), s, rfl, h⟩
  | succ n ih =>
    unfold mainLoop
    refine Ends.bind (Ends.modify (Q := fun _ s' => Living K P (c.tame P sub.hib K) (sub.tame P) m s')
      ⟨h.fits, h.executor, h.best, h.pop⟩) fun _ s₁ h1 => ?_
    refine Ends.bind (updateGen_total h1 gen).ends fun _ s₂ h2 => ?_
    refine Ends.bind (Q := fun a s' => a = s₂ ∧ s' = s₂) (.inl ⟨s₂, s₂, rfl, rfl, rfl⟩) ?_
    rintro _ _ ⟨rfl, rfl⟩
    refine Ends.bind (Ends.modify (Q := fun _ s' => Living K P (c.tame P sub.hib K) (sub.tame P) m s')
      ⟨h2.fits, h2.executor, h2.best, h2.pop⟩) fun _ s₃ h3 => ?_
    refine Ends.bind (Ends.modify (Q := fun _ s' => Living K P (c.tame P sub.hib K) (sub.tame P) m s')
      ⟨h3.fits, h3.executor, h3.best, h3.pop⟩) fun _ s₄ h4 => ?_
    refine Ends.bind (generation_ends hsub hc h4) fun _ s₅ h5 => ?_
    refine Ends.bind (shouldTerminate_ends hc hK h5 gen) fun stop s₆ h6 => ?_
    split
    · refine Ends.bind (Ends.modify (Q := fun _ s' => Living K P (c.tame P sub.hib K) (sub.tame P) m s')
        ⟨h6.fits, h6.executor, h6.best, h6.pop⟩) fun _ s₇ h7 => ?_
      exact Ends.modify (h7.push _ _)
    · refine Ends.bind (Ends.modify (Q := fun _ s' => Living K P (c.tame P sub.hib K) (sub.tame P) m s') (h6.push _ _))
        fun _ s₇ h7 => ih _ h7

theorem createPopulation_open (hsub : c.subs = [sub]) (hc : (c.tame P sub.hib K).Sound P (sub.tame P) m K) {s : Run G κ}
    (ho : s.Open P c sub m K) : wp (createPopulation c) (fun _ s' => s'.Reopened P c sub m K) s := by
  rw [← createPopulation_tame (P := P) (hib := sub.hib) (K := K) hsub]
  unfold createPopulation
  rw [wp_bind, wp_get, wp_bind]
  refine wp_world ?_
  obtain ⟨o, hi, hgood⟩ : ∃ o, s.inds = [o] ∧ ∀ is, o = some is → is.Nodup ∧ (∀ r ∈ is, modeAt s.w r = some m) ∧
      is.length = sub.popSize ∧ Carry P s.w.heap is := by
    rcases ho.ready with h | ⟨is, h, h1, h2⟩
    · exact ⟨none, h, by simp⟩
    · refine ⟨some is, h, ?_⟩
      rintro is' h'
      cases h'
      exact ⟨h1, h2, ho.given is (by rw [h]; simp)⟩
  rw [hc.subs, hi]
  show wp (mapL _ [(sub.tame P, o)]) _ _
  unfold mapL
  rw [wp_bind]
  refine (createSub_total hc o (w := s.w) hgood).mono ?_
  rintro res w ⟨is, rfl, hnd, hm, hn, hcar⟩
  unfold mapL
  rw [wp_bind, wp_pure, wp_pure, wp_modify]
  refine ⟨⟨.inr ⟨is, rfl, hnd, hm⟩, ?_, ho.fits, ho.executor, ho.states⟩, is, rfl⟩
  intro is' his
  simp only [List.mem_singleton, Option.some.injEq] at his
  subst his
  exact ⟨hn, hcar⟩

theorem initRun_ends (hsub : c.subs = [sub]) (hc : (c.tame P sub.hib K).Sound P (sub.tame P) m K) {s : Run G κ}
    (ho : s.Open P c sub m K) :
    Ends (initRun c) (fun _ s' => Living K P (c.tame P sub.hib K) (sub.tame P) m s') (fun s' => s'.Reopened P c sub m K) s := by
  have h0 : ({ s with w := { s.w with tape := c.stream s.randomSeed } } : Run G κ).Open P c sub m K :=
    ⟨ho.ready, ho.given, ho.fits, ho.executor, ho.states⟩
  obtain ⟨u, s₁, h1, ho1⟩ := createPopulation_open hsub hc h0
  have hpre : initRun c s = (evaluatePopulation c >>= fun b => do
      modify fun s => { s with bestOfRun := some b }
      publish "algorithm" "init") s₁ := by
    unfold initRun
    refine (bind_of_ok (show PyM.get s = (.ok s, s) from rfl)).trans ?_
    refine (bind_of_ok (show setSeed c s.randomSeed s = (.ok (), _) from rfl)).trans ?_
    exact bind_of_ok h1
  cases hr : evaluatePopulation c s₁ with
  | mk r s₂ =>
    cases r with
    | error e =>
      refine .inr ⟨e, s₂, hpre.trans (bind_of_error hr), ho1.of_frame ?_⟩
      have := frame_evaluate c s₁
      rwa [hr] at this
    | ok b =>
      left
      obtain ⟨v, s₃, h3, h4⟩ := initRun_total hc ho.tame
      refine ⟨v, s₃, ?_, h4⟩
      rw [← h3, hpre, bind_of_ok hr]
      have ht : evaluatePopulation (c.tame P sub.hib K) s₁ = (.ok b, s₂) := by
        rcases evaluatePopulation_until (P := P) (hib := sub.hib) (K := K) (B := fun _ => True) hsub (fun _ _ => trivial) s₁ with
          h | ⟨e, s', -, h⟩
        · rw [← h, hr]
        · rw [hr] at h; simp at h
      unfold initRun
      rw [createPopulation_tame hsub]
      symm
      refine (bind_of_ok (show PyM.get s = (.ok s, s) from rfl)).trans ?_
      refine (bind_of_ok (show setSeed (c.tame P sub.hib K) s.randomSeed s = (.ok (), _) from rfl)).trans ?_
      refine (bind_of_ok h1).trans ?_
      exact bind_of_ok ht

theorem evolve_ends (hsub : c.subs = [sub]) (hc : (c.tame P sub.hib K).Sound P (sub.tame P) m K)
    (hK : c.HoldsStates sub.hib K) {s : Run G κ} (ho : s.Open P c sub m K) :
    Ends (evolve c) (fun _ s' => s'.shutdown = true) (fun s' => s'.Reopened P c sub m K) s := by
  unfold evolve
  refine Ends.bind (initRun_ends hsub hc ho) fun _ s₁ h1 => ?_
  refine Ends.bind (Q := fun _ s' => Living K P (c.tame P sub.hib K) (sub.tame P) m s') ?_ fun _ s₂ h2 => ?_
  · unfold afterInit
    refine Ends.bind (Q := fun a s' => a = s₁ ∧ s' = s₁) (.inl ⟨s₁, s₁, rfl, rfl, rfl⟩) ?_
    rintro _ _ ⟨rfl, rfl⟩
    refine Ends.bind (shouldTerminate_ends hc hK h1 _) fun stop s₃ h3 => ?_
    split
    · refine Ends.bind (Ends.modify (Q := fun _ s' => Living K P (c.tame P sub.hib K) (sub.tame P) m s')
        ⟨h3.fits, h3.executor, h3.best, h3.pop⟩) fun _ s₇ h7 => ?_
      exact Ends.modify (h7.push _ _)
    · exact mainLoop_ends hsub hc hK _ _ h3
  · refine Ends.bind (Ends.modify (Q := fun _ _ => True) trivial) fun _ s₃ _ => ?_
    exact Ends.modify rfl

/-- **C159** for any representation: a run that raised can be started again, with the population it had. -/
theorem C159_reopens {CR : (Nat → Bool → WM G (List Nat)) → Prop} {OP : Op G → Prop} (h : c.BuiltWith sub m CR OP)
    (hf : c.Fitting sub) (hcg : ∀ create, CR create → CreatorGood m create)
    (hcw : ∀ create, CR create → CreatorWorks P sub.popSize sub.hib create)
    (hog : ∀ o, OP o → o.Good) (hop : ∀ o, OP o → o.Preserves P) (how : ∀ o, OP o → o.WorksOn P) {s : Run G κ}
    (hK : c.HoldsStates sub.hib K) (ho : s.Open P c sub m K) {e : Err} {s' : Run G κ} (hr : evolve c s = (.error e, s')) :
    s'.Reopened P c sub m K := by
  rcases evolve_ends h.subs (h.tame.sound (hf.smooth (P := P) hK.keeps fun _ h => h) hcg hcw hog hop how) hK ho with
    ⟨_, _, h1, -⟩ | ⟨_, _, h1, h2⟩
  · rw [hr] at h1; simp at h1
  · rw [hr] at h1
    cases h1
    exact h2

/-- The state after an exception, with other termination checkers, is one in which another configuration for a population of
the same size can be run. -/
theorem Run.Reopened.repaired {κ' : Type} {K' : κ' → Prop} {s : Run G κ} (h : s.Reopened P c sub m K) {c' : Cfg G κ'} {sub' : SubCfg G}
    (hn : sub'.popSize = sub.popSize) {ks : List κ'} (hks : c'.Fits ks) (hK : ∀ k ∈ ks, K' k) :
    ({ s with checkers := ks } : Run G κ').Open P c' sub' m K' :=
  ⟨h.1.ready, by rw [hn]; exact h.1.given, hks, h.1.executor, hK⟩

end Verif.Evo

namespace Verif.GA
open PyM Verif.Evo
variable {κ κ' : Type} {K : κ → Prop} {K' : κ' → Prop} {kind : Kind} {bounds : Bounds} {length : Nat} {m : Mode}

/-- **C159** for vectors: after an exception the executor is open and the population is one of legal vectors.  With an
evaluator and checkers that raise nothing the next call of `evolve` completes. -/
theorem C159_vectors_partial (hb : bounds.Proper kind length) {c : Evo.Cfg Vec κ} {sub : SubCfg Vec}
    (h : c.BuiltWith sub m (LibCreator kind bounds length m) (PairedOp kind length)) (hf : c.Fitting sub) {s : Run Vec κ}
    (hK : c.HoldsStates sub.hib K) (ho : s.Open (Legal kind bounds length) c sub m K) {e : Err} {s' : Run Vec κ}
    (hr : evolve c s = (.error e, s')) :
    (s'.shutdown = false ∧ ∃ is, s'.inds = [some is] ∧ is.length = sub.popSize ∧ is.Nodup ∧
      Carry (Legal kind bounds length) s'.w.heap is) ∧
    ∀ (c' : Evo.Cfg Vec κ') (sub' : SubCfg Vec) (ks : List κ'),
      c'.BuiltWith sub' m (LibCreator kind bounds length m) (PairedOp kind length) →
      c'.Smooth (Legal kind bounds length) sub' K' → sub'.popSize = sub.popSize → c'.Fits ks → (∀ k ∈ ks, K' k) →
      ∃ s'', evolve c' { s' with checkers := ks } = (.ok (), s'') ∧ Completed (Legal kind bounds length) c' sub' m s'' := by
  have hre := C159_reopens h hf (fun _ h => h.good hb) (fun _ h => h.works hb _ _) (fun _ h => h.1.good)
    (fun _ h => h.1.preserves hb) (fun _ h => h.worksOn hb) hK ho hr
  refine ⟨⟨hre.1.executor, ?_⟩, fun c' sub' ks h' hs' hn hks hk => C80_vectors hb h' hs' (hre.repaired hn hks hk)⟩
  obtain ⟨is, hi⟩ := hre.2
  obtain ⟨h1, h2⟩ := hre.1.given is (by rw [hi]; simp)
  refine ⟨is, hi, h1, ?_, h2⟩
  rcases hre.1.ready with h | ⟨is', h3, h4, -⟩
  · rw [hi] at h; simp at h
  · rw [hi] at h3
    simp only [List.cons.injEq, Option.some.injEq, and_true] at h3
    rwa [h3]

end Verif.GA

namespace Verif.GP
open PyM Verif.Evo
variable {κ κ' : Type} {K : κ → Prop} {K' : κ' → Prop} {cfg : GP.Cfg} {m : Mode}

/-- **C159** for programs. -/
theorem C159_programs_partial (hp : cfg.Plain) {c : Evo.Cfg GP.Ind κ} {sub : SubCfg GP.Ind}
    (h : c.BuiltWith sub m (SizedCreator cfg m sub.popSize) LibOp) (hf : c.Fitting sub) {s : Run GP.Ind κ}
    (hK : c.HoldsStates sub.hib K) (ho : s.Open (PlainLegal cfg) c sub m K) {e : Err} {s' : Run GP.Ind κ}
    (hr : evolve c s = (.error e, s')) :
    (s'.shutdown = false ∧ ∃ is, s'.inds = [some is] ∧ is.length = sub.popSize ∧ is.Nodup ∧
      Carry (PlainLegal cfg) s'.w.heap is) ∧
    ∀ (c' : Evo.Cfg GP.Ind κ') (sub' : SubCfg GP.Ind) (ks : List κ'),
      c'.BuiltWith sub' m (SizedCreator cfg m sub'.popSize) LibOp →
      c'.Smooth (Legal cfg) sub' K' → sub'.popSize = sub.popSize → c'.Fits ks → (∀ k ∈ ks, K' k) →
      ∃ s'', evolve c' { s' with checkers := ks } = (.ok (), s'') ∧ Completed (Legal cfg) c' sub' m s'' := by
  have ha : ∀ o ∈ sub.ops, o.arity ≠ 0 := fun o ho =>
    (hf.arities o.arity (List.mem_append_right _ (List.mem_map_of_mem ho))).1
  have h' : c.BuiltWith sub m (SizedCreator cfg m sub.popSize) fun o => LibOp o ∧ o.arity ≠ 0 :=
    { h with ops := fun o ho => ⟨h.ops o ho, ha o ho⟩ }
  have hre := C159_reopens h' hf (fun _ h => h.lib.good) (fun _ h => h.works hp _) (fun _ h => h.1.good)
      (fun _ h => h.1.preserves_plain hp) (fun _ h => h.1.worksOn hp h.2) hK ho hr
  refine ⟨⟨hre.1.executor, ?_⟩, fun c' sub' ks h' hs' hn hks hk => C80_programs hp h' hs' (hre.repaired hn hks hk)⟩
  obtain ⟨is, hi⟩ := hre.2
  obtain ⟨h1, h2⟩ := hre.1.given is (by rw [hi]; simp)
  refine ⟨is, hi, h1, ?_, h2⟩
  rcases hre.1.ready with h | ⟨is', h3, h4, -⟩
  · rw [hi] at h; simp at h
  · rw [hi] at h3
    simp only [List.cons.injEq, Option.some.injEq, and_true] at h3
    rwa [h3]

end Verif.GP

/-! ## What a second call does not keep -/

namespace Verif.GA
open PyM Verif.Evo

theorem raised {σ α : Type} {m : PyM σ α} {s : σ} {e : Err} (h : (m s).1 = .error e) : m s = (.error e, (m s).2) :=
  Prod.ext h rfl

/-- `best_of_run_.get_pure_fitness()`. -/
def bestValue (s : Run Vec Unit) : Option ℚ :=
  s.bestOfRun.bind fun b => (s.w.heap[b]?).bind fun (i : Evo.Ind Vec) =>
    match i.fit.getPure with
    | .ok (.num q) => some q
    | _ => none

/-- No elites; the score is the negated first number. -/
def exRetrySub : SubCfg Vec := { exLibSub with nElite := 0, evaluate := fun v => pure (-(v.vector.headD 0)) }

/-- The checker raises in generation 1. -/
def exRetryCfg : Evo.Cfg Vec Unit :=
  { exLibCfg with subs := [exRetrySub], maxGen := 1, checker := .one fun k _ _ _ gen => if gen = 1 then (.error (.user 8), k) else (.ok false, k) }

/-- The same without the checker. -/
def exRetryFixed : Evo.Cfg Vec Unit := { exRetryCfg with checker := .none }

def exRetryRun : Run Vec Unit := { exLibRun with checkers := [()], randomSeed := 2, genSeed := 2 }

theorem exRetry_built : exRetryCfg.BuiltWith exRetrySub ⟨true, none⟩ (LibCreator .float (.tup [0, 1]) 3 ⟨true, none⟩)
    (PairedOp .float 3) :=
  ⟨rfl, rfl, exLibCfg_built.creators, exLibCfg_built.sels, exBlame_built.ops, exLibCfg_built.sched, rfl⟩

theorem exRetryFixed_built : exRetryFixed.BuiltWith exRetrySub ⟨true, none⟩ (LibCreator .float (.tup [0, 1]) 3 ⟨true, none⟩)
    (PairedOp .float 3) :=
  ⟨rfl, rfl, exLibCfg_built.creators, exLibCfg_built.sels, exBlame_built.ops, exLibCfg_built.sched, rfl⟩

theorem exRetry_fitting : exRetryCfg.Fitting exRetrySub :=
  ⟨exBlame_fitting.popSize, exBlame_fitting.arities, exBlame_fitting.pick, exBlame_fitting.select⟩

theorem exRetryFixed_smooth : exRetryFixed.Smooth (Legal .float (.tup [0, 1]) 3) exRetrySub (fun _ : Unit => True) :=
  ⟨exBlame_fitting.popSize, exBlame_fitting.arities, exBlame_fitting.pick, exBlame_fitting.select,
    fun _ _ t => ⟨_, t, rfl⟩, trivial⟩

theorem exRetry_open : exRetryRun.Open (Legal .float (.tup [0, 1]) 3) exRetryCfg exRetrySub ⟨true, none⟩ :=
  ⟨.inl rfl, by simp [exRetryRun, exLibRun], rfl, rfl, fun _ _ => trivial⟩

theorem exRetry_raises : evolve exRetryCfg exRetryRun = (.error (.user 8), (evolve exRetryCfg exRetryRun).2) :=
  raised (by decide +kernel)

/-- The run of `exRetryCfg` raises and is then completed without the checker. -/
theorem exRetry_completes : ∃ s'', evolve exRetryFixed { (evolve exRetryCfg exRetryRun).2 with checkers := [] } = (.ok (), s'') ∧
    Completed (Legal .float (.tup [0, 1]) 3) exRetryFixed exRetrySub ⟨true, none⟩ s'' :=
  (C159_vectors_partial (K := fun _ => True) (K' := fun _ => True) exLib_proper exRetry_built exRetry_fitting
    (fun _ _ _ _ _ _ _ _ => trivial) exRetry_open exRetry_raises).2 exRetryFixed exRetrySub [] exRetryFixed_built
    exRetryFixed_smooth rfl trivial (by simp)

theorem exRetry_second : evolve exRetryFixed { (evolve exRetryCfg exRetryRun).2 with checkers := [] } =
    (.ok (), (evolve exRetryFixed { (evolve exRetryCfg exRetryRun).2 with checkers := [] }).2) :=
  ran (by decide +kernel)

theorem exRetry_before : bestValue (evolve exRetryCfg exRetryRun).2 = some (-1 / 2) := by decide +kernel

theorem exRetry_after :
    bestValue (evolve exRetryFixed { (evolve exRetryCfg exRetryRun).2 with checkers := [] }).2 = some (-2307 / 2405) := by
  decide +kernel

/-- **C159**, refuted part: the second call forgets the best individual of the first one.  A library-built run is interrupted by
its checker; without the checker, and with the same evaluator, the next call ends with a worse `best_of_run_`. -/
theorem C159_refuted : ∃ (c : Evo.Cfg Vec Unit) (sub : SubCfg Vec) (s s' s'' : Run Vec Unit) (x x' : ℚ),
    c.BuiltWith sub ⟨true, none⟩ (LibCreator .float (.tup [0, 1]) 3 ⟨true, none⟩) (PairedOp .float 3) ∧ c.Fitting sub ∧
    s.Open (Legal .float (.tup [0, 1]) 3) c sub ⟨true, none⟩ ∧ evolve c s = (.error (.user 8), s') ∧
    evolve { c with checker := .none } { s' with checkers := [] } = (.ok (), s'') ∧
    bestValue s' = some x ∧ bestValue s'' = some x' ∧ x' < x :=
  ⟨exRetryCfg, exRetrySub, exRetryRun, _, _, -1 / 2, -2307 / 2405, exRetry_built, exRetry_fitting, exRetry_open, exRetry_raises,
    exRetry_second, exRetry_before, exRetry_after, by norm_num⟩

end Verif.GA

namespace Verif.GP
open PyM Verif.Evo

/-- The run of `exBlameCfg`, whose evaluator raises, completes when the evaluator is replaced. -/
example : ∃ s'', evolve exLibCfg { (evolve exBlameCfg exLibRun).2 with checkers := [] } = (.ok (), s'') ∧
    Completed (Legal Sample.cfg) exLibCfg exLibSub ⟨true, none⟩ s'' :=
  (C159_programs_partial (K := fun _ => True) (K' := fun _ => True) exPlain exBlame_built exBlame_fitting
    (fun _ _ _ _ _ _ _ _ => trivial) exBlame_open
    (GA.raised (by decide +kernel : (evolve exBlameCfg exLibRun).1 = .error .zeroDivisionError))).2 exLibCfg exLibSub []
    exLibCfg_sized exLibCfg_smooth rfl trivial (by simp)

end Verif.GP
