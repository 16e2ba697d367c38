import Verif.Model.NSGA2Evolution
import Verif.Props.NSGA2Sorting
import Verif.Lemmas.Run

/-! # Lemmas about NSGA-II breeding and evaluation -/

namespace Verif.Moo
open PyM
variable {G : Type} {m : Nat} {ds : List Bool} {s s' : MWorld G}

/-- The fitness object compares `m` objectives in the directions `ds` (a single bool stands for all of them). -/
def DirOk (m : Nat) (ds : List Bool) (f : Fit) : Prop := f.dirs.fit m = .each ds

/-- All individuals created so far do. -/
def AllDir (m : Nat) (ds : List Bool) (s : MWorld G) : Prop := ∀ r < s.next, DirOk m ds (s.fits r)

/-- References to existing individuals. -/
def Exist (s : MWorld G) (refs : List Nat) : Prop := ∀ r ∈ refs, r < s.next

/-- Contract of a genetic operator: it returns as many individuals as it is given, distinct ones if it is given
distinct ones, each a given one or a new one, and it does not change the directions of fitness objects. -/
def MOp.Good (o : MOp G) : Prop :=
  ∀ m ds refs s, Exist s refs → AllDir m ds s → wlp (o.apply refs) (fun res s' =>
    s.next ≤ s'.next ∧ AllDir m ds s' ∧ ∀ l, res = some l → l.length = refs.length ∧
      (∀ r ∈ l, (r ∈ refs ∨ s.next ≤ r) ∧ r < s'.next) ∧ (refs.Nodup → l.Nodup)) s

/-- Contract of a selection method: it fills the destination up to the size of the source with new individuals,
and does not change the directions of fitness objects. -/
def MSel.Good (sel : MSel G) : Prop :=
  ∀ m ds source dest s, Exist s source → AllDir m ds s → wlp (sel.select source dest) (fun res s' =>
    s.next ≤ s'.next ∧ AllDir m ds s' ∧ ∃ new, res = dest ++ new ∧ new.Nodup ∧
      new.length = source.length - dest.length ∧ ∀ r ∈ new, s.next ≤ r ∧ r < s'.next) s

/-- Contract of an evaluator: it returns `m` objectives, if it returns. -/
def MSub.Evaluates (c : MSub G) (m : Nat) : Prop := ∀ g t, wlp (c.evaluate g) (fun v _ => v.length = m) t

/-- `n` distinct existing individuals, each one of `inds0` or created after `b₀`. -/
structure Herd (inds0 : List Nat) (b₀ n m : Nat) (ds : List Bool) (s : MWorld G) (inds : List Nat) : Prop where
  length : inds.length = n
  nodup : inds.Nodup
  exist : Exist s inds
  dirs : AllDir m ds s
  base : b₀ ≤ s.next
  mem : ∀ r ∈ inds, r ∈ inds0 ∨ b₀ ≤ r

theorem wlp_mrand {α : Type} {x : Rand α} {Q : α → MWorld G → Prop} :
    wlp (mrand x) Q s ↔ wlp x (fun a t => Q a { s with tape := t }) s.tape := wlp_zoom

theorem wlp_setFit {r : Nat} {f : Fit} {Q : Unit → MWorld G → Prop} :
    wlp (setFit r f) Q s ↔ Q () { s with fits := fun x => if x = r then f else s.fits x } := wlp_modify

theorem wlp_resetFit {r : Nat} {Q : Unit → MWorld G → Prop} :
    wlp (resetFit r) Q s ↔ Q () { s with fits := fun x => if x = r then (s.fits r).reset else s.fits x } := by
  unfold resetFit
  rw [wlp_bind, wlp_get, wlp_setFit]

theorem DirOk.reset {f : Fit} (h : DirOk m ds f) : DirOk m ds f.reset := h

theorem DirOk.copy {f : Fit} (h : DirOk m ds f) : DirOk m ds f.copy := by
  unfold Fit.copy
  split
  · exact h
  · exact h

theorem resets_wlp {refs : List Nat} (hd : AllDir m ds s) :
    wlp (forL resetFit refs) (fun _ s' => s'.next = s.next ∧ s'.genome = s.genome ∧ AllDir m ds s' ∧
      (∀ r ∈ refs, (s'.fits r).objs = none) ∧ ∀ r, r ∉ refs → s'.fits r = s.fits r) s := by
  refine wlp_forL (I := fun pre s' => s'.next = s.next ∧ s'.genome = s.genome ∧ AllDir m ds s' ∧
      (∀ r ∈ pre, (s'.fits r).objs = none) ∧ ∀ r, r ∉ pre → s'.fits r = s.fits r)
    ⟨rfl, rfl, hd, by simp, fun _ _ => rfl⟩ ?_
  rintro pre x post s₁ _ ⟨h1, h1', h2, h3, h4⟩
  rw [wlp_resetFit]
  refine ⟨h1, h1', fun r hr => ?_, fun r hr => ?_, fun r hr => ?_⟩
  · dsimp only
    split
    · rename_i he; subst he; exact (h2 r hr).reset
    · exact h2 r hr
  · dsimp only
    split
    · rfl
    · simp only [List.mem_append, List.mem_singleton] at hr
      exact h3 r (hr.resolve_right (by assumption))
  · simp only [List.mem_append, List.mem_singleton, not_or] at hr
    dsimp only
    rw [if_neg hr.2, h4 r hr.1]

theorem cloneM_wlp {r : Nat} {Q : Nat → MWorld G → Prop}
    (h : ∀ s', s'.next = s.next + 1 → (∀ x, x ≠ s.next → s'.fits x = s.fits x) → s'.fits s.next = (s.fits r).copy →
      (∀ x, x ≠ s.next → s'.genome x = s.genome x) → s'.genome s.next = s.genome r → s'.tape = s.tape →
      Q s.next s') : wlp (cloneM r) Q s := by
  unfold cloneM
  rw [wlp_bind, wlp_get, wlp_bind, wlp_set]
  rw [show (PyM.pure s.next : MM G Nat) = pure s.next from rfl, wlp_pure]
  refine h _ rfl ?_ ?_ ?_ ?_ rfl
  · intro x hx; dsimp only; rw [if_neg hx]
  · dsimp only; rw [if_pos rfl]
  · intro x hx; dsimp only; rw [if_neg hx]
  · dsimp only; rw [if_pos rfl]

theorem clones_wlp {refs : List Nat} (hx : Exist s refs) (hd : AllDir m ds s) :
    wlp (mapL cloneM refs) (fun l s' => l.length = refs.length ∧ l.Nodup ∧ s.next ≤ s'.next ∧ AllDir m ds s' ∧
      (∀ r ∈ l, s.next ≤ r ∧ r < s'.next) ∧ ∀ r < s.next, s'.fits r = s.fits r ∧ s'.genome r = s.genome r) s := by
  refine wlp_mapL (I := fun pre l s' => l.length = pre.length ∧ l.Nodup ∧ s.next ≤ s'.next ∧ AllDir m ds s' ∧
      (∀ r ∈ l, s.next ≤ r ∧ r < s'.next) ∧ ∀ r < s.next, s'.fits r = s.fits r ∧ s'.genome r = s.genome r)
    ⟨rfl, List.nodup_nil, le_refl _, hd, by simp, fun _ _ => ⟨rfl, rfl⟩⟩ ?_
  rintro pre x post l s₁ hsplit ⟨h1, h2, h3, h4, h5, h6⟩
  have hxs : x < s₁.next := lt_of_lt_of_le (hx x (by rw [hsplit]; simp)) h3
  refine cloneM_wlp fun s₂ e1 e2 e3 e4 e5 _ => ⟨by simp [h1], ?_, by omega, fun r hr => ?_, fun r hr => ?_, fun r hr => ?_⟩
  · rw [List.nodup_append]
    refine ⟨h2, by simp, fun a ha b hb hab => ?_⟩
    simp only [List.mem_singleton] at hb
    have := (h5 a ha).2
    omega
  · by_cases he : r = s₁.next
    · rw [he, e3]; exact (h4 x hxs).copy
    · rw [e2 r he]; exact h4 r (by omega)
  · simp only [List.mem_append, List.mem_singleton] at hr
    rcases hr with hr | rfl
    · have := h5 r hr; omega
    · omega
  · rw [e2 r (by omega), e4 r (by omega)]; exact h6 r hr

theorem applyOp_wlp {o : MOp G} (ho : o.Good) {refs : List Nat} (hx : Exist s refs) (hd : AllDir m ds s) :
    wlp (applyOp o refs) (fun l s' => s.next ≤ s'.next ∧ AllDir m ds s' ∧ l.length = refs.length ∧
      (∀ r ∈ l, (r ∈ refs ∨ s.next ≤ r) ∧ r < s'.next) ∧ (refs.Nodup → l.Nodup)) s := by
  unfold applyOp
  rw [wlp_bind, wlp_mrand]
  intro u t _
  rw [wlp_ite]
  refine ⟨fun _ => ?_, fun _ => ?_⟩
  · rw [wlp_bind]
    refine (resets_wlp (s := { s with tape := t }) (m := m) (ds := ds) hd).mono ?_
    rintro _ s₁ ⟨e1, -, e2, -, -⟩
    rw [wlp_bind]
    have e1' : s₁.next = s.next := e1
    refine (ho m ds refs s₁ (fun r hr => by rw [e1']; exact hx r hr) e2).mono ?_
    rintro res s₂ ⟨g1, g2, g3⟩
    cases res with
    | none => simp
    | some l =>
      dsimp only
      rw [show (PyM.pure l : MM G _) = pure l from rfl, wlp_pure]
      obtain ⟨k1, k2, k3⟩ := g3 l rfl
      rw [e1'] at g1 k2
      exact ⟨g1, g2, k1, k2, k3⟩
  · rw [show (PyM.pure refs : MM G _) = pure refs from rfl, wlp_pure]
    exact ⟨le_refl _, hd, rfl, fun r hr => ⟨.inl hr, hx r hr⟩, id⟩

theorem applyOp_herd {inds0 : List Nat} {b₀ n : Nat} {o : MOp G} (ho : o.Good) {inds : List Nat}
    (hb : Herd inds0 b₀ n m ds s inds) (a b : Int) :
    wlp (applyOp o (Py.slice inds a b)) (fun res s' => Herd inds0 b₀ n m ds s' (Py.setSlice inds a b res)) s := by
  obtain ⟨A, C, hsplit, hset⟩ := Evo.slice_split inds a b
  set sl := Py.slice inds a b with hsl
  have hsub : ∀ r ∈ sl, r ∈ inds := fun r hr => by rw [hsplit]; simp [hr]
  have hnd := hb.nodup
  rw [hsplit, List.nodup_append, List.nodup_append] at hnd
  obtain ⟨⟨hA, hsl', hAsl⟩, hC, hAC⟩ := hnd
  refine (applyOp_wlp ho (fun r hr => hb.exist r (hsub r hr)) hb.dirs).mono ?_
  rintro l s' ⟨e1, e2, hlen, hin, hnodup⟩
  rw [hset]
  have hAv : ∀ r ∈ A, r ∈ inds ∧ r ∉ sl := fun r hr =>
    ⟨by rw [hsplit]; simp [hr], fun h => hAsl r hr r h rfl⟩
  have hCv : ∀ r ∈ C, r ∈ inds ∧ r ∉ sl := fun r hr =>
    ⟨by rw [hsplit]; simp [hr], fun h => hAC r (by simp [h]) r hr rfl⟩
  have hout : ∀ r, r ∈ inds → r ∉ sl → r ∉ l := by
    intro r hr hn hl
    rcases (hin r hl).1 with h | h
    · exact hn h
    · have := hb.exist r hr; omega
  refine ⟨?_, ?_, ?_, e2, by have := hb.base; omega, ?_⟩
  · have := hb.length
    rw [hsplit] at this
    simp only [List.length_append] at this ⊢
    omega
  · rw [List.nodup_append, List.nodup_append]
    refine ⟨⟨hA, hnodup hsl', ?_⟩, hC, ?_⟩
    · rintro x hx y hy rfl; exact hout x (hAv x hx).1 (hAv x hx).2 hy
    · rintro x hx y hy rfl
      simp only [List.mem_append] at hx
      rcases hx with hx | hx
      · exact hAC x (by simp [hx]) x hy rfl
      · exact hout x (hCv x hy).1 (hCv x hy).2 hx
  · intro r hr
    simp only [List.mem_append] at hr
    rcases hr with (hr | hr) | hr
    · exact lt_of_lt_of_le (hb.exist r (hAv r hr).1) e1
    · exact (hin r hr).2
    · exact lt_of_lt_of_le (hb.exist r (hCv r hr).1) e1
  · intro r hr
    simp only [List.mem_append] at hr
    rcases hr with (hr | hr) | hr
    · exact hb.mem r (hAv r hr).1
    · rcases (hin r hr).1 with h | h
      · exact hb.mem r (hsub r h)
      · exact .inr (le_trans hb.base h)
    · exact hb.mem r (hCv r hr).1

theorem applyChunksM_herd {inds0 : List Nat} {b₀ n : Nat} {o : MOp G} (ho : o.Good) (is : List Nat)
    {inds : List Nat} (hb : Herd inds0 b₀ n m ds s inds) :
    wlp (applyChunksM o is inds) (fun res s' => Herd inds0 b₀ n m ds s' res) s := by
  induction is generalizing s inds with
  | nil => unfold applyChunksM; exact wlp_pure.2 hb
  | cons i is ih =>
    unfold applyChunksM
    rw [wlp_bind]
    exact (applyOp_herd ho hb _ _).mono fun res s' h => ih h

theorem applyOps_herd {inds0 : List Nat} {b₀ n : Nat} (os : List (MOp G)) (ho : ∀ o ∈ os, o.Good)
    {inds : List Nat} (hb : Herd inds0 b₀ n m ds s inds) :
    wlp (applyOps os inds) (fun res s' => Herd inds0 b₀ n m ds s' res) s := by
  induction os generalizing s inds with
  | nil => unfold applyOps; exact wlp_pure.2 hb
  | cons o os ih =>
    unfold applyOps
    rw [wlp_ite]
    refine ⟨fun _ => by simp, fun _ => ?_⟩
    rw [wlp_bind]
    exact (applyChunksM_herd (ho o (by simp)) _ hb).mono fun res s' h =>
      ih (fun o ho' => ho o (by simp [ho'])) h

theorem lexKeys_fst {h : Heap} {rs : List Nat} {ks : List (Nat × List ℚ)} (hk : lexKeys h rs = .ok ks) :
    ks.map Prod.fst = rs := by
  induction rs generalizing ks with
  | nil => simp only [lexKeys, Except.ok.injEq] at hk; subst hk; rfl
  | cons r rs ih =>
    unfold lexKeys at hk
    cases hp : (h r).pure with
    | error e => rw [hp] at hk; simp at hk
    | ok v =>
      rw [hp] at hk
      dsimp only at hk
      cases hr : lexKeys h rs with
      | error e => rw [hr] at hk; simp at hk
      | ok l =>
        rw [hr] at hk
        simp only [Except.ok.injEq] at hk
        subst hk
        simp [ih hr]

/-- The elites: at most as many as there are individuals, all of them new. -/
theorem eliteStageM_wlp {c : MSub G} {inds : List Nat} (hx : Exist s inds) (hd : AllDir m ds s) :
    wlp (eliteStageM c inds) (fun l s' => s.next ≤ s'.next ∧ AllDir m ds s' ∧ l.Nodup ∧ l.length ≤ inds.length ∧
      ∀ r ∈ l, s.next ≤ r ∧ r < s'.next) s := by
  unfold eliteStageM
  rw [wlp_ite]
  refine ⟨fun _ => ?_, fun _ => wlp_pure.2 ⟨le_refl _, hd, List.nodup_nil, by simp, by simp⟩⟩
  unfold elitesM
  rw [wlp_bind, wlp_get, wlp_bind, wlp_ofExcept]
  intro ks hks
  have hfst := lexKeys_fst hks
  dsimp only
  set sorted := (Py.sortBy (fun a b : Nat × List ℚ => if c.hib then lexLe b.2 a.2 else lexLe a.2 b.2) ks).map Prod.fst
    with hs
  have hp : sorted.Perm inds := by
    rw [hs, ← hfst]
    exact (Py.sortBy_perm _ _).map _
  obtain ⟨A, C, hsplit, -⟩ := Evo.slice_split sorted 0 c.nElite
  have hsub : ∀ r ∈ Py.slice sorted 0 c.nElite, r ∈ inds := fun r hr =>
    hp.mem_iff.1 (by rw [hsplit]; simp [hr])
  rw [wlp_bind]
  refine (clones_wlp (fun r hr => hx r (hsub r hr)) hd).mono ?_
  rintro l s₁ ⟨h1, h2, h3, h4, h5, -⟩
  refine wlp_pure.2 ⟨h3, h4, by simpa using h2, ?_, by simpa using h5⟩
  have := hp.length_eq
  rw [hsplit] at this
  simp only [List.length_append] at this
  simp only [List.nil_append, h1]
  omega

/-- `NSGA2Breeder`: twice as many distinct individuals. -/
theorem nsga2Breed_wlp {c : MSub G} (ho : ∀ o ∈ c.ops, o.Good) (hs : ∀ x ∈ c.sels, x.Good) {inds : List Nat}
    (hx : Exist s inds) (hn : inds.Nodup) (hd : AllDir m ds s) :
    wlp (nsga2Breed c inds) (fun l s' => l.length = 2 * inds.length ∧ l.Nodup ∧ Exist s' l ∧ AllDir m ds s') s := by
  unfold nsga2Breed
  rw [wlp_bind]
  refine (eliteStageM_wlp hx hd).mono ?_
  rintro _ s₁ ⟨h1, h2, -, -, -⟩
  rw [wlp_bind]
  have hx1 : Exist s₁ inds := fun r hr => lt_of_lt_of_le (hx r hr) h1
  have key : wlp (createNextGen c inds) (fun p s' => ∃ old, p.2 = old ++ p.1 ∧ old.length = inds.length ∧
      p.1.length = inds.length ∧ (old ++ p.1).Nodup ∧ Exist s' (old ++ p.1) ∧ AllDir m ds s') s₁ := by
    unfold createNextGen
    rw [wlp_bind]
    refine (clones_wlp hx1 h2).mono ?_
    rintro old s₂ ⟨c1, c2, c3, c4, c5, -⟩
    rw [wlp_bind]
    refine (applyOps_herd (inds0 := inds) (b₀ := s₂.next) (n := inds.length) c.ops ho
      ⟨rfl, hn, fun r hr => lt_of_lt_of_le (hx1 r hr) c3, c4, le_refl _, fun r hr => .inl hr⟩).mono ?_
    rintro new s₃ hh
    rw [wlp_bind]
    refine (resets_wlp (m := m) (ds := ds) hh.dirs).mono ?_
    rintro _ s₄ ⟨e1, -, e2, -, -⟩
    refine wlp_pure.2 ⟨old, rfl, c1, hh.length, ?_, ?_, e2⟩
    · rw [List.nodup_append]
      refine ⟨c2, hh.nodup, fun a ha b hb hab => ?_⟩
      subst hab
      have h3 := c5 a ha
      rcases hh.mem a hb with h4 | h4
      · have := hx1 a h4; omega
      · omega
    · intro r hr
      rw [e1]
      rcases List.mem_append.1 hr with hr | hr
      · have h3 := c5 r hr; have h4 := hh.base; omega
      · exact hh.exist r hr
  refine key.mono ?_
  rintro ⟨new, next⟩ s₂ ⟨old, hnext, k1, k2, k3, k4, k5⟩
  dsimp only at hnext k2 k3 k4 ⊢
  subst hnext
  cases hsel : c.sels with
  | nil => simp
  | cons x rest =>
    dsimp only
    refine (hs x (by rw [hsel]; simp) m ds new (old ++ new) s₂ (fun r hr => k4 r (by simp [hr])) k5).mono ?_
    rintro res s₃ ⟨g1, g2, extra, rfl, -, g3, -⟩
    have : extra = [] := by
      rw [List.length_append] at g3
      exact List.length_eq_zero_iff.1 (by omega)
    subst this
    rw [List.append_nil]
    exact ⟨by simp only [List.length_append]; omega, k3, fun r hr => lt_of_lt_of_le (k4 r hr) g1, g2⟩

/-- `SimpleBreeder`: as many distinct individuals. -/
theorem simpleBreed_wlp {c : MSub G} (ho : ∀ o ∈ c.ops, o.Good) (hs : ∀ x ∈ c.sels, x.Good) {inds : List Nat}
    (hx : Exist s inds) (hd : AllDir m ds s) :
    wlp (simpleBreed c inds) (fun l s' => l.length = inds.length ∧ l.Nodup ∧ Exist s' l ∧ AllDir m ds s') s := by
  unfold simpleBreed
  rw [wlp_bind]
  refine (Evo.checkArities_wlp c.popSize _).mono ?_
  rintro _ _ ⟨rfl, -⟩
  rw [wlp_bind]
  refine (eliteStageM_wlp hx hd).mono ?_
  rintro el s₁ ⟨h1, h2, h3, h4, h5⟩
  have hx1 : Exist s₁ inds := fun r hr => lt_of_lt_of_le (hx r hr) h1
  cases hsel : c.sels with
  | nil => simp
  | cons x rest =>
    dsimp only
    rw [wlp_bind]
    refine (hs x (by rw [hsel]; simp) m ds inds el s₁ hx1 h2).mono ?_
    rintro res s₂ ⟨g1, g2, extra, rfl, g3, g4, g5⟩
    refine (applyOps_herd (inds0 := []) (b₀ := 0) (n := inds.length) c.ops ho (s := s₂) ⟨?_, ?_, ?_, g2, by omega, fun r hr => .inr (by omega)⟩).mono ?_
    · rw [List.length_append]; omega
    · rw [List.nodup_append]
      refine ⟨h3, g3, fun a ha b hb hab => ?_⟩
      have := (h5 a ha).2
      have := (g5 b hb).1
      omega
    · intro r hr
      rcases List.mem_append.1 hr with hr | hr
      · exact lt_of_lt_of_le (h5 r hr).2 g1
      · exact (g5 r hr).2
    · intro l s₃ hh
      exact ⟨hh.length, hh.nodup, hh.exist, hh.dirs⟩

/-! ## Evaluation and sorting -/

theorem winner_wlp {b : Nat} {rest : List Nat} :
    wlp (winner b rest) (fun x s' => x ∈ b :: rest ∧ s'.fits = s.fits ∧ s'.genome = s.genome ∧ s'.next = s.next) s := by
  induction rest generalizing b s with
  | nil => unfold winner; exact wlp_pure.2 ⟨by simp, rfl, rfl, rfl⟩
  | cons p ps ih =>
    unfold winner
    rw [wlp_bind, wlp_get, wlp_bind, wlp_mrand]
    intro v t _
    refine ih.mono fun x s' h => ⟨?_, h.2⟩
    have := h.1
    simp only [List.mem_cons] at this ⊢
    rcases this with h | h
    · split at h <;> simp [h]
    · exact .inr (.inr h)

theorem scores_wlp {c : MSub G} (he : c.Evaluates m) (order inds : List Nat) :
    wlp (Evo.executorMap order (runEvalM c) inds) (fun vs s' => (vs.length = inds.length ∧
      (s'.fits = s.fits ∧ s'.genome = s.genome ∧ s'.next = s.next)) ∧ ∀ v ∈ vs, v.length = m) s := by
  have hrun : wlp (Evo.executorMap order (runEvalM c) inds) (fun vs s' => (vs.length = inds.length ∧
      (s'.fits = s.fits ∧ s'.genome = s.genome ∧ s'.next = s.next))) s := by
    refine Evo.executorMap_wlp order inds (I := fun s' : MWorld G => s'.fits = s.fits ∧ s'.genome = s.genome ∧ s'.next = s.next)
      ⟨rfl, rfl, rfl⟩ ?_
    rintro r s₁ h1
    unfold runEvalM
    rw [wlp_bind, wlp_get, wlp_mrand]
    exact fun _ _ _ => h1
  have hlen : wlp (Evo.executorMap order (runEvalM c) inds) (fun vs _ => ∀ v ∈ vs, v.length = m) s := by
    unfold Evo.executorMap
    rw [wlp_bind]
    have h1 : wlp (mapL (Evo.runTask (runEvalM c) inds) order) (fun (rs : List (Nat × List ℚ)) _ => ∀ p ∈ rs, p.2.length = m) s := by
      refine wlp_mapL (I := fun _ (rs : List (Nat × List ℚ)) _ => ∀ p ∈ rs, p.2.length = m) (by simp) ?_
      intro pre i post rs s₁ _ hrs
      unfold Evo.runTask
      cases inds[i]? with
      | none => simp
      | some r =>
        dsimp only
        unfold runEvalM
        rw [wlp_bind, wlp_bind, wlp_get, wlp_mrand]
        refine (he _ _).mono fun v t hv => ?_
        rw [wlp_pure]
        intro p hp
        simp only [List.mem_append, List.mem_singleton] at hp
        rcases hp with hp | rfl
        · exact hrs p hp
        · exact hv
    refine h1.mono fun rs s₁ hrs => ?_
    refine wlp_mapL (I := fun _ (vs : List (List ℚ)) _ => ∀ v ∈ vs, v.length = m) (by simp) ?_
    intro pre i post vs s₂ _ hvs
    unfold Evo.lookupResult
    split
    · rename_i p hp
      rw [wlp_pure]
      intro v hv
      simp only [List.mem_append, List.mem_singleton] at hv
      rcases hv with hv | rfl
      · exact hvs v hv
      · exact hrs p (List.mem_of_find?_eq_some hp)
    · simp
  exact hrun.and hlen

theorem assigns_wlp {inds : List Nat} {vs : List (List ℚ)} {s₁ : MWorld G} (hx : Exist s₁ inds) (hd : AllDir m ds s₁)
    (hds : ds.length = m) (hvs : ∀ v ∈ vs, v.length = m) :
    wlp (forL (fun (p : Nat × List ℚ) => assign p.1 p.2) (inds.zip vs)) (fun _ s' =>
      s'.next = s₁.next ∧ s'.genome = s₁.genome ∧ AllDir m ds s' ∧
      (∀ p ∈ inds.zip vs, ∃ v, (s'.fits p.1).Is ds v) ∧ ∀ r, r ∉ (inds.zip vs).map Prod.fst → s'.fits r = s₁.fits r) s₁ := by
  refine wlp_forL (I := fun pre s' => s'.next = s₁.next ∧ s'.genome = s₁.genome ∧ AllDir m ds s' ∧
    (∀ p ∈ pre, ∃ v, (s'.fits p.1).Is ds v) ∧ ∀ r, r ∉ pre.map Prod.fst → s'.fits r = s₁.fits r)
    ⟨rfl, rfl, hd, by simp, fun _ _ => rfl⟩ ?_
  rintro pre ⟨x, v⟩ post s₂ hsplit ⟨i1, i1', i2, i3, i4⟩
  have hmem : (x, v) ∈ inds.zip vs := by rw [hsplit]; simp
  have hxin : x ∈ inds := (List.of_mem_zip hmem).1
  have hv : v.length = m := hvs v (List.of_mem_zip hmem).2
  unfold assign
  rw [wlp_bind, wlp_get, wlp_bind, wlp_ofExcept]
  intro f hset
  rw [wlp_setFit]
  have hdx : DirOk m ds (s₂.fits x) := i2 x (by rw [i1]; exact hx x hxin)
  have hfIs : f.Is ds v ∧ DirOk m ds f := by
    unfold Fit.set at hset
    cases ho : (s₂.fits x).objs with
    | some w => rw [ho] at hset; simp at hset
    | none =>
      rw [ho] at hset
      simp only [Except.ok.injEq] at hset
      subst hset
      unfold DirOk at hdx
      refine ⟨⟨rfl, ?_, by rw [hv, hds]⟩, ?_⟩
      · dsimp only; rw [hv]; exact hdx
      · unfold DirOk
        dsimp only
        rw [hv, hdx]
        rfl
  refine ⟨i1, i1', fun r hr => ?_, fun p hp => ?_, fun r hr => ?_⟩
  · dsimp only
    split
    · exact hfIs.2
    · exact i2 r hr
  · dsimp only
    split
    · exact ⟨v, hfIs.1⟩
    · simp only [List.mem_append, List.mem_singleton] at hp
      rcases hp with hp | rfl
      · exact i3 p hp
      · rename_i hne; exact absurd rfl hne
  · simp only [List.map_append, List.map_cons, List.map_nil, List.mem_append, List.mem_singleton, not_or] at hr
    dsimp only
    rw [if_neg hr.2, i4 r hr.1]

/-- Evaluation: every individual has `m` objectives; nothing else has changed. -/
theorem evaluateM_wlp {c : MSub G} (he : c.Evaluates m) (hds : ds.length = m) {order inds : List Nat}
    (hx : Exist s inds) (hd : AllDir m ds s) :
    wlp (evaluateM c order inds) (fun b s' => b ∈ inds ∧ s'.next = s.next ∧ s'.genome = s.genome ∧ AllDir m ds s' ∧
      (∀ r ∈ inds, ∃ v, (s'.fits r).Is ds v) ∧ ∀ r, r ∉ inds → s'.fits r = s.fits r) s := by
  unfold evaluateM
  rw [wlp_bind]
  refine (scores_wlp he order inds).mono ?_
  rintro vs s₁ ⟨⟨hl, hf, hg, hnx⟩, hvs⟩
  rw [wlp_bind]
  have hx1 : Exist s₁ inds := fun r hr => by rw [hnx]; exact hx r hr
  have hd1 : AllDir m ds s₁ := fun r hr => by rw [hf]; exact hd r (by omega)
  refine (assigns_wlp hx1 hd1 hds hvs).mono ?_
  rintro _ s₂ ⟨j1, j1', j2, j3, j4⟩
  have hzip : (inds.zip vs).map Prod.fst = inds := by
    rw [List.map_fst_zip]; omega
  cases inds with
  | nil => simp
  | cons b rest =>
    dsimp only
    refine winner_wlp.mono ?_
    rintro x s₃ ⟨k0, k1, k2, k3⟩
    refine ⟨k0, by omega, by rw [k2, j1', hg], fun r hr => by rw [k1]; exact j2 r (by omega), fun r hr => ?_, fun r hr => ?_⟩
    · rw [k1]
      have : r ∈ ((b :: rest).zip vs).map Prod.fst := by rw [hzip]; exact hr
      obtain ⟨p, hp, rfl⟩ := List.mem_map.1 this
      exact j3 p hp
    · rw [k1, j4 r (by rw [hzip]; exact hr), hf]

/-- Front sorting: half of the individuals survive. -/
theorem sortM_wlp {order : Nat → List Nat → List Nat} (horder : ∀ k l, (order k l).Perm l) {inds : List Nat}
    (hn : inds.Nodup) {vec : Nat → List ℚ} (hIs : ∀ r ∈ inds, (s.fits r).Is ds (vec r)) (hd : AllDir m ds s) :
    wlp (sortM order inds) (fun l s' => s'.next = s.next ∧ s'.genome = s.genome ∧ AllDir m ds s' ∧
      l.length = inds.length / 2 ∧ l.Nodup ∧ (∀ r ∈ l, r ∈ inds) ∧
      (∀ x ∈ l, ∀ y ∈ inds, Pareto ds (vec y) (vec x) → y ∈ l) ∧
      ∀ x ∈ l, (s'.fits x).rank = some 1 ↔ ∀ y ∈ inds, ¬ Pareto ds (vec y) (vec x)) s := by
  unfold sortM
  rw [wlp_bind, wlp_get]
  cases hrun : select order (inds.length + 1) s.fits inds [] none with
  | none => simp
  | some r =>
    cases r with
    | error e => simp
    | ok p =>
      obtain ⟨h, dest⟩ := p
      dsimp only
      rw [wlp_bind, wlp_set]
      refine wlp_pure.2 ⟨rfl, rfl, fun r hr => ?_, (C50_size hn hIs horder hrun).1 (.inl rfl),
        (C50_survivors hn hIs horder hrun).1, (C50_survivors hn hIs horder hrun).2.1,
        (C50_survivors hn hIs horder hrun).2.2, fun x hx => ?_⟩
      · dsimp only
        have := (C49_frame hn hIs horder hrun r).2
        rw [this]
        exact hd r hr
      · dsimp only
        rw [C49_survivor hn hIs horder hrun hx 0]
        have hxs := (C50_survivors hn hIs horder hrun).2.1 x hx
        constructor
        · rintro ⟨-, h2⟩ y hy; exact h2 y hy
        · intro h2; exact ⟨hxs, fun y hy => h2 y hy⟩

/-! ## Operators and selection methods that meet the contracts -/

/-- An operator that modifies the genomes of the individuals it is given. -/
def MOp.inPlace (probability : ℚ) (arity : Nat) (f : List Nat → MM G Unit) : MOp G :=
  ⟨probability, arity, fun refs => do f refs; PyM.pure (some refs)⟩

theorem MOp.inPlace_good {probability : ℚ} {arity : Nat} {f : List Nat → MM G Unit}
    (hf : ∀ refs s, wlp (f refs) (fun _ s' => s'.fits = s.fits ∧ s'.next = s.next) s) :
    (MOp.inPlace probability arity f).Good := by
  intro m ds refs s hx hd
  unfold MOp.inPlace
  dsimp only
  rw [wlp_bind]
  refine (hf refs s).mono ?_
  rintro _ s' ⟨h1, h2⟩
  refine wlp_pure.2 ⟨by omega, fun r hr => by rw [h1]; exact hd r (by omega), fun l hl => ?_⟩
  simp only [Option.some.injEq] at hl
  subst hl
  exact ⟨rfl, fun r hr => ⟨.inl hr, by rw [h2]; exact hx r hr⟩, id⟩

theorem MSel.tournament_good (arity size : Nat) (replace : Bool) :
    (⟨arity, tournamentM size replace⟩ : MSel G).Good := by
  intro m ds source dest s hx hd
  dsimp only
  unfold tournamentM
  rw [wlp_ite]
  refine ⟨fun _ => by simp, fun _ => ?_⟩
  rw [wlp_bind, wlp_mrand]
  have hdraw : wlp (replicateM (source.length - dest.length)
      (if replace then Rand.choices source size else Rand.sample size source))
      (fun tours _ => tours.length = source.length - dest.length ∧ ∀ t ∈ tours, ∀ r ∈ t, r ∈ source) s.tape := by
    have h1 : Post (if replace then Rand.choices source size else Rand.sample size source)
        (fun t => ∀ r ∈ t, r ∈ source) := by
      cases replace
      · exact (Rand.sample_post size source).mono fun t ht r hr => ht.1.subset hr
      · exact (Rand.choices_post source size).mono fun t ht => ht.2
    exact (replicateM_post _ h1).wlp _
  refine hdraw.mono ?_
  rintro tours t ⟨h1, h2⟩
  rw [wlp_bind]
  have key : wlp (mapL pickM tours) (fun l s' => l.length = tours.length ∧ l.Nodup ∧ s.next ≤ s'.next ∧ AllDir m ds s' ∧
      (∀ r ∈ l, s.next ≤ r ∧ r < s'.next)) ({ s with tape := t } : MWorld G) := by
    refine wlp_mapL (s := { s with tape := t }) (I := fun (pre : List (List Nat)) (l : List Nat) s' => l.length = pre.length ∧ l.Nodup ∧
      s.next ≤ s'.next ∧ AllDir m ds s' ∧ (∀ r ∈ l, s.next ≤ r ∧ r < s'.next))
      ⟨rfl, List.nodup_nil, le_refl _, hd, by simp⟩ ?_
    rintro pre x post l s₁ hsplit ⟨i1, i2, i3, i4, i5⟩
    have hxs : ∀ r ∈ x, r < s₁.next := fun r hr =>
      lt_of_lt_of_le (hx r (h2 x (by rw [hsplit]; simp) r hr)) i3
    unfold pickM
    cases x with
    | nil => simp
    | cons b rest =>
      dsimp only
      rw [wlp_bind]
      refine winner_wlp.mono ?_
      rintro w s₂ ⟨k0, k1, k2, k3⟩
      have hw := hxs w k0
      refine cloneM_wlp fun s₃ e1 e2 e3 e4 e5 _ => ⟨by simp [i1], ?_, by omega, fun r hr => ?_, fun r hr => ?_⟩
      · rw [List.nodup_append]
        refine ⟨i2, by simp, fun a ha b hb hab => ?_⟩
        simp only [List.mem_singleton] at hb
        have := (i5 a ha).2
        omega
      · by_cases he : r = s₂.next
        · rw [he, e3, k1]; exact (i4 w hw).copy
        · rw [e2 r he, k1]; exact i4 r (by omega)
      · simp only [List.mem_append, List.mem_singleton] at hr
        rcases hr with hr | rfl
        · have := i5 r hr; omega
        · omega
  refine key.mono ?_
  rintro l s' ⟨j1, j2, j3, j4, j5⟩
  exact wlp_pure.2 ⟨j3, j4, l, rfl, j2, by omega, j5⟩

end Verif.Moo
