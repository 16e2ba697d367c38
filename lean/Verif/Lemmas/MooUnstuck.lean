import Verif.Props.MooProgress
import Verif.Props.MooArchive
import Verif.Props.MooSeeds
import Verif.Props.MooCourse
import Verif.Props.MooTotal
import Verif.Lemmas.Unstuck

/-! # NSGA-II: other draws in one generation -/

namespace Verif.Moo
open PyM
open Verif.Evo (Stays bind_congr nextSeed)
variable {G : Type} {α : Type} {P : G → Prop} {n m : Nat} {ds : List Bool}

/-- Free computations on the world. -/
abbrev FreeM (x : MM G α) : Prop := Free (fun (w : MWorld G) t => { w with tape := t }) x

namespace FreeM

theorem rand {x : Rand α} (h : FreeRand x) : FreeM (mrand x : MM G α) := by
  intro s r s' hm u
  rcases hr : x s.tape with ⟨y, t1⟩
  unfold mrand zoom at hm
  rw [hr] at hm
  cases hm
  obtain ⟨t, ht⟩ := h _ _ _ hr u
  refine ⟨t, ?_⟩
  unfold mrand zoom
  dsimp only at ht ⊢
  rw [ht]

theorem resetFit (r : Nat) : FreeM (resetFit r : MM G Unit) :=
  Free.get_bind (fun _ _ => rfl) fun _ => Free.modify fun _ _ => rfl

theorem cloneM (r : Nat) : FreeM (cloneM r : MM G Nat) := by
  intro s r s' h u
  cases h
  exact ⟨u, rfl⟩

theorem eliteStageM (c : MSub G) (inds : List Nat) : FreeM (eliteStageM c inds) := by
  unfold Moo.eliteStageM
  refine Free.ite (fun _ => ?_) fun _ => Free.pure _
  unfold elitesM
  exact Free.get_bind (fun _ _ => rfl) fun _ => (Free.ofExcept _).bind fun _ => (Free.mapL cloneM _).bind fun _ => Free.pure _

theorem applyOp {o : MOp G} (h : ∀ refs, FreeM (o.apply refs)) (refs : List Nat) : FreeM (applyOp o refs) := by
  unfold Moo.applyOp
  refine (rand FreeRand.random).bind fun u => Free.ite (fun _ => ?_) fun _ => Free.pure _
  refine (Free.forL resetFit _).bind fun _ => (h _).bind fun res => ?_
  cases res with
  | none => exact Free.raise _
  | some l => exact Free.pure _

theorem applyChunksM {o : MOp G} (h : ∀ refs, FreeM (o.apply refs)) (is inds : List Nat) : FreeM (applyChunksM o is inds) := by
  induction is generalizing inds with
  | nil => exact Free.pure _
  | cons i is ih => exact (applyOp h _).bind fun _ => ih _

theorem applyOps {os : List (MOp G)} (h : ∀ o ∈ os, ∀ refs, FreeM (o.apply refs)) (inds : List Nat) : FreeM (applyOps os inds) := by
  induction os generalizing inds with
  | nil => exact Free.pure _
  | cons o os ih =>
    unfold Moo.applyOps
    refine Free.ite (fun _ => Free.raise _) fun _ => ?_
    exact (applyChunksM (h o (by simp)) _ _).bind fun _ => ih (fun o h' => h o (by simp [h'])) _

theorem onGenomes {f : List G → Rand (Option (List G))} (h : ∀ gs, FreeRand (f gs)) (p : ℚ) (a : Nat) (refs : List Nat) :
    FreeM ((MOp.onGenomes p a f).apply refs) := by
  refine Free.get_bind (fun _ _ => rfl) fun w => (rand (h _)).bind fun res => ?_
  cases res with
  | none => exact Free.pure _
  | some gs =>
    have hput : FreeM (putGenomesM refs gs) := by
      unfold putGenomesM
      exact Free.forL (fun _ => Free.modify (g := fun w : MWorld G => _) fun _ _ => rfl) _
    exact hput.bind fun _ => Free.pure _

end FreeM

/-- Applied to any individual whose genome satisfies `P` the operator can, with suitable draws, turn it into one with the
genome `g`. -/
def MOp.CanMake (P : G → Prop) (g : G) (o : MOp G) : Prop :=
  ∀ (w : MWorld G) (r : Nat), P (w.genome r) →
    ∃ t w', applyOp o [r] { w with tape := t } = (.ok [r], w') ∧ w'.genome r = g

theorem applyOps_append (os os' : List (MOp G)) (inds : List Nat) :
    applyOps (os ++ os') inds = applyOps os inds >>= applyOps os' := by
  induction os generalizing inds with
  | nil => rfl
  | cons o os ih =>
    rw [List.cons_append]
    unfold applyOps
    split
    · rfl
    · rw [bind_assoc]
      congr 1
      funext x
      rw [ih]

theorem applyChunksM_append (o : MOp G) (is js inds : List Nat) :
    applyChunksM o (is ++ js) inds = applyChunksM o is inds >>= applyChunksM o js := by
  induction is generalizing inds with
  | nil => rfl
  | cons i is ih =>
    rw [List.cons_append]
    unfold applyChunksM
    rw [bind_assoc]
    congr 1
    funext x
    rw [ih]

/-- The operators can be made to turn the last individual into one with the genome `g`. -/
theorem applyOps_makes {os : List (MOp G)} {o : MOp G} (hg : ∀ o' ∈ os ++ [o], o'.Good) (ho : ∀ o' ∈ os ++ [o], o'.WorksOn P)
    (hfree : ∀ o' ∈ os ++ [o], ∀ refs, FreeM (o'.apply refs)) (ha : o.arity = 1) {g : G} (hmake : o.CanMake P g) {s : MWorld G}
    {inds : List Nat} (har : ∀ o' ∈ os ++ [o], o'.arity ≠ 0 ∧ o'.arity ∣ inds.length) (hpos : 0 < inds.length)
    (hx : Exist s inds) (hd : AllDir m ds s) (hp : AllHave P s) :
    ∃ t w', applyOps (os ++ [o]) inds { s with tape := t } = (.ok inds, w') ∧ ∃ r ∈ inds, w'.genome r = g := by
  have hmem : ∀ o' ∈ os, o' ∈ os ++ [o] := fun o' h => List.mem_append_left _ h
  have homem : o ∈ os ++ [o] := by simp
  obtain ⟨init, r, hsplit⟩ : ∃ init r, inds = init ++ [r] :=
    ⟨inds.dropLast, inds.getLast (by rintro rfl; simp at hpos), (List.dropLast_append_getLast _).symm⟩
  have hil : init.length = inds.length - 1 := by rw [hsplit]; simp
  have hpre : wp (applyOps os inds >>= applyChunksM o (List.range (inds.length - 1)))
      (fun l s' => l = inds ∧ s.next ≤ s'.next ∧ AllHave P s') s := by
    rw [wp_bind]
    refine (applyOps_worksOn os (fun o' h => hg o' (hmem o' h)) (fun o' h => ho o' (hmem o' h))
      (fun o' h => har o' (hmem o' h)) hx hd hp).mono ?_
    rintro _ s₁ ⟨rfl, h1, h2, h3, -⟩
    refine (applyChunksM_worksOn (hg o homem) (ho o homem) _ (fun i hi => ?_) (fun r hr => lt_of_lt_of_le (hx r hr) h1) h2 h3).mono ?_
    · have := List.mem_range.1 hi
      omega
    · rintro l s₂ ⟨k1, k2, k3, k4, -⟩
      exact ⟨k1, by omega, k4⟩
  have hfr : FreeM (applyOps os inds >>= applyChunksM o (List.range (inds.length - 1))) :=
    Free.bind (FreeM.applyOps (fun o' h => hfree o' (hmem o' h)) _) fun _ => FreeM.applyChunksM (hfree o homem) _ _
  obtain ⟨_, w1, hrun, rfl, hnx, hP1⟩ := hpre
  rename_i inds
  have hri : r ∈ inds := by rw [hsplit]; simp
  obtain ⟨t1, w', hop, hgr⟩ := hmake w1 r (hP1 r (lt_of_lt_of_le (hx r hri) hnx))
  obtain ⟨t, ht⟩ := hfr _ _ _ hrun t1
  refine ⟨t, w', ?_, r, hri, hgr⟩
  rw [applyOps_append]
  obtain ⟨_, w2, e2, rfl, -⟩ := applyOps_worksOn (s := { s with tape := t }) os (fun o' h => hg o' (hmem o' h))
    (fun o' h => ho o' (hmem o' h)) (fun o' h => har o' (hmem o' h)) hx hd hp
  rename_i inds
  refine (bind_of_ok e2).trans ?_
  have ht' : applyChunksM o (List.range (inds.length - 1)) inds w2 = (.ok inds, { w1 with tape := t1 }) :=
    (bind_of_ok e2).symm.trans ht
  unfold applyOps
  rw [if_neg (by omega), ha, Evo.rangeStep_one]
  have hr : List.range inds.length = List.range (inds.length - 1) ++ [inds.length - 1] := by
    rw [← List.range_succ]; congr 1; omega
  rw [hr, applyChunksM_append, bind_assoc]
  refine (bind_of_ok ht').trans ?_
  have hs1 : Py.slice inds ((inds.length - 1 : Nat) : Int) ((inds.length - 1 + o.arity : Nat) : Int) = [r] := by
    have := Evo.slice_group inds (inds.length - 1) 1
    rw [Nat.mul_one] at this
    rw [ha, this, ← hil]
    conv_lhs => rw [hsplit]
    rw [List.drop_append]
    simp
  have hs2 : Py.setSlice inds ((inds.length - 1 : Nat) : Int) ((inds.length - 1 + o.arity : Nat) : Int) [r] = inds := by
    have := Evo.setSlice_same inds ((inds.length - 1 : Nat) : Int) ((inds.length - 1 + o.arity : Nat) : Int)
    rwa [hs1] at this
  show (applyChunksM o [inds.length - 1] inds >>= fun x => Pure.pure x) _ = _
  refine bind_of_ok (a := inds) (s' := w') ?_
  show (applyOp o (Py.slice inds ((inds.length - 1 : Nat) : Int) ((inds.length - 1 + o.arity : Nat) : Int)) >>= fun res =>
    applyChunksM o [] (Py.setSlice inds ((inds.length - 1 : Nat) : Int) ((inds.length - 1 + o.arity : Nat) : Int) res)) _ = _
  rw [hs1]
  refine (bind_of_ok hop).trans ?_
  rw [hs2]
  rfl

/-- Breeding can be made to put an individual with the genome `g` into the doubled population. -/
theorem nsga2Breed_makes {c : MSub G} (hg : ∀ o ∈ c.ops, o.Good) (hs : ∀ x ∈ c.sels, x.Good) (hsl : ∀ x ∈ c.sels, x.Local)
    (ho : ∀ o ∈ c.ops, o.WorksOn P) (hfree : ∀ o ∈ c.ops, ∀ refs, FreeM (o.apply refs)) {os : List (MOp G)} {o : MOp G}
    (hops : c.ops = os ++ [o]) (h1 : o.arity = 1) {g : G} (hmake : o.CanMake P g) {s : MWorld G}
    {inds : List Nat} (ha : ∀ o ∈ c.ops, o.arity ≠ 0 ∧ o.arity ∣ inds.length) (hpos : 0 < inds.length)
    (hx : Exist s inds) (hd : AllDir m ds s) (hp : AllHave P s) (hev : ∀ r ∈ inds, (s.fits r).objs ≠ none) :
    ∃ t, wlp (nsga2Breed c inds) (fun l s' => ∃ r ∈ l, s'.genome r = g) { s with tape := t } := by
  have hpre : wp (eliteStageM c inds >>= fun _ => mapL cloneM inds)
      (fun old s' => s.next ≤ s'.next ∧ AllDir m ds s' ∧ AllHave P s') s := by
    rw [wp_bind]
    refine (eliteStageM_wp hx hd hp hev).mono ?_
    rintro _ s₁ ⟨a1, a2, a3, -⟩
    refine (clones_wp (fun r hr => lt_of_lt_of_le (hx r hr) a1) a2 a3).mono ?_
    rintro old s₂ ⟨⟨-, -, c3, c4, -, -⟩, c7⟩
    exact ⟨by omega, c4, c7⟩
  have hfr : FreeM (eliteStageM c inds >>= fun _ => mapL cloneM inds) :=
    Free.bind (FreeM.eliteStageM _ _) fun _ => Free.mapL FreeM.cloneM _
  obtain ⟨old, s₂, hrun, b1, b2, b3⟩ := hpre
  rw [hops] at hg ho hfree ha
  have hx2 : Exist s₂ inds := fun r hr => lt_of_lt_of_le (hx r hr) b1
  obtain ⟨t2, s₃, hmk, r, hr, hgr⟩ := applyOps_makes (m := m) (ds := ds) hg ho hfree h1 hmake ha hpos hx2 b2 b3
  obtain ⟨t, ht⟩ := hfr _ _ _ hrun t2
  refine ⟨t, ?_⟩
  have h3 : s₂.next ≤ s₃.next ∧ AllDir m ds s₃ := by
    obtain ⟨_, s₃', e, -, k1, k2, -⟩ := applyOps_worksOn (s := { s₂ with tape := t2 }) (m := m) (ds := ds) _ hg ho ha hx2 b2 b3
    have := e.symm.trans hmk
    cases this
    exact ⟨k1, k2⟩
  obtain ⟨e, s₁, he1, he2⟩ := bind_ok.1 ht
  unfold nsga2Breed
  rw [wlp_bind]
  intro e' s₁' he
  have := he.symm.trans he1
  cases this
  rw [wlp_bind]
  have key : wlp (createNextGen c inds) (fun p s' => r ∈ p.2 ∧ s'.genome r = g ∧ r < s'.next ∧ AllDir m ds s' ∧ Exist s' p.1) s₁ := by
    unfold createNextGen
    rw [wlp_bind]
    intro old' s₂' he
    have := he.symm.trans he2
    cases this
    rw [wlp_bind, hops]
    intro new s₃' he
    have := he.symm.trans hmk
    cases this
    rw [wlp_bind]
    refine (resets_wlp (m := m) (ds := ds) h3.2).mono ?_
    rintro _ s₄ ⟨e1, e2, e3, -⟩
    refine wlp_pure.2 ⟨by simp [hr], by rw [e2]; exact hgr, by rw [e1]; exact lt_of_lt_of_le (hx2 r hr) h3.1, e3, fun x hxi => ?_⟩
    rw [e1]; exact lt_of_lt_of_le (hx2 x hxi) h3.1
  refine key.mono ?_
  rintro ⟨new, next⟩ s₂ ⟨k1, k2, k3, k4, k5⟩
  cases hsel : c.sels with
  | nil => simp
  | cons x rest =>
    dsimp only
    refine ((hs x (by rw [hsel]; simp) m ds new next s₂ k5 k4).and
      (hsl x (by rw [hsel]; simp) new next s₂)).mono ?_
    rintro res s₃ ⟨⟨-, -, extra, rfl, -⟩, hloc⟩
    exact ⟨r, List.mem_append_left _ k1, by rw [hloc r k3, k2]⟩

/-! ## One generation -/

section run
variable {c : MCfg G} {f : G → List ℚ}

/-- The event shows a population that has been evaluated in generation `gen`, and there is an individual with the objectives
`v` in it. -/
def MEvent.Holds (e : MEvent) (gen : Nat) (v : List ℚ) : Prop := e.Evaluated ∧ e.genNum = gen ∧ ∃ r, e.Has r v

/-- Kept by what changes neither the number of the generation, the seed nor the log, and by publishing. -/
structure MInv (I : MRun G → Prop) : Prop where
  only : ∀ s s' : MRun G, s'.genNum = s.genNum → s'.genSeed = s.genSeed → s'.log = s.log → I s → I s'
  publish : ∀ (s : MRun G) p n, I s → I { s with log := s.log ++ [s.event p n] }

namespace MInv
variable {I : MRun G → Prop} (hI : MInv I)
include hI

theorem pub (p n : String) : Stays I (mpublish p n : MRM G Unit) := fun s h => hI.publish s p n h

omit hI in
theorem inds : Stays I (individuals : MRM G (List Nat)) := by
  intro s h
  unfold individuals
  rw [bind_of_ok (show PyM.get s = (.ok s, s) from rfl)]
  cases s.inds <;> exact h

theorem world (x : MM G α) : Stays I (mworld x) := fun s h => hI.only s _ rfl rfl rfl h

theorem act {x : MRM G α} (p : String) (h : Stays I x) : Stays I (mact p x) :=
  Stays.bind (hI.pub _ _) fun _ => Stays.bind h fun _ => Stays.bind (hI.pub _ _) fun _ => Stays.pure _

theorem evaluate : Stays I (mevaluate c) :=
  hI.act _ (Stays.bind MInv.inds fun _ => Stays.bind Stays.get fun _ => hI.world _)

theorem generation : Stays I (mgeneration c) := by
  refine Stays.bind (hI.act _ (Stays.bind MInv.inds fun _ => Stays.bind (hI.world _) fun _ => fun s h => hI.only s _ rfl rfl rfl h)) fun _ => ?_
  refine Stays.bind hI.evaluate fun _ => ?_
  refine Stays.bind (Stays.bind MInv.inds fun _ => Stays.bind Stays.get fun _ => Stays.bind (hI.world _) fun _ =>
    fun s h => hI.only s _ rfl rfl rfl h) fun _ => ?_
  exact Stays.bind MInv.inds fun _ => fun s h => hI.only s _ rfl rfl rfl h

theorem init : Stays I (minit c) := by
  refine Stays.bind Stays.get fun s => Stays.bind (fun s h => hI.only s _ rfl rfl rfl h) fun _ => ?_
  refine Stays.bind (Stays.bind Stays.get fun s => ?_) fun _ => ?_
  · cases s.inds with
    | some _ => exact Stays.pure _
    | none => exact Stays.bind (hI.world _) fun _ => fun s h => hI.only s _ rfl rfl rfl h
  · exact Stays.bind hI.evaluate fun _ => Stays.bind (fun s h => hI.only s _ rfl rfl rfl h) fun _ => hI.pub _ _

end MInv

theorem mstop_same {gen : Nat} {s s' : MRun G} {b : Bool} (h : mstop c gen s = (.ok b, s')) : s' = s := by
  unfold mstop at h
  rw [bind_of_ok (show PyM.get s = (.ok s, s) from rfl)] at h
  unfold PyM.ofExcept at h
  exact (congrArg Prod.snd h).symm

/-- What has been recorded since `base`: events whose generation numbers satisfy `N`. -/
def MLogSince (N : Nat → Prop) (base : List MEvent) (s : MRun G) : Prop :=
  ∃ evs, s.log = base ++ evs ∧ ∀ e ∈ evs, N e.genNum

theorem msinceInv (N : Nat → Prop) (base : List MEvent) (x : Nat) :
    MInv fun s : MRun G => N s.genNum ∧ s.genSeed = x ∧ MLogSince N base s where
  only s s' h1 h2 h3 h := by
    refine ⟨h1 ▸ h.1, h2.trans h.2.1, ?_⟩
    unfold MLogSince
    rw [h3]
    exact h.2.2
  publish s p n h := by
    obtain ⟨h1, h2, evs, h3, h4⟩ := h
    refine ⟨h1, h2, evs ++ [s.event p n], ?_, ?_⟩
    · show s.log ++ _ = _
      rw [h3, List.append_assoc]
    · intro e he
      simp only [List.mem_append, List.mem_singleton] at he
      rcases he with he | rfl
      · exact h4 e he
      · exact h1

/-- One round of the loop of `evolve_main_loop`: whether to stop. -/
def moneGen (c : MCfg G) (gen : Nat) : MRM G Bool := do
  modify fun s => { s with genNum := gen }
  let _ ← individuals
  let s ← PyM.get
  msetSeed c (nextSeed s.genSeed)
  modify fun s => { s with genSeed := nextSeed s.genSeed }
  mgeneration c
  mstop c gen

theorem mloop_oneGen (c : MCfg G) (n gen : Nat) : mloop c (n + 1) gen = (do
    let stop ← moneGen c gen
    if stop then do
      modify fun s => { s with finalGen := some gen }
      mpublish "algorithm" "after_generation"
    else do
      mpublish "algorithm" "after_generation"
      mloop c n (gen + 1)) := by
  rw [mloop]
  unfold moneGen
  simp only [bind_assoc]

theorem moneGen_total (hc : c.Sound P n m ds) (gen : Nat) {s : MRun G} (hl : MLiving P n m ds s) :
    wp (moneGen c gen) (fun _ s' => MLiving P n m ds s') s := by
  unfold moneGen
  obtain ⟨l, hp, -⟩ := hl.pop
  rw [wp_bind, wp_modify, wp_bind]
  refine (wp_individuals (is := l) (by exact hp.inds)).2 ?_
  rw [wp_bind, wp_get, wp_bind]
  unfold msetSeed
  rw [wp_modify, wp_bind, wp_modify, wp_bind]
  refine wp.mono (Q := fun _ s' => MLiving P n m ds s') (mgeneration_wp hc ?_) fun _ s₁ h₁ => ?_
  · exact hl.same rfl rfl rfl rfl rfl
  refine (mstop_wp hc h₁).mono ?_
  rintro _ _ rfl
  exact h₁

theorem moneGen_since {N : Nat → Prop} {base : List MEvent} {gen : Nat} (hN : N gen) {s s' : MRun G} {stop : Bool}
    (hs : MLogSince N base s) (h : moneGen c gen s = (.ok stop, s')) :
    N s'.genNum ∧ s'.genSeed = nextSeed s.genSeed ∧ MLogSince N base s' := by
  unfold moneGen at h
  obtain ⟨_, s₁, h1, h⟩ := bind_ok.1 h
  obtain ⟨_, s₂, h2, h⟩ := bind_ok.1 h
  obtain ⟨_, s₃, h3, h⟩ := bind_ok.1 h
  obtain ⟨_, s₄, h4, h⟩ := bind_ok.1 h
  obtain ⟨_, s₅, h5, h⟩ := bind_ok.1 h
  obtain ⟨_, s₆, h6, h7⟩ := bind_ok.1 h
  cases h1
  have g2 := Stays.of_ok (I := fun t : MRun G => N t.genNum ∧ t.genSeed = s.genSeed ∧ MLogSince N base t)
    (s := { s with genNum := gen }) MInv.inds ⟨hN, rfl, hs⟩ h2
  cases h3
  cases h4
  cases h5
  have g6 := Stays.of_ok (s := { s₂ with w := { s₂.w with tape := c.stream (nextSeed s₂.genSeed) }, genSeed := nextSeed s₂.genSeed })
    ((msinceInv N base (nextSeed s.genSeed)).generation (c := c)) ⟨g2.1, congrArg nextSeed g2.2.1, g2.2.2⟩ h6
  rw [mstop_same h7]
  exact g6

/-- One round of the loop uses the generators of its seed only. -/
theorem moneGen_stream {gen : Nat} {s : MRun G} {st : Nat → Tape}
    (h : st (nextSeed s.genSeed) = c.stream (nextSeed s.genSeed)) : moneGen { c with stream := st } gen s = moneGen c gen s := by
  unfold moneGen
  refine bind_congr fun _ s₁ h1 => bind_congr fun _ s₂ h2 => bind_congr fun x s₃ h3 => ?_
  cases h1
  have g2 : s₂.genSeed = s.genSeed := Stays.of_ok (s := { s with genNum := gen }) (seedIs_individuals s.genSeed) rfl h2
  cases h3
  have e : msetSeed { c with stream := st } (nextSeed s₂.genSeed) = (msetSeed c (nextSeed s₂.genSeed) : MRM G Unit) := by
    unfold msetSeed
    rw [g2]
    simp only [h]
  rw [e]
  rfl

/-- With suitable draws a generation evaluates a population with an individual that has the objectives of `g`. -/
theorem mgeneration_makes (hc : c.Sound P n m ds) (hst : c.Steady f) (hfree : ∀ o ∈ c.sub.ops, ∀ refs, FreeM (o.apply refs))
    {os : List (MOp G)} {o : MOp G} (hops : c.sub.ops = os ++ [o]) (ha : o.arity = 1) {g : G} (hmake : o.CanMake P g)
    {s : MRun G} (hl : MLiving P n m ds s) :
    ∃ t, ∀ x : Nat, wlp (mgeneration c) (fun _ s' => ∃ e ∈ s'.log, e.Holds s.genNum (f g))
      { s with w := { s.w with tape := t }, genSeed := x } := by
  obtain ⟨l, hp, hev⟩ := hl.pop
  have hlen := hp.length
  have hsz := hc.size
  obtain ⟨t, ht⟩ := nsga2Breed_makes (m := m) (ds := ds) hc.ops hc.sels hst.sels hc.operate hfree hops ha hmake (s := s.w)
    (inds := l) (by rw [hlen]; exact hc.arities) (by omega) hp.exist hp.dirs hl.genomes
    (fun r hr => by obtain ⟨v, hv⟩ := hev r hr; rw [hv.objs]; simp)
  refine ⟨t, fun x => ?_⟩
  unfold mgeneration
  rw [wlp_bind]
  have hbreed : wlp (mbreed c) (fun _ s' => s'.genNum = s.genNum ∧ ∃ l', s'.Pop (2 * n) m ds l' ∧ ∃ r ∈ l', s'.w.genome r = g)
      { s with w := { s.w with tape := t }, genSeed := x } := by
    unfold mbreed
    rw [wlp_mact]
    unfold mbreedBody
    rw [wlp_bind, wlp_individuals]
    intro is his
    obtain rfl : is = l := Option.some.inj (his.symm.trans hp.inds)
    rw [wlp_bind, wlp_mworld, if_pos hc.breeder]
    refine ((nsga2Breed_wlp (m := m) (ds := ds) (s := { s.w with tape := t }) hc.ops hc.sels hp.exist hp.nodup hp.dirs).and ht).mono ?_
    rintro l' w ⟨⟨h1, h2, h3, h4⟩, h5⟩
    rw [wlp_modify]
    exact ⟨rfl, l', ⟨rfl, by rw [h1, hlen], h2, h3, h4⟩, h5⟩
  refine hbreed.mono ?_
  rintro _ s₁ ⟨g1, l', hp₁, r, hr, hgr⟩
  rw [wlp_bind]
  refine (mevaluate_value hc.toGood hst.evaluates hp₁).mono ?_
  rintro b s₂ ⟨hp₂, g2, -, hvec, e0, hlog, -⟩
  have hmem : s₂.event "population_evaluator" "after_operator" ∈ s₂.log := by rw [hlog]; simp
  have hold : ∃ e ∈ s₂.log, e.Holds s.genNum (f g) := by
    refine ⟨_, hmem, ⟨rfl, rfl⟩, g2.trans g1, r, ?_, ?_⟩
    · show r ∈ s₂.inds.getD []
      rw [hp₂.inds]
      exact hr
    · have := (hvec r hr).objs
      rw [hgr] at this
      exact this
  intro _ s₃ hrun
  have hI : MInv fun s' : MRun G => ∃ e ∈ s'.log, e.Holds s.genNum (f g) :=
    ⟨fun _ _ _ _ h3 h => by rw [h3]; exact h, fun _ _ _ ⟨e, he, h⟩ => ⟨e, List.mem_append_left _ he, h⟩⟩
  refine Stays.of_ok (I := fun s' : MRun G => ∃ e ∈ s'.log, e.Holds s.genNum (f g)) (m := (msort c >>= fun _ => mfronts)) ?_ hold hrun
  refine Stays.bind (Stays.bind MInv.inds fun _ => Stays.bind Stays.get fun _ => Stays.bind (hI.world _) fun _ =>
    fun s h => hI.only s _ rfl rfl rfl h) fun _ => ?_
  exact Stays.bind MInv.inds fun _ => fun s h => hI.only s _ rfl rfl rfl h

theorem moneGen_makes (hc : c.Sound P n m ds) (hst : c.Steady f) (hfree : ∀ o ∈ c.sub.ops, ∀ refs, FreeM (o.apply refs))
    {os : List (MOp G)} {o : MOp G} (hops : c.sub.ops = os ++ [o]) (ha : o.arity = 1) {g : G} (hmake : o.CanMake P g) (gen : Nat)
    {s : MRun G} (hl : MLiving P n m ds s) : ∃ t, ∀ st : Nat → Tape, st (nextSeed s.genSeed) = t →
      wlp (moneGen { c with stream := st } gen) (fun _ s' => ∃ e ∈ s'.log, e.Holds gen (f g)) s := by
  have hl1 : MLiving P n m ds { s with genNum := gen } := hl.same rfl rfl rfl rfl rfl
  obtain ⟨t, ht⟩ := mgeneration_makes hc hst hfree hops ha hmake hl1
  refine ⟨t, fun st hstt => ?_⟩
  unfold moneGen
  rw [wlp_bind, wlp_modify, wlp_bind]
  obtain ⟨l, hp, -⟩ := hl1.pop
  rw [wlp_individuals]
  intro is his
  rw [wlp_bind, wlp_get, wlp_bind]
  unfold msetSeed
  rw [wlp_modify, wlp_bind, wlp_modify, wlp_bind]
  dsimp only
  rw [hstt]
  refine (show wlp (mgeneration c) _ _ from ht (nextSeed s.genSeed)).mono ?_
  intro _ s₂ hh v s₃ hrun
  rw [mstop_same hrun]
  exact hh

theorem MCfg.Sound.withStream (hc : c.Sound P n m ds) (st : Nat → Tape) : ({ c with stream := st } : MCfg G).Sound P n m ds :=
  ⟨⟨hc.creates, hc.ops, hc.sels, hc.evaluates, hc.directions, hc.order⟩, hc.breeder, hc.size, hc.create, hc.arities, hc.operate,
    hc.select, hc.evaluate, hc.sched, hc.calm⟩

/-- The configuration with other random numbers for one seed. -/
def MCfg.redrawn (c : MCfg G) (seed : Nat) (t : Tape) : MCfg G :=
  { c with stream := fun x => if x = seed then t else c.stream x }

/-- Generations that come later show later numbers. -/
theorem mloop_since {N : Nat → Prop} {base : List MEvent} (k gen : Nat) (hN : ∀ j, gen ≤ j → j < gen + k → N j)
    {s s' : MRun G} (hs : MLogSince N base s) (h : mloop c k gen s = (.ok (), s')) : MLogSince N base s' := by
  induction k generalizing gen s with
  | zero => cases h; exact hs
  | succ k ih =>
    rw [mloop_oneGen] at h
    obtain ⟨stop, s₁, h1, h⟩ := bind_ok.1 h
    have g1 := moneGen_since (hN gen le_rfl (by omega)) hs h1
    have hp := (msinceInv (G := G) N base (nextSeed s.genSeed)).publish
    cases stop with
    | true =>
      rw [if_pos rfl] at h
      cases h
      exact (hp { s₁ with finalGen := some gen } _ _ g1).2.2
    | false =>
      rw [if_neg (by simp)] at h
      obtain ⟨_, s₂, h2, h⟩ := bind_ok.1 h
      cases h2
      exact ih (gen + 1) (fun j hj hj' => hN j (by omega) (by omega)) (hp s₁ _ _ g1).2.2 h

theorem mloop_genNum {M : Nat} (k gen : Nat) (hM : M ≤ gen) {s s' : MRun G} (hs : M ≤ s.genNum ∨ 0 < k)
    (h : mloop c k gen s = (.ok (), s')) : M ≤ s'.genNum := by
  induction k generalizing gen s with
  | zero => cases h; rcases hs with h | h; exacts [h, absurd h (lt_irrefl _)]
  | succ k ih =>
    rw [mloop_oneGen] at h
    obtain ⟨stop, s₁, h1, h⟩ := bind_ok.1 h
    have g2 : s₁.genNum = gen := (moneGen_since (N := fun k => k = gen) (base := s.log) rfl ⟨[], by simp, by simp⟩ h1).1
    cases stop with
    | true =>
      rw [if_pos rfl] at h
      cases h
      exact g2 ▸ hM
    | false =>
      rw [if_neg (by simp)] at h
      obtain ⟨_, s₂, h2, h⟩ := bind_ok.1 h
      cases h2
      exact ih (gen + 1) (by omega) (s := { s₁ with log := s₁.log ++ [s₁.event "algorithm" "after_generation"] })
        (.inl (g2 ▸ hM : M ≤ s₁.genNum)) h

theorem mloop_makes (hc : c.Sound P n m ds) (hst : c.Steady f) (hfree : ∀ o ∈ c.sub.ops, ∀ refs, FreeM (o.apply refs))
    {os : List (MOp G)} {o : MOp G} (hops : c.sub.ops = os ++ [o]) (ha : o.arity = 1) {g : G} (hmake : o.CanMake P g)
    (N k gen : Nat) {s s' : MRun G} (h : MLiving P n m ds s) (hgen : gen ≤ N) (hN : N < gen + k) (hk : k < 2 ^ 32)
    (hlog : ∀ e ∈ s.log, e.genNum < gen)
    (hrun : mloop c k gen s = (.ok (), s')) (hreach : N ≤ s'.genNum) :
    ∃ t s'', mloop (c.redrawn ((s.genSeed + (N - gen + 1)) % 2 ^ 32) t) k gen s = (.ok (), s'') ∧
      (∃ e ∈ s''.log, e.Holds N (f g)) ∧ N ≤ s''.genNum ∧
      ∃ pre a b, s'.log = pre ++ a ∧ s''.log = pre ++ b ∧ (∀ e ∈ pre, e.genNum < N) ∧
        (∀ e ∈ a, N ≤ e.genNum) ∧ ∀ e ∈ b, N ≤ e.genNum := by
  induction k generalizing gen s with
  | zero => omega
  | succ k ih =>
    rcases Nat.lt_or_ge gen N with hlt | hge
    · rw [mloop_oneGen] at hrun
      obtain ⟨stop, s₁, h1, hrun⟩ := bind_ok.1 hrun
      have hliv : MLiving P n m ds s₁ := by
        obtain ⟨v, s₁', e, h'⟩ := moneGen_total hc gen h
        rw [h1] at e; cases e; exact h'
      have hs1 := moneGen_since (N := fun k => k ≤ gen) (base := []) le_rfl ⟨s.log, rfl, fun e he => (hlog e he).le⟩ h1
      have hseed : ∀ t, (c.redrawn ((s.genSeed + (N - gen + 1)) % 2 ^ 32) t).stream (nextSeed s.genSeed) = c.stream (nextSeed s.genSeed) := by
        intro t
        refine if_neg ?_
        unfold nextSeed
        omega
      have hpub := (msinceInv (G := G) (fun k => k ≤ gen) [] (nextSeed s.genSeed)).publish
      cases stop with
      | true =>
        rw [if_pos rfl] at hrun
        cases hrun
        exfalso
        have h1 : s₁.genNum ≤ gen := hs1.1
        have h2 : N ≤ s₁.genNum := hreach
        omega
      | false =>
        rw [if_neg (by simp)] at hrun
        obtain ⟨_, s₂, h2, hrun⟩ := bind_ok.1 hrun
        cases h2
        have hs2 := hpub s₁ "algorithm" "after_generation" hs1
        have hl2 : MLiving P n m ds { s₁ with log := s₁.log ++ [s₁.event "algorithm" "after_generation"] } :=
          hliv.same rfl rfl rfl rfl rfl
        obtain ⟨t, s'', hr, hH, hpre⟩ := ih (gen + 1) hl2 (by omega) (by omega) (by omega) (by
          obtain ⟨evs, hl, hev⟩ := hs2.2.2
          intro e he
          have := hev e (by rw [List.nil_append] at hl; rw [← hl]; exact he)
          omega) hrun
        refine ⟨t, s'', ?_, hH, hpre⟩
        have hsd : s₁.genSeed = nextSeed s.genSeed := hs1.2.1
        have heq : (s₁.genSeed + (N - (gen + 1) + 1)) % 2 ^ 32 = (s.genSeed + (N - gen + 1)) % 2 ^ 32 := by
          rw [hsd]
          unfold nextSeed
          omega
        dsimp only at hr
        rw [heq] at hr
        rw [mloop_oneGen]
        refine (bind_of_ok ((moneGen_stream (hseed t)).trans h1)).trans ?_
        rw [if_neg (by simp)]
        exact hr
    · obtain rfl : gen = N := by omega
      have hse : (s.genSeed + (gen - gen + 1)) % 2 ^ 32 = nextSeed s.genSeed := by
        unfold nextSeed; congr 1; omega
      rw [hse]
      obtain ⟨t, ht⟩ := moneGen_makes hc hst hfree hops ha hmake gen h
      have hmk := ht (c.redrawn (nextSeed s.genSeed) t).stream (if_pos rfl)
      have hc' : (c.redrawn (nextSeed s.genSeed) t).Sound P n m ds := hc.withStream _
      obtain ⟨_, s'', hr, -⟩ := mloop_wp hc' (k + 1) gen h
      refine ⟨t, s'', hr, ?_, mloop_genNum (k + 1) gen le_rfl (.inr (by omega)) hr, s.log, ?_⟩
      · rw [mloop_oneGen] at hr
        obtain ⟨stop, s₁, h1, hr⟩ := bind_ok.1 hr
        obtain ⟨e, he, hh⟩ := hmk _ _ h1
        refine ⟨e, ?_, hh⟩
        cases stop with
        | true =>
          rw [if_pos rfl] at hr
          cases hr
          exact List.mem_append_left _ he
        | false =>
          rw [if_neg (by simp)] at hr
          obtain ⟨_, s₂, h2, hr⟩ := bind_ok.1 hr
          cases h2
          obtain ⟨evs, hl, -⟩ := mloop_since (N := fun _ => True) (base := s₁.log ++ [s₁.event "algorithm" "after_generation"])
            k (gen + 1) (fun _ _ _ => trivial) ⟨[], by simp; rfl, by simp⟩ hr
          rw [hl]
          exact List.mem_append_left _ (List.mem_append_left _ he)
      · have h0 : MLogSince (fun k => gen ≤ k) s.log s := ⟨[], by simp, by simp⟩
        obtain ⟨a, ha1, ha2⟩ := mloop_since (k + 1) gen (fun _ h _ => h) h0 hrun
        obtain ⟨b, hb1, hb2⟩ := mloop_since (k + 1) gen (fun _ h _ => h) h0 hr
        exact ⟨a, b, ha1, hb1, hlog, ha2, hb2⟩

theorem minit_stream {st : Nat → Tape} {s : MRun G} (h0 : st s.randomSeed = c.stream s.randomSeed) :
    minit { c with stream := st } s = minit c s := by
  unfold minit
  refine bind_congr fun x s₁ h1 => ?_
  simp only [PyM.get, Prod.mk.injEq, Except.ok.injEq] at h1
  obtain ⟨rfl, rfl⟩ := h1
  have e : msetSeed { c with stream := st } s.randomSeed = (msetSeed c s.randomSeed : MRM G Unit) := by
    unfold msetSeed
    simp only [h0]
  rw [e]
  rfl

theorem minit_wp (hc : c.Sound P n m ds) {s : MRun G} (hf : s.Fresh m ds) (hp : AllHave P s.w) :
    wp (minit c) (fun _ s' => MLiving P n m ds s') s := by
  unfold minit
  rw [wp_bind, wp_get, wp_bind]
  unfold msetSeed
  rw [wp_modify, wp_bind]
  unfold mcreate
  rw [wp_bind, wp_get]
  dsimp only
  rw [hf.inds]
  dsimp only
  rw [wp_bind, wp_mworld]
  refine ((hc.create { s.w with tape := c.stream s.randomSeed } hf.dirs hp).and
    (hc.creates { s.w with tape := c.stream s.randomSeed } hf.dirs)).mono ?_
  rintro l w ⟨⟨h5, h6⟩, h1, h2, h3, h4⟩
  rw [wp_modify, wp_bind]
  refine (mevaluate_wp hc (k := n) (l := l) hc.size ⟨⟨rfl, h1, h2, h3, h4⟩, h5, h6⟩).mono ?_
  rintro b s₁ ⟨hb, hp, hg, hIs, -, -, -⟩
  rw [wp_bind, wp_modify, wp_mpublish]
  refine ⟨⟨l, ⟨hp.inds, hp.length, hp.nodup, hp.exist, hp.dirs⟩, hIs⟩, hg, b, rfl, hp.exist b hb, ?_⟩
  obtain ⟨v, hv⟩ := hIs b hb
  dsimp only
  rw [hv.objs]
  simp

/-- Two completed runs were the same as far as anybody could see before generation `N` started, after which they may
differ. -/
def MSameUntil (N : Nat) (l l' : List MEvent) : Prop :=
  ∃ pre a b, l = pre ++ a ∧ l' = pre ++ b ∧ (∀ e ∈ pre, e.genNum < N) ∧ (∀ e ∈ a, N ≤ e.genNum) ∧ ∀ e ∈ b, N ≤ e.genNum

theorem mfinish_same {s s' : MRun G} (h : mfinish s = (.ok (), s')) : s' = s := by
  unfold mfinish at h
  rw [bind_of_ok (show PyM.get s = (.ok s, s) from rfl)] at h
  cases hb : s.bestOfRun with
  | none => rw [hb] at h; exact absurd (congrArg Prod.fst h) (by simp [raise])
  | some r =>
    rw [hb] at h
    obtain ⟨_, s₁, h1, h2⟩ := bind_ok.1 h
    unfold PyM.ofExcept at h1
    have := congrArg Prod.snd h1
    cases h2
    exact this.symm

theorem mevolve_makes (hc : c.Sound P n m ds) (hst : c.Steady f) (hfree : ∀ o ∈ c.sub.ops, ∀ refs, FreeM (o.apply refs))
    {os : List (MOp G)} {o : MOp G} (hops : c.sub.ops = os ++ [o]) (ha : o.arity = 1) {g : G} (hmake : o.CanMake P g) {N : Nat}
    {s s' : MRun G} (hf : s.Fresh m ds) (hp : AllHave P s.w) (hmax : c.maxGen < 2 ^ 32)
    (hseed : (s.genSeed + N) % 2 ^ 32 ≠ s.randomSeed) (hN : 1 ≤ N)
    (hrun : mevolve c s = (.ok (), s')) (hreach : N ≤ s'.genNum) :
    ∃ t s'', mevolve (c.redrawn ((s.genSeed + N) % 2 ^ 32) t) s = (.ok (), s'') ∧
      (∃ e ∈ s''.log, e.Holds N (f g)) ∧ MSameUntil N s'.log s''.log := by
  have hle : N ≤ c.maxGen := hreach.trans (C126_generations hf.log hf.genNum hrun).2.1
  unfold mevolve at hrun
  obtain ⟨_, s₁, h1, hrun⟩ := bind_ok.1 hrun
  obtain ⟨_, s₂, h2, hrun⟩ := bind_ok.1 hrun
  obtain ⟨_, s₃, h3, hrun⟩ := bind_ok.1 hrun
  cases h3
  obtain rfl := mfinish_same hrun
  clear hrun
  have hliv : MLiving P n m ds s₁ := by
    obtain ⟨v, s₁', e, h'⟩ := minit_wp hc hf hp
    rw [h1] at e; cases e; exact h'
  obtain ⟨hg1, hseed1, evs, hl1, hev1⟩ := Stays.of_ok (s := s) ((msinceInv (G := G) (fun k => k = 0) [] s.genSeed).init (c := c))
    ⟨hf.genNum, rfl, [], by simp [hf.log], by simp⟩ h1
  rw [List.nil_append] at hl1
  subst hl1
  unfold mafterInit at h2
  obtain ⟨x, s₁', h4, h2⟩ := bind_ok.1 h2
  cases h4
  obtain ⟨stop, s₄, h4, h2⟩ := bind_ok.1 h2
  obtain rfl := mstop_same h4
  have hredrawn : ∀ t, minit (c.redrawn ((s.genSeed + N) % 2 ^ 32) t) s = minit c s := fun t =>
    minit_stream (if_neg fun h => hseed h.symm)
  cases stop with
  | true =>
    exfalso
    rw [if_pos rfl] at h2
    cases h2
    have h5 : N ≤ s₄.genNum := hreach
    omega
  | false =>
    rw [if_neg (by simp)] at h2
    have hn1 : N ≤ s₂.genNum := hreach
    obtain ⟨t, s₅, hr, hH, hn2, pre, a, b, ha1, hb1, hpre, ha2, hb2⟩ := mloop_makes hc hst hfree hops ha hmake N c.maxGen 1 hliv
      hN (by omega) hmax (fun e he => by rw [hev1 e he]; omega) h2 hn1
    have hsd : (s₄.genSeed + (N - 1 + 1)) % 2 ^ 32 = (s.genSeed + N) % 2 ^ 32 := by
      rw [hseed1, Nat.sub_add_cancel hN]
    rw [hsd] at hr
    obtain ⟨_, s₆, he, -⟩ := mevolve_wp (hc.withStream (c.redrawn ((s.genSeed + N) % 2 ^ 32) t).stream) hf hp
    have he' := he
    unfold mevolve at he'
    obtain ⟨_, u₁, k1, he'⟩ := bind_ok.1 he'
    have := k1.symm.trans ((hredrawn t).trans h1)
    cases this
    obtain ⟨_, u₂, k2, he'⟩ := bind_ok.1 he'
    have hafter : mafterInit (c.redrawn ((s.genSeed + N) % 2 ^ 32) t) s₄ = (.ok (), s₅) := by
      unfold mafterInit
      refine (bind_of_ok (m := PyM.get) (s := s₄) rfl).trans ?_
      refine (bind_of_ok (show mstop (c.redrawn _ t) s₄.genNum s₄ = _ from h4)).trans ?_
      rw [if_neg (by simp)]
      exact hr
    have := k2.symm.trans hafter
    cases this
    obtain ⟨_, u₃, k3, he'⟩ := bind_ok.1 he'
    cases k3
    obtain rfl := mfinish_same he'
    refine ⟨t, _, he, ?_, pre, a ++ [s₂.event "algorithm" "evolution_finished"],
      b ++ [s₅.event "algorithm" "evolution_finished"], ?_, ?_, hpre, ?_, ?_⟩
    · obtain ⟨e, he, hh⟩ := hH
      exact ⟨e, List.mem_append_left _ he, hh⟩
    · show s₂.log ++ _ = _
      rw [ha1, List.append_assoc]
      rfl
    · show s₅.log ++ _ = _
      rw [hb1, List.append_assoc]
      rfl
    · intro e he
      rcases List.mem_append.1 he with he | he
      · exact ha2 e he
      · rw [List.mem_singleton.1 he]; exact hn1
    · intro e he
      rcases List.mem_append.1 he with he | he
      · exact hb2 e he
      · rw [List.mem_singleton.1 he]; exact hn2

end run

end Verif.Moo
