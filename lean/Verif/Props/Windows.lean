import Verif.Props.CreatorObjects
import Verif.Props.GPCreators

/-! # C98: the depths a tree creator is configured with reach its trees -/

namespace Verif.GP
open PyM Evo

/-- The genome is a legal program built from its own sets no leaf of which is deeper than `hi`; all leaves lie between `lo`
and `hi` if every function has parameters. -/
def Windowed (lo hi : Nat) (g : Ind) : Prop :=
  ∃ p : Prog, g.tree = p.flatten ∧ p.Ok ∧ p.BuiltFrom g.cfg ∧ p.InWindow 0 hi ∧ (g.cfg.NonNullary → p.InWindow lo hi)

theorem fullCreate_windowed (c : Cfg) (d : Nat) (ty : Option Ty) :
    Post (fullCreate c d ty) fun l => Windowed d d ⟨c, l⟩ := by
  intro t l t' h
  rcases C10_full c d ty t with ⟨l', t'', h', p, h1, h2, h3, h4, h5⟩ | ⟨e, t'', h', -⟩
  · rw [h] at h'
    simp only [Prod.mk.injEq, Except.ok.injEq] at h'
    exact ⟨p, h'.1.trans h1, h2, h3, h4, h5⟩
  · rw [h] at h'
    simp at h'

theorem growCreate_windowed (c : Cfg) (pPrune : ℚ) {lo hi : Nat} (hle : lo ≤ hi) (ty : Option Ty) :
    Post (growCreate c pPrune lo hi ty) fun l => Windowed lo hi ⟨c, l⟩ := by
  intro t l t' h
  rcases C11_grow c pPrune lo hi hle ty t with ⟨l', t'', h', p, h1, h2, h3, h4, h5⟩ | ⟨e, t'', h', -⟩
  · rw [h] at h'
    simp only [Prod.mk.injEq, Except.ok.injEq] at h'
    exact ⟨p, h'.1.trans h1, h2, h3, h4, h5⟩
  · rw [h] at h'
    simp at h'

theorem create_windowed (o : CreatorObj) {mk : Cfg → Option Ty → Rand (List Node)} {lo hi : Nat}
    (hmk : ∀ c ty, Post (mk c ty) fun l => Windowed lo hi ⟨c, l⟩) :
    Stocks (fun b i => CarriesObj o b i ∧ Windowed lo hi i.genome) (o.create mk) := by
  intro n h s
  refine ((create_stocks o mk n h s).and ?_).mono (Q := fun res s' => _ ∧ ∀ r ∈ res, ∃ i, s'.heap[r]? = some i ∧ Windowed lo hi i.genome) ?_
  rotate_left
  · rintro res s' ⟨⟨h1, h2, h3⟩, h4⟩
    refine ⟨h1, h2, fun r hr => ?_⟩
    obtain ⟨i, hi, hc⟩ := h3 r hr
    obtain ⟨i', hi', hw⟩ := h4 r hr
    rw [hi] at hi'
    cases hi'
    exact ⟨i, hi, hc, hw⟩
  · unfold CreatorObj.create
    cases hc : handleInputTypes (some o.functionSet) (some o.terminalSet) o.rootType o.erc with
    | error e =>
      dsimp only
      rw [wlp_ite]
      refine ⟨fun h0 => ?_, fun _ => by rw [wlp_bind, wlp_modify, wlp_raise]; trivial⟩
      rw [wlp_pure]
      simp
    | ok cfg =>
      dsimp only
      unfold treeCreator
      have hq : Post (do
          let t ← mk cfg cfg.rootType
          pure ⟨cfg, t⟩ : Rand Ind) (Windowed lo hi) :=
        Post.bind (hmk cfg cfg.rootType) fun l hl => Post.pure hl
      refine (createIndividuals_stocks (⟨cfg, []⟩ : Ind) hq (gpFit o.bloatWeight) o.updateParents n h s).mono ?_
      rintro res s' ⟨h1, h2, h3⟩ r hr
      obtain ⟨i, hi, hn, hg⟩ := h3 r hr
      exact ⟨i, hi, hg⟩

/-- **C98, full.** The trees of a `FullCreator` have the maximal depth it was constructed with (2 to 4 is the default
window): no leaf is deeper and, if every function has parameters, no leaf is less deep. -/
theorem C98_full_depth {a : CreatorArgs} {o : CreatorObj} (h : fullInit a = .ok o) :
    Stocks (fun _ i => Windowed (a.initDepth.getD (2, 4)).2 (a.initDepth.getD (2, 4)).2 i.genome) (fullObjCreate o) := by
  obtain ⟨-, -, h3⟩ := treeCreatorInit_ok h
  have e : o.initDepth = a.initDepth.getD (2, 4) := by rw [h3]
  rw [← e]
  exact (create_windowed o fun c ty => fullCreate_windowed c _ ty).mono fun _ _ h => h.2

/-- **C98, grow.** The leaves of the trees of a `GrowCreator` lie in the window of depths it was constructed with. -/
theorem C98_grow_depth {a : CreatorArgs} {o : CreatorObj} (h : growInit a = .ok o) (pPrune : ℚ)
    (hle : (a.initDepth.getD (2, 4)).1 ≤ (a.initDepth.getD (2, 4)).2) :
    Stocks (fun _ i => Windowed (a.initDepth.getD (2, 4)).1 (a.initDepth.getD (2, 4)).2 i.genome) (growObjCreate o pPrune) := by
  obtain ⟨-, -, h3⟩ := treeCreatorInit_ok h
  have e : o.initDepth = a.initDepth.getD (2, 4) := by rw [h3]
  rw [← e] at hle ⊢
  exact (create_windowed o fun c ty => growCreate_windowed c _ hle ty).mono fun _ _ h => h.2

/-! ## The ramp -/

/-- The individuals at `rs` carry the configuration of `o` and have the window. -/
def Have (o : CreatorObj) (b : Bool) (lo hi : Nat) (s : World Ind) (rs : List Nat) : Prop :=
  ∀ r ∈ rs, ∃ i, s.heap[r]? = some i ∧ CarriesObj o b i ∧ Windowed lo hi i.genome

theorem Have.ext {o : CreatorObj} {b : Bool} {lo hi : Nat} {s s' : World Ind} {rs : List Nat} (h : Have o b lo hi s rs)
    (x : Ext (fun _ => False) s s') : Have o b lo hi s' rs := fun r hr =>
  (h r hr).imp fun _ h => ⟨x.getElem? (fun h => h) h.1, h.2⟩

/-- One depth of the ramp: `g` individuals of the grow creator, then `g` of the full one. -/
def Rung (o : HalfObj) (b : Bool) (g : Nat) (s : World Ind) (d : Nat) (block : List Nat) : Prop :=
  ∃ grown full, block = grown ++ full ∧ grown.length = g ∧ full.length = g ∧
    Have { o.grow.1 with initDepth := (o.own.initDepth.1, d) } b o.own.initDepth.1 d s grown ∧
    Have { o.full with initDepth := (o.own.initDepth.1, d) } b d d s full

theorem Rung.ext {o : HalfObj} {b : Bool} {g d : Nat} {s s' : World Ind} {block : List Nat} (h : Rung o b g s d block)
    (x : Ext (fun _ => False) s s') : Rung o b g s' d block := by
  obtain ⟨grown, full, h1, h2, h3, h4, h5⟩ := h
  exact ⟨grown, full, h1, h2, h3, h4.ext x, h5.ext x⟩

theorem halfGroups_rungs (o : HalfObj) (b : Bool) (g : Nat) (ds : List Nat) (hds : ∀ d ∈ ds, o.own.initDepth.1 ≤ d) (s : World Ind) :
    wlp (halfGroups (fun d => growObjCreate { o.grow.1 with initDepth := (o.own.initDepth.1, d) } o.grow.2)
      (fun d => fullObjCreate { o.full with initDepth := (o.own.initDepth.1, d) }) g b ds)
      (fun res s' => Ext (fun _ => False) s s' ∧ ∃ blocks, res = List.flatten blocks ∧ List.Forall₂ (Rung o b g s') ds blocks) s := by
  induction ds generalizing s with
  | nil =>
    unfold halfGroups
    rw [wlp_pure]
    exact ⟨Ext.refl _ _, [], rfl, .nil⟩
  | cons d ds ih =>
    unfold halfGroups
    rw [wlp_bind]
    refine (create_windowed _ (fun c ty => growCreate_windowed c _ (hds d (by simp)) ty) g b s).mono fun grown s₁ ⟨l1, x1, h1⟩ => ?_
    rw [wlp_bind]
    refine (create_windowed _ (fun c ty => fullCreate_windowed c _ ty) g b s₁).mono fun full s₂ ⟨l2, x2, h2⟩ => ?_
    rw [wlp_bind]
    refine (ih (fun d' h => hds d' (by simp [h])) s₂).mono fun rest s₃ ⟨x3, blocks, h3, h4⟩ => ?_
    rw [wlp_pure]
    refine ⟨((x1.trans x2).trans x3).mono (by simp), (grown ++ full) :: blocks, by rw [h3]; rfl, .cons ?_ h4⟩
    have g1 : Have { o.grow.1 with initDepth := (o.own.initDepth.1, d) } b o.own.initDepth.1 d s₁ grown := h1
    have g2 : Have { o.full with initDepth := (o.own.initDepth.1, d) } b d d s₂ full := h2
    exact ⟨grown, full, rfl, l1, l2, (g1.ext x2).ext x3, g2.ext x3⟩

/-- **C98, half.** A `HalfCreator` asked for `n` trees makes, for each depth of its own window, equally many trees of that
maximal depth with the grow and with the full creator, and the missing ones with the full creator at the largest depth -
whatever windows the two creators themselves were constructed with, and with their sets, types and bloat weights. -/
theorem C98_half_depths (o : HalfObj) (hle : o.own.initDepth.1 ≤ o.own.initDepth.2) (n : Nat) (b : Bool) (s : World Ind) :
    wlp (o.create n b) (fun res s' => res.length = n ∧ ∃ blocks missing, res = List.flatten blocks ++ missing ∧
      List.Forall₂ (Rung o b (n / (2 * (o.own.initDepth.2 + 1 - o.own.initDepth.1))) s')
        (List.range' o.own.initDepth.1 (o.own.initDepth.2 + 1 - o.own.initDepth.1)) blocks ∧
      missing.length = n - 2 * (n / (2 * (o.own.initDepth.2 + 1 - o.own.initDepth.1))) * (o.own.initDepth.2 + 1 - o.own.initDepth.1) ∧
      Have { o.full with initDepth := (o.own.initDepth.1, o.own.initDepth.2) } b o.own.initDepth.2 o.own.initDepth.2 s' missing) s := by
  unfold HalfObj.create Evo.halfCreate
  obtain ⟨k, hk⟩ : ∃ k, o.own.initDepth.2 + 1 - o.own.initDepth.1 = k := ⟨_, rfl⟩
  have hlast : o.own.initDepth.1 + k - 1 = o.own.initDepth.2 := by omega
  rw [hk]
  dsimp only
  rw [hlast, wlp_ite]
  refine ⟨fun _ => by simp, fun _ => ?_⟩
  have hr : (List.range k).map (o.own.initDepth.1 + ·) = List.range' o.own.initDepth.1 k := (List.range'_eq_map_range).symm
  rw [hr, wlp_bind]
  refine (halfGroups_rungs o b _ _ (fun d hd => (List.mem_range'_1.1 hd).1) s).mono fun inds s₁ ⟨x1, blocks, h1, h2⟩ => ?_
  have hlen : inds.length = 2 * (n / (2 * k)) * k := by
    rw [h1, List.length_flatten]
    have : ∀ (ds : List Nat) (bs : List (List Nat)), List.Forall₂ (Rung o b (n / (2 * k)) s₁) ds bs →
        (bs.map List.length).sum = 2 * (n / (2 * k)) * ds.length := by
      intro ds bs h
      induction h with
      | nil => rfl
      | cons h _ ih =>
        obtain ⟨grown, full, e, l1, l2, -⟩ := h
        rw [List.map_cons, List.sum_cons, ih, e, List.length_append, l1, l2, List.length_cons, Nat.mul_add]
        omega
    rw [this _ _ h2, List.length_range']
  have hbound : 2 * (n / (2 * k)) * k ≤ n := by
    have := Nat.div_mul_le_self n (2 * k)
    calc 2 * (n / (2 * k)) * k = n / (2 * k) * (2 * k) := by ring
      _ ≤ n := this
  rw [wlp_ite]
  constructor
  · intro _
    rw [wlp_bind]
    refine (create_windowed _ (fun c ty => fullCreate_windowed c _ ty) (n - inds.length) b s₁).mono fun more s₂ ⟨l2, x2, h3⟩ => ?_
    rw [wlp_pure]
    refine ⟨by rw [List.length_append, l2, hlen]; omega, blocks, more, by rw [h1], ?_, by rw [l2, hlen], h3⟩
    exact h2.imp fun _ _ h => h.ext x2
  · intro hn
    rw [wlp_pure]
    refine ⟨by omega, blocks, [], by rw [h1, List.append_nil], h2, by rw [List.length_nil]; omega, ?_⟩
    simp [Have]

/-! ## Instances -/

namespace Sample

example := C98_full_depth (a := halfArgs) rfl
example := C98_grow_depth (a := halfArgs) rfl (1 / 2) (by decide)

/-- A creator of its own window, 1 to 2, with sub-creators constructed with the window 5 to 9. -/
def rampObj : HalfObj := ⟨{ halfOwn 0 with initDepth := (1, 2) }, ({ halfOwn 0 with initDepth := (5, 9) }, 1 / 2),
  { halfOwn 0 with initDepth := (5, 9) }⟩

example : (rampObj.create 5 true ⟨[], 0, fun n => n⟩).1 = .ok [0, 1, 2, 3, 4] := by decide +kernel
example := C98_half_depths rampObj (by decide) 5 true

end Sample

end Verif.GP
