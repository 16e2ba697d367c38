import Verif.Model.Creation
import Verif.Spec.Run
import Mathlib.Tactic.Ring

/-! # Creators meet their contract -/

namespace Verif.Evo
open PyM
variable {G : Type}

/-- The individuals of `res` are new, distinct, valid and compared in the way `m`. -/
structure NewInds (m : Mode) (s s' : World G) (res : List Nat) : Prop where
  ext : Ext (fun _ => False) s s'
  nodup : res.Nodup
  new : ∀ r ∈ res, s.heap.length ≤ r ∧ r < s'.heap.length ∧ modeAt s' r = some m

theorem newInds_nil (m : Mode) (s : World G) : NewInds m s s [] := ⟨Ext.refl _ _, by simp, by simp⟩

theorem NewInds.append {m : Mode} {s s₁ s₂ : World G} {a b : List Nat} (h1 : NewInds m s s₁ a)
    (h2 : NewInds m s₁ s₂ b) : NewInds m s s₂ (a ++ b) where
  ext := (h1.ext.trans h2.ext).mono (by simp)
  nodup := by
    rw [List.nodup_append]
    refine ⟨h1.nodup, h2.nodup, ?_⟩
    rintro x hx y hy rfl
    have := (h1.new x hx).2.1
    have := (h2.new x hy).1
    omega
  new := by
    intro r hr
    rw [List.mem_append] at hr
    rcases hr with hr | hr
    · obtain ⟨g1, g2, g3⟩ := h1.new r hr
      refine ⟨g1, lt_of_lt_of_le g2 h2.ext.len, ?_⟩
      unfold modeAt
      rw [h2.ext.mode g2]
      exact g3
    · obtain ⟨g1, g2, g3⟩ := h2.new r hr
      exact ⟨h1.ext.len.trans g1, g2, g3⟩

theorem creatorGood_iff {m : Mode} {create : Nat → Bool → WM G (List Nat)} :
    CreatorGood m create ↔ ∀ n s, wlp (create n m.hib) (fun res s' => NewInds m s s' res) s := by
  constructor
  · exact fun h n s => (h n s).mono fun res s' h => ⟨h.1, h.2.1, h.2.2⟩
  · exact fun h n s => (h n s).mono fun res s' h => ⟨h.1, h.2, h.3⟩

theorem newInds_wp (empty : G) (fit : Fit) (up : Bool) (n : Nat) (s : World G) :
    wp (mapL (fun (_ : Nat) => newInd empty fit up) (List.range n)) (fun res s' =>
      NewInds ⟨fit.hib, fit.bloat⟩ s s' res ∧ res.length = n) s := by
  have := wp_mapL (f := fun (_ : Nat) => newInd empty fit up) (xs := List.range n) (s := s)
    (I := fun ys res s' => NewInds ⟨fit.hib, fit.bloat⟩ s s' res ∧ res.length = ys.length)
    ⟨newInds_nil _ _, rfl⟩ (by
      rintro pre x post ys s₁ _ ⟨h1, h2⟩
      rw [wp_newInd]
      refine ⟨h1.append ⟨Ext.push _ _ rfl _, by simp, ?_⟩, by simp [h2]⟩
      intro r hr
      simp only [List.mem_singleton] at hr
      subst hr
      refine ⟨le_refl _, by simp, ?_⟩
      simp [modeAt, freshInd, Ind.mode])
  exact this.mono fun res s' h => ⟨h.1, by simpa using h.2⟩

/-- A computation that only changes individuals in `res`, keeping their mode. -/
theorem NewInds.fill {m : Mode} {s s₁ s₂ : World G} {res : List Nat} (h : NewInds m s s₁ res)
    (e : Ext (· ∈ res) s₁ s₂) : NewInds m s s₂ res where
  ext := (h.ext.trans e).mono (by
    rintro i hi (hf | hm)
    · exact hf
    · have := (h.new i hm).1; omega)
  nodup := h.nodup
  new := fun r hr => by
    obtain ⟨g1, g2, g3⟩ := h.new r hr
    refine ⟨g1, lt_of_lt_of_le g2 e.len, ?_⟩
    unfold modeAt
    rw [e.mode g2]
    exact g3

theorem fillGenomes_wlp (genome : Rand G) (refs : List Nat) (s : World G) :
    wlp (forL (fun r => do
      let g ← rand genome
      update r fun i => { i with genome := g }) refs) (fun _ s' => Ext (· ∈ refs) s s') s := by
  have := wlp_forL (f := fun r => do
      let g ← rand genome
      update r fun i => { i with genome := g }) (xs := refs) (s := s)
    (I := fun ys (s' : World G) => Ext (· ∈ ys) s s') (Ext.refl _ _) (by
      rintro pre r post s₁ _ h
      rw [wlp_bind, wlp_rand]
      intro g t _
      rw [wlp_update]
      refine ((h.trans (Ext.tape s₁ t fun _ => False)).trans
        (Ext.update { s₁ with tape := t } r (fun i => { i with genome := g }) fun _ => rfl)).mono ?_
      rintro i - ((h | h) | h)
      · simp [h]
      · exact h.elim
      · simp [h])
  exact this

theorem createIndividuals_wlp (empty : G) (genome : Rand G) (fit : Bool → Fit) (up : Bool) (n : Nat)
    (h : Bool) (s : World G) :
    wlp (createIndividuals empty genome fit up n h) (fun res s' =>
      NewInds ⟨(fit h).hib, (fit h).bloat⟩ s s' res ∧ res.length = n) s := by
  unfold createIndividuals
  rw [wlp_bind]
  refine (newInds_wp empty (fit h) up n s).wlp.mono ?_
  rintro res s₁ ⟨h1, h2⟩
  rw [wlp_bind]
  refine (fillGenomes_wlp genome res s₁).mono fun _ s₂ h3 => ?_
  rw [wlp_pure]
  exact ⟨h1.fill h3, h2⟩

/-- Vector and tree creators meet the contract. -/
theorem createIndividuals_good (empty : G) (genome : Rand G) (fit : Bool → Fit) (up : Bool) {m : Mode}
    (hf : (fit m.hib).hib = m.hib ∧ (fit m.hib).bloat = m.bloat) :
    CreatorGood m (createIndividuals empty genome fit up) := by
  rw [creatorGood_iff]
  intro n s
  refine (createIndividuals_wlp empty genome fit up n _ s).mono fun res s' hr => ?_
  have : (⟨(fit m.hib).hib, (fit m.hib).bloat⟩ : Mode) = m := by
    obtain ⟨a, b⟩ := m
    simp only [Mode.mk.injEq]
    exact hf
  rw [this] at hr
  exact hr.1

/-- A creator that makes as many individuals as it is asked for. -/
def CreatorCounts (create : Nat → Bool → WM G (List Nat)) : Prop :=
  ∀ n h s, wlp (create n h) (fun res _ => res.length = n) s

theorem createIndividuals_counts (empty : G) (genome : Rand G) (fit : Bool → Fit) (up : Bool) :
    CreatorCounts (createIndividuals empty genome fit up) := fun n h s =>
  (createIndividuals_wlp empty genome fit up n h s).mono fun _ _ h => h.2

theorem halfGroups_good {m : Mode} {grow full : Nat → Nat → Bool → WM G (List Nat)}
    (hg : ∀ d, CreatorGood m (grow d)) (hf : ∀ d, CreatorGood m (full d)) (k : Nat) (ds : List Nat) (s : World G) :
    wlp (halfGroups grow full k m.hib ds) (fun res s' => NewInds m s s' res) s := by
  induction ds generalizing s with
  | nil => unfold halfGroups; rw [wlp_pure]; exact newInds_nil _ _
  | cons d ds ih =>
    unfold halfGroups
    rw [wlp_bind]
    refine (creatorGood_iff.1 (hg d) k s).mono fun a s₁ h1 => ?_
    rw [wlp_bind]
    refine (creatorGood_iff.1 (hf d) k s₁).mono fun b s₂ h2 => ?_
    rw [wlp_bind]
    refine (ih s₂).mono fun rest s₃ h3 => ?_
    rw [wlp_pure]
    exact (h1.append h2).append h3

/-- The half-and-half creator meets the contract if its two sub-creators do. -/
theorem halfCreate_good {m : Mode} {grow full : Nat → Nat → Bool → WM G (List Nat)}
    (hg : ∀ d, CreatorGood m (grow d)) (hf : ∀ d, CreatorGood m (full d)) (minDepth depths : Nat) :
    CreatorGood m (halfCreate grow full minDepth depths) := by
  rw [creatorGood_iff]
  intro n s
  unfold halfCreate
  rw [wlp_ite]
  refine ⟨fun _ => by simp, fun _ => ?_⟩
  rw [wlp_bind]
  refine (halfGroups_good hg hf _ _ s).mono fun inds s₁ h1 => ?_
  rw [wlp_ite]
  refine ⟨fun _ => ?_, fun _ => by rw [wlp_pure]; exact h1⟩
  rw [wlp_bind]
  refine (creatorGood_iff.1 (hf _) _ s₁).mono fun more s₂ h2 => ?_
  rw [wlp_pure]
  exact h1.append h2

theorem halfGroups_counts {grow full : Nat → Nat → Bool → WM G (List Nat)}
    (hg : ∀ d, CreatorCounts (grow d)) (hf : ∀ d, CreatorCounts (full d)) (k : Nat) (h : Bool)
    (ds : List Nat) (s : World G) :
    wlp (halfGroups grow full k h ds) (fun res _ => res.length = ds.length * (2 * k)) s := by
  induction ds generalizing s with
  | nil => unfold halfGroups; rw [wlp_pure]; simp
  | cons d ds ih =>
    unfold halfGroups
    rw [wlp_bind]
    refine (hg d k h s).mono fun a s₁ h1 => ?_
    rw [wlp_bind]
    refine (hf d k h s₁).mono fun b s₂ h2 => ?_
    rw [wlp_bind]
    refine (ih s₂).mono fun rest s₃ h3 => ?_
    rw [wlp_pure]
    simp only [List.length_append, List.length_cons, h1, h2, h3]
    ring

/-- The half-and-half creator makes exactly as many individuals as it is asked for. -/
theorem halfCreate_counts {grow full : Nat → Nat → Bool → WM G (List Nat)}
    (hg : ∀ d, CreatorCounts (grow d)) (hf : ∀ d, CreatorCounts (full d)) (minDepth depths : Nat) :
    CreatorCounts (halfCreate grow full minDepth depths) := by
  intro n h s
  unfold halfCreate
  rw [wlp_ite]
  refine ⟨fun _ => by simp, fun hk => ?_⟩
  rw [wlp_bind]
  refine (halfGroups_counts hg hf _ h _ s).mono fun inds s₁ h1 => ?_
  simp only [List.length_map, List.length_range] at h1
  have hle : inds.length ≤ n := by
    rw [h1, show depths * (2 * (n / (2 * depths))) = n / (2 * depths) * (2 * depths) by ring]
    exact Nat.div_mul_le_self n (2 * depths)
  rw [wlp_ite]
  refine ⟨fun _ => ?_, fun hn => by rw [wlp_pure]; omega⟩
  rw [wlp_bind]
  refine (hf _ _ h s₁).mono fun more s₂ h2 => ?_
  rw [wlp_pure, List.length_append, h2]
  omega

end Verif.Evo
