import Verif.Spec.Selection
import Verif.Props.Fitness
import Verif.Props.History
import Verif.Py.Sort

/-! # Lemmas about comparison of individuals and selection -/

namespace Verif.Evo
open PyM
variable {G : Type} {size : G → Nat} {d : Bool} {s s' : World G} {a b c r : Nat} {x y : ℚ}

theorem preferred_irrefl (d : Bool) (x : ℚ) : ¬ Preferred d x x := by
  cases d <;> simp [Preferred]

theorem preferred_trans {d : Bool} {x y z : ℚ} (h1 : Preferred d x y) (h2 : Preferred d y z) :
    Preferred d x z := by
  cases d <;> simp only [Preferred, if_true, Bool.false_eq_true, if_false] at * <;> linarith

theorem not_preferred_trans {d : Bool} {x y z : ℚ} (h1 : ¬ Preferred d x y) (h2 : ¬ Preferred d y z) :
    ¬ Preferred d x z := by
  cases d <;> simp only [Preferred, if_true, Bool.false_eq_true, if_false, not_lt] at * <;> linarith

theorem preferred_of_preferred_of_not {d : Bool} {x y z : ℚ} (h1 : Preferred d x y)
    (h2 : ¬ Preferred d z y) : Preferred d x z := by
  cases d <;> simp only [Preferred, if_true, Bool.false_eq_true, if_false, not_lt] at * <;> linarith

theorem HasScore.unique (h1 : HasScore size d s r x) (h2 : HasScore size d s r y) : x = y := by
  obtain ⟨i, b, q, hi, hh, rfl⟩ := h1
  obtain ⟨i', b', q', hi', hh', rfl⟩ := h2
  rw [hi] at hi'
  simp only [Option.some.injEq] at hi'
  subst hi'
  have h1 := hh.value.symm.trans hh'.value
  have h2 := hh.bloat.symm.trans hh'.bloat
  simp only [FVal.num.injEq] at h1
  subst h1 h2
  rfl

theorem HasScore.lt (h : HasScore size d s r x) : r < s.heap.length := by
  obtain ⟨i, b, q, hi, -⟩ := h
  exact (List.getElem?_eq_some_iff.1 hi).1

theorem HasScore.of_heap (h : HasScore size d s r x) (he : s'.heap[r]? = s.heap[r]?) :
    HasScore size d s' r x := by
  obtain ⟨i, b, q, hi, hh⟩ := h
  exact ⟨i, b, q, by rw [he, hi], hh⟩

theorem HasScore.ext {T : Nat → Prop} (h : HasScore size d s r x) (e : Ext T s s') (hr : ¬ T r) :
    HasScore size d s' r x := h.of_heap (e.same r h.lt hr)

theorem Evaluated.ext {T : Nat → Prop} {refs : List Nat} (h : Evaluated size d s refs) (e : Ext T s s')
    (hr : ∀ r ∈ refs, ¬ T r) : Evaluated size d s' refs := fun r hm =>
  let ⟨x, hx⟩ := h r hm
  ⟨x, hx.ext e (hr r hm)⟩

theorem Evaluated.valid {refs : List Nat} (h : Evaluated size d s refs) : Valid s refs := fun r hm =>
  let ⟨_, hx⟩ := h r hm
  hx.lt

theorem beats_iff (ha : HasScore size d s a x) (hb : HasScore size d s b y) :
    Beats size d s a b ↔ Preferred d x y := by
  constructor
  · rintro ⟨x', y', hx, hy, hp⟩
    rw [ha.unique hx, hb.unique hy]; exact hp
  · intro h; exact ⟨x, y, ha, hb, h⟩

theorem betterOf_eq (ha : HasScore size d s a x) (hb : HasScore size d s b y) :
    ∃ v, betterOf size s.heap a (some b) = .ok v ∧ (v = true ↔ Preferred d x y) := by
  obtain ⟨i, w, q, hi, hh, rfl⟩ := ha
  obtain ⟨i', w', q', hi', hh', rfl⟩ := hb
  unfold betterOf
  simp only [hi, hi']
  exact C23_better hh hh'

theorem augOf_eq (ha : HasScore size d s a x) : augOf size s.heap a = .ok (.num x) := by
  obtain ⟨i, w, q, hi, hh, rfl⟩ := ha
  unfold augOf
  simp only [hi]
  exact hh.augmented

theorem not_beats_trans (ha : HasScore size d s a x)
    (h1 : ¬ Beats size d s b a) (hb : ∃ y, HasScore size d s b y) (h2 : Beats size d s c a) :
    Beats size d s c b := by
  obtain ⟨y, hb⟩ := hb
  obtain ⟨z, x', hc, ha', hp⟩ := h2
  obtain rfl := ha.unique ha'
  rw [beats_iff hb ha] at h1
  rw [beats_iff hc hb]
  exact preferred_of_preferred_of_not hp h1

theorem beats_trans (h1 : Beats size d s a b) (h2 : Beats size d s b c) : Beats size d s a c := by
  obtain ⟨x, y, ha, hb, hp⟩ := h1
  obtain ⟨y', z, hb', hc, hq⟩ := h2
  obtain rfl := hb.unique hb'
  exact ⟨x, z, ha, hc, preferred_trans hp hq⟩

theorem beats_irrefl : ¬ Beats size d s a a := by
  rintro ⟨x, y, ha, hb, hp⟩
  obtain rfl := ha.unique hb
  exact preferred_irrefl _ _ hp

/-- A first best element is beaten by nobody. -/
theorem FirstBest.not_beaten {l : List Nat} (h : FirstBest (Beats size d s) l b) (p : Nat) (hp : p ∈ l) :
    ¬ Beats size d s p b := by
  obtain ⟨pre, post, rfl, h1, h2⟩ := h
  simp only [List.mem_append, List.mem_cons] at hp
  rcases hp with hp | rfl | hp
  · intro hb; exact beats_irrefl (beats_trans hb (h1 p hp))
  · exact beats_irrefl
  · exact h2 p hp

theorem FirstBest.mem {B : Nat → Nat → Prop} {l : List Nat} (h : FirstBest B l b) : b ∈ l := by
  obtain ⟨pre, post, rfl, -⟩ := h; simp

/-- The winner loop of a tournament (and the loop of the population evaluator) finds the first best. -/
theorem winnerLoop_wp (w : Nat) (ps : List Nat) (hw : Evaluated size d s (w :: ps)) :
    wp (winnerLoop size w ps) (fun b s' => s' = s ∧ FirstBest (Beats size d s) (w :: ps) b) s := by
  suffices ∀ ps pre w done, Evaluated size d s (pre ++ w :: done ++ ps) →
      (∀ p ∈ pre, Beats size d s w p) → (∀ p ∈ done, ¬ Beats size d s p w) →
      wp (winnerLoop size w ps) (fun b s' => s' = s ∧
        FirstBest (Beats size d s) (pre ++ w :: done ++ ps) b) s from
    this ps [] w [] (by simpa using hw) (by simp) (by simp)
  intro ps
  induction ps with
  | nil =>
    intro pre w done _ h1 h2
    unfold winnerLoop
    rw [wp_pure]
    exact ⟨rfl, pre, done, by simp, h1, h2⟩
  | cons p ps ih =>
    intro pre w done he h1 h2
    unfold winnerLoop
    obtain ⟨x, hx⟩ := he p (by simp)
    obtain ⟨y, hy⟩ := he w (by simp)
    obtain ⟨v, hv, hi⟩ := betterOf_eq hx hy
    rw [wp_bind, wp_reading]
    refine ⟨v, hv, ?_⟩
    cases v with
    | true =>
      simp only [if_true]
      have hbeat : Beats size d s p w := (beats_iff hx hy).2 (hi.1 rfl)
      have := ih (pre ++ w :: done) p [] (by simpa using he) ?_ (by simp)
      · simpa using this
      · intro q hq
        simp only [List.mem_append, List.mem_cons] at hq
        rcases hq with hq | rfl | hq
        · exact beats_trans hbeat (h1 q hq)
        · exact hbeat
        · exact not_beats_trans hy (h2 q hq) (he q (by simp [hq])) hbeat
    | false =>
      simp only [Bool.false_eq_true, if_false]
      have hbeat : ¬ Beats size d s p w := fun h => by
        have := hi.2 ((beats_iff hx hy).1 h); cases this
      have := ih pre w (done ++ [p]) (by simpa using he) h1 ?_
      · simpa using this
      · intro q hq
        simp only [List.mem_append, List.mem_singleton] at hq
        rcases hq with hq | rfl
        · exact h2 q hq
        · exact hbeat

theorem winnerLoop_wlp (w : Nat) (ps : List Nat) :
    wlp (winnerLoop size w ps) (fun b s' => s' = s ∧ b ∈ w :: ps) s := by
  induction ps generalizing w with
  | nil => unfold winnerLoop; simp
  | cons p ps ih =>
    unfold winnerLoop
    rw [wlp_bind, wlp_reading]
    intro v _
    refine (ih _).mono ?_
    rintro b s' ⟨h1, h2⟩
    refine ⟨h1, ?_⟩
    cases v <;> simp only [if_true, Bool.false_eq_true, if_false, List.mem_cons] at h2 ⊢ <;> tauto

/-! ## Copies -/

theorem copyOf_selected {i : Ind G} {src : Nat} (hi : s.heap[src]? = some i) (name : String) :
    CopyOf s { s with nextId := s.nextId + 1, heap := s.heap ++ [i.selected s.nextId name] } src
      s.heap.length where
  fresh := le_refl _
  valid := by simp
  genome := by simp [genomeAt, hi, copy_genome]
  mode := by simp [modeAt, hi, copy_mode]
  signed := ⟨i, i.selected s.nextId name, hi, by simp, le_refl _, ⟨rfl, rfl, rfl, rfl, rfl, ⟨name, rfl⟩⟩⟩

theorem CopyOf.left {T : Nat → Prop} {s₀ : World G} {src : Nat} (h : CopyOf s s' src r)
    (e : Ext T s₀ s) (hsrc : src < s₀.heap.length) (hT : ¬ T src) : CopyOf s₀ s' src r where
  fresh := e.len.trans h.fresh
  valid := h.valid
  genome := by rw [h.genome]; unfold genomeAt; rw [e.same src hsrc hT]
  mode := by rw [h.mode]; unfold modeAt; rw [e.same src hsrc hT]
  signed := by
    obtain ⟨j, i, h1, h2, h3, h4⟩ := h.signed
    exact ⟨j, i, by rw [← h1, e.same src hsrc hT], h2, e.next.trans h3, h4⟩

theorem CopyOf.right {T : Nat → Prop} {s'' : World G} {src : Nat} (h : CopyOf s s' src r)
    (e : Ext T s' s'') (hT : ¬ T r) : CopyOf s s'' src r where
  fresh := h.fresh
  valid := lt_of_lt_of_le h.valid e.len
  genome := by rw [← h.genome]; unfold genomeAt; rw [e.same r h.valid hT]
  mode := by rw [← h.mode]; unfold modeAt; rw [e.same r h.valid hT]
  signed := by
    obtain ⟨j, i, h1, h2, h3, h4⟩ := h.signed
    exact ⟨j, i, h1, by rw [← h2, e.same r h.valid hT], h3, h4⟩

/-- Making copies one after the other: `f x` selects an individual satisfying `R x` and copies it. -/
theorem copies_wlp {α : Type} {f : α → WM G Nat} {R : α → Nat → Prop} (xs : List α) (source : List Nat)
    (hsrc : Valid s source)
    (hf : ∀ x ∈ xs, ∀ s₁, Ext (fun _ => False) s s₁ → wlp (f x) (fun r s₂ => Ext (fun _ => False) s₁ s₂ ∧
      ∃ src ∈ source, R x src ∧ CopyOf s₁ s₂ src r) s₁) :
    wlp (mapL f xs) (fun new s' => Ext (fun _ => False) s s' ∧ new.Nodup ∧
      List.Forall₂ (fun x r => ∃ src ∈ source, R x src ∧ CopyOf s s' src r) xs new) s := by
  refine (wlp_mapL (I := fun ys new s' => Ext (fun _ => False) s s' ∧ new.Nodup ∧
      List.Forall₂ (fun x r => ∃ src ∈ source, R x src ∧ CopyOf s s' src r) ys new)
      ⟨Ext.refl _ _, by simp, .nil⟩ ?_)
  rintro pre x post new s₁ hxs ⟨h1, h2, h3⟩
  refine (hf x (by simp [hxs]) s₁ h1).mono ?_
  rintro r s₂ ⟨e, src, hm, hR, hc⟩
  refine ⟨(h1.trans e).mono (by simp), ?_, ?_⟩
  · rw [List.nodup_append]
    refine ⟨h2, by simp, ?_⟩
    rintro a ha b hb rfl
    simp only [List.mem_singleton] at hb
    subst hb
    obtain ⟨y, -, hy⟩ : ∃ y ∈ pre, ∃ src ∈ source, R y src ∧ CopyOf s s₁ src a := by
      obtain ⟨k, hk, rfl⟩ := List.getElem_of_mem ha
      have hk' : k < pre.length := by rw [h3.length_eq]; exact hk
      exact ⟨pre[k], List.getElem_mem _, h3.get hk' hk⟩
    obtain ⟨_, _, _, hcy⟩ := hy
    have := hcy.valid
    have := hc.fresh
    omega
  · refine List.rel_append (h3.imp ?_) (.cons ⟨src, hm, hR, hc.left h1 (hsrc src hm) (fun h => h)⟩ .nil)
    rintro y r' ⟨src', hm', hR', hc'⟩
    exact ⟨src', hm', hR', hc'.right e (fun h => h)⟩

theorem copies_wp {α : Type} {f : α → WM G Nat} {R : α → Nat → Prop} (xs : List α) (source : List Nat)
    (hsrc : Valid s source)
    (hf : ∀ x ∈ xs, ∀ s₁, Ext (fun _ => False) s s₁ → wp (f x) (fun r s₂ => Ext (fun _ => False) s₁ s₂ ∧
      ∃ src ∈ source, R x src ∧ CopyOf s₁ s₂ src r) s₁) :
    wp (mapL f xs) (fun new s' => Ext (fun _ => False) s s' ∧ new.Nodup ∧
      List.Forall₂ (fun x r => ∃ src ∈ source, R x src ∧ CopyOf s s' src r) xs new) s := by
  have htot : wp (mapL f xs) (fun _ _ => True) s := by
    refine (wp_mapL (I := fun _ _ s' => Ext (fun _ => False) s s') (Ext.refl _ _) ?_).mono fun _ _ _ => trivial
    rintro pre x post new s₁ hxs h1
    refine (hf x (by simp [hxs]) s₁ h1).mono ?_
    rintro r s₂ ⟨e, -⟩
    exact (h1.trans e).mono (by simp)
  exact (htot.and (copies_wlp xs source hsrc fun x hx s₁ h1 => (hf x hx s₁ h1).wlp)).mono fun _ _ h => h.2

end Verif.Evo
