import Verif.Lemmas.History
import Verif.Model.NSGA2Library

/-! # C45 for multi-objective runs: what an operator does to the individuals it is applied to -/

namespace Verif.Moo
open PyM
variable {G : Type}

theorem putGenomesM_run (refs : List Nat) (gs : List G) (w : MWorld G) (hn : refs.Nodup) (hl : gs.length = refs.length) :
    ∃ w' : MWorld G, putGenomesM refs gs w = (.ok (), w') ∧ refs.map w'.genome = gs ∧ (∀ r, r ∉ refs → w'.genome r = w.genome r) ∧
      w'.fits = w.fits ∧ w'.next = w.next ∧ w'.tape = w.tape := by
  induction refs generalizing gs w with
  | nil =>
    cases gs with
    | nil => exact ⟨w, rfl, rfl, fun _ _ => rfl, rfl, rfl, rfl⟩
    | cons => simp at hl
  | cons r refs ih =>
    cases gs with
    | nil => simp at hl
    | cons g gs =>
      rw [List.nodup_cons] at hn
      obtain ⟨w', e, h1, h2, h3, h4, h5⟩ := ih gs { w with genome := fun x => if x = r then g else w.genome x } hn.2 (by simpa using hl)
      refine ⟨w', ?_, ?_, ?_, h3, h4, h5⟩
      · unfold putGenomesM at e ⊢
        rw [List.zip_cons_cons]
        exact (bind_of_ok (s' := { w with genome := fun x => if x = r then g else w.genome x }) rfl).trans e
      · rw [List.map_cons, h1, h2 r hn.1]
        simp
      · intro x hx
        rw [List.mem_cons, not_or] at hx
        rw [h2 x hx.2]
        simp [hx.1]

theorem resetAll_run (refs : List Nat) (w : MWorld G) : ∃ w' : MWorld G, forL resetFit refs w = (.ok (), w') ∧
    (∀ r ∈ refs, (w'.fits r).objs = none) ∧ (∀ r, r ∉ refs → w'.fits r = w.fits r) ∧
    w'.genome = w.genome ∧ w'.next = w.next ∧ w'.tape = w.tape := by
  induction refs generalizing w with
  | nil => exact ⟨w, rfl, by simp, fun _ _ => rfl, rfl, rfl, rfl⟩
  | cons r refs ih =>
    obtain ⟨w', e, h1, h2, h3, h4, h5⟩ := ih { w with fits := fun x => if x = r then (w.fits r).reset else w.fits x }
    refine ⟨w', ?_, ?_, ?_, h3, h4, h5⟩
    · exact (bind_of_ok (s' := { w with fits := fun x => if x = r then (w.fits r).reset else w.fits x }) rfl).trans e
    · intro x hx
      by_cases hm : x ∈ refs
      · exact h1 x hm
      · obtain rfl : x = r := by
          rcases List.mem_cons.1 hx with h | h
          · exact h
          · exact absurd h hm
        rw [h2 x hm]
        simp [Fit.reset]
    · intro x hx
      rw [List.mem_cons, not_or] at hx
      rw [h2 x hx.2]
      simp [hx.1]

/-- **C45** in multi-objective runs: when an operator fires, the individuals it is given lose their objectives, get the genomes that the
operator computes from their genomes, and are returned; no other individual changes. -/
theorem C45_moo_fires {w : MWorld G} {refs : List Nat} {p u : ℚ} {arity : Nat} {t t' : Tape} {f : List G → Rand (Option (List G))}
    {gs : List G} (hu : Rand.random w.tape = (.ok u, t)) (hp : u ≤ p) (hn : refs.Nodup) (hf : f (refs.map w.genome) t = (.ok (some gs), t'))
    (hl : gs.length = refs.length) :
    ∃ w' : MWorld G, applyOp (MOp.onGenomes p arity f) refs w = (.ok refs, w') ∧ refs.map w'.genome = gs ∧
      (∀ r ∈ refs, (w'.fits r).objs = none) ∧ (∀ r, r ∉ refs → w'.genome r = w.genome r ∧ w'.fits r = w.fits r) ∧
      w'.next = w.next ∧ w'.tape = t' := by
  obtain ⟨w₁, e1, h1, h2, h3, h4, h5⟩ := resetAll_run refs { w with tape := t }
  obtain ⟨w₂, e2, k1, k2, k3, k4, k5⟩ := putGenomesM_run refs gs { w₁ with tape := t' } hn hl
  refine ⟨w₂, ?_, k1, ?_, ?_, k4.trans h4, k5⟩
  · have r1 : mrand Rand.random w = (.ok u, { w with tape := t }) := by
      show ((Rand.random w.tape).1, { w with tape := (Rand.random w.tape).2 }) = _
      rw [hu]
    have r2 : mrand (f (refs.map w₁.genome)) w₁ = (.ok (some gs), { w₁ with tape := t' }) := by
      have e : f (refs.map w₁.genome) w₁.tape = (.ok (some gs), t') := by rw [h3, h5]; exact hf
      show ((f (refs.map w₁.genome) w₁.tape).1, { w₁ with tape := (f (refs.map w₁.genome) w₁.tape).2 }) = _
      rw [e]
    unfold applyOp
    rw [bind_of_ok r1]
    rw [show (MOp.onGenomes p arity f).probability = p from rfl, if_pos hp, bind_of_ok e1]
    have ea : (MOp.onGenomes p arity f).apply refs w₁ = (.ok (some refs), w₂) := by
      show (PyM.get >>= fun w => mrand (f (refs.map w.genome)) >>= fun r => _) w₁ = _
      rw [bind_of_ok (show PyM.get w₁ = (.ok w₁, w₁) from rfl), bind_of_ok r2]
      dsimp only
      rw [bind_of_ok e2]
      rfl
    rw [bind_of_ok ea]
    rfl
  · intro r hr
    rw [k3]
    exact h1 r hr
  · intro r hr
    refine ⟨?_, ?_⟩
    · rw [k2 r hr]
      show w₁.genome r = _
      rw [h3]
    · rw [k3]
      exact h2 r hr

/-- **C45** in multi-objective runs: when it does not fire, nothing changes. -/
theorem C45_moo_skips {o : MOp G} {w : MWorld G} {refs : List Nat} {u : ℚ} {t : Tape} (hu : Rand.random w.tape = (.ok u, t))
    (hp : o.probability < u) : applyOp o refs w = (.ok refs, { w with tape := t }) := by
  have r1 : mrand Rand.random w = (.ok u, { w with tape := t }) := by
    show ((Rand.random w.tape).1, { w with tape := (Rand.random w.tape).2 }) = _
    rw [hu]
  unfold applyOp
  rw [bind_of_ok r1, if_neg (not_le.2 hp)]
  rfl

/-! ## Non-vacuity -/

/-- Three vectors, the first two of which are crossed at one point. -/
def exVecs : MWorld GA.Vec :=
  ⟨fun _ => .new (some [1]) (.each [true]) false false,
    fun r => ⟨.float, .tup [0, 1], 2, if r = 0 then [0, 0] else [1, 1]⟩, 3, fun n => n⟩

/-- What `VectorKPointsCrossover(k=1)` draws and returns for the first two. -/
def exCrossed : Except Err (Option (List GA.Vec)) × Tape :=
  (GA.kPointApply 1 ([0, 1].map exVecs.genome) >>= fun out => PyM.pure (some out)) (Rand.random exVecs.tape).2

theorem exCrossed_cells : ∃ gs t, exCrossed = (.ok (some gs), t) ∧ gs.map GA.Vec.vector = [[1, 0], [0, 1]] := by
  have h : exCrossed.1.toOption.join.map (List.map GA.Vec.vector) = some [[1, 0], [0, 1]] := by decide +kernel
  rcases e : exCrossed with ⟨r, t⟩
  rw [e] at h
  rcases r with _ | _ | gs
  · simp [Except.toOption] at h
  · simp [Except.toOption] at h
  · exact ⟨gs, t, rfl, by simpa [Except.toOption] using h⟩

example : ∃ w' : MWorld GA.Vec, applyOp (vecCrossover 1 2 1) [0, 1] exVecs = (.ok [0, 1], w') ∧
    ([0, 1].map w'.genome).map GA.Vec.vector = [[1, 0], [0, 1]] ∧ w'.fits 2 = exVecs.fits 2 := by
  obtain ⟨gs, t', e, hg⟩ := exCrossed_cells
  have hl : gs.length = 2 := by simpa using congrArg List.length hg
  obtain ⟨w', h1, h2, -, h4, -⟩ := C45_moo_fires (w := exVecs) (refs := [0, 1]) (p := 1) (u := 0) (arity := 2) (gs := gs)
    (f := fun inds => GA.kPointApply 1 inds >>= fun out => PyM.pure (some out)) (Prod.ext (by decide +kernel) rfl) (by norm_num) (by decide) e hl
  exact ⟨w', h1, by rw [h2, hg], (h4 2 (by decide)).2⟩

example := C45_moo_skips (o := vecCrossover (-1) 2 1) (w := exVecs) (refs := [0, 1]) (u := 0) (Prod.ext (by decide +kernel) rfl)
  (show (-1 : ℚ) < 0 by norm_num)

end Verif.Moo
