import Verif.Props.NSGA2Evolution
import Verif.Lemmas.Evaluator

/-! # C70 — the best individual of an unsorted population is drawn by lot -/

namespace Verif.Moo
open PyM
variable {G : Type} {s : MWorld G}

/-- The draws that make `b` win. -/
def rigged (b : Nat) (ps : List Nat) : Tape := fun k => if ps[k]? = some b then 1 else 0

theorem rigged_winner {b w : Nat} {ps : List Nat} (hr : ∀ p ∈ ps, (s.fits p).rank = none) (ht : s.tape = rigged b ps) :
    (winner w ps s).1 = .ok (if b ∈ ps then b else w) := by
  induction ps generalizing w s with
  | nil => rfl
  | cons p ps ih =>
    have hp : (s.fits p).betterThan (s.fits w) s.tape = (.ok (decide (p = b)), rigged b ps) := by
      unfold Fit.betterThan
      rw [hr p (by simp), ht]
      have hd : rigged b (p :: ps) 0 % 2 = if p = b then 1 else 0 := by
        unfold rigged
        by_cases h : p = b <;> simp [h]
      have hb : Rand.below 2 (rigged b (p :: ps)) = (.ok (if p = b then 1 else 0), rigged b ps) := by
        rw [← hd]
        rfl
      show (Rand.below 2 >>= fun bit => PyM.pure (decide (bit = 1))) (rigged b (p :: ps)) = _
      rw [bind_of_ok hb]
      by_cases h : p = b <;> simp [h, PyM.pure]
    have hstep : winner w (p :: ps) s = winner (if p = b then p else w) ps { s with tape := rigged b ps } := by
      conv_lhs => unfold winner
      rw [bind_of_ok (m := PyM.get) (a := s) (s' := s) rfl]
      have : mrand ((s.fits p).betterThan (s.fits w)) s = (.ok (decide (p = b)), { s with tape := rigged b ps }) := by
        unfold mrand zoom
        rw [hp]
      rw [bind_of_ok this]
      simp
    rw [hstep, ih (s := { s with tape := rigged b ps }) (fun q hq => hr q (by simp [hq])) rfl]
    by_cases h : p = b
    · subst h; simp
    · have : b ≠ p := fun e => h e.symm
      simp [h, this]

theorem assigns_keep {l : List (Nat × List ℚ)} (hn : (l.map Prod.fst).Nodup) (ho : ∀ p ∈ l, (s.fits p.1).objs = none) :
    wp (forL (fun (p : Nat × List ℚ) => assign p.1 p.2) l) (fun _ s' => s'.tape = s.tape ∧
      ∀ r, (s'.fits r).rank = (s.fits r).rank) s := by
  refine (wp_forL (I := fun pre s' => s'.tape = s.tape ∧ (∀ r, (s'.fits r).rank = (s.fits r).rank) ∧
    ∀ p ∈ l, p.1 ∉ pre.map Prod.fst → (s'.fits p.1).objs = none) ⟨rfl, fun _ => rfl, fun p hp _ => ho p hp⟩ ?_).mono
    fun _ _ h => ⟨h.1, h.2.1⟩
  rintro pre ⟨x, v⟩ post s₁ rfl ⟨h1, h2, h3⟩
  have hx : x ∉ pre.map Prod.fst := by
    rw [List.map_append, List.map_cons, List.nodup_append] at hn
    exact fun h => hn.2.2 x h x (by simp) rfl
  unfold assign setFit
  rw [wp_bind, wp_get, wp_bind, wp_ofExcept]
  refine ⟨_, by unfold Fit.set; rw [h3 (x, v) (by simp) hx], ?_⟩
  rw [wp_modify]
  refine ⟨h1, fun r => ?_, fun p hp hpn => ?_⟩
  · dsimp only
    split
    · rename_i e; rw [e]; exact h2 x
    · exact h2 r
  · simp only [List.map_append, List.map_cons, List.map_nil, List.mem_append, List.mem_singleton, not_or] at hpn
    dsimp only
    rw [if_neg hpn.2]
    exact h3 p hp hpn.1

/-- C70, what happens instead: for every member `b` of a population that has not been sorted yet there are draws of
the random generator with which the population evaluator returns `b` as the best individual, whatever the objectives
of all individuals are. -/
theorem C70_lottery_partial {order inds : List Nat} (hp : order.Perm (List.range inds.length)) (hn : inds.Nodup)
    (ho : ∀ r ∈ inds, (s.fits r).objs = none ∧ (s.fits r).rank = none) {b : Nat} (hb : b ∈ inds) :
    ∃ tape, ∀ (c : MSub G) (f : G → List ℚ), (∀ g, c.evaluate g = PyM.pure (f g)) →
      (evaluateM c order inds { s with tape := tape }).1 = .ok b := by
  obtain ⟨b₀, rest, rfl⟩ : ∃ b₀ rest, inds = b₀ :: rest := by
    cases inds with
    | nil => simp at hb
    | cons a l => exact ⟨a, l, rfl⟩
  refine ⟨rigged b rest, fun c f hf => ?_⟩
  set w : MWorld G := { s with tape := rigged b rest } with hw
  unfold evaluateM
  obtain ⟨_, _, hmap, rfl, rfl⟩ := Evo.executorMap_wp (task := runEvalM c) (val := fun r => f (w.genome r)) (I := fun s₁ => s₁ = w)
    (s := w) hp rfl (by
      rintro r - _ rfl
      unfold runEvalM
      rw [wp_bind, wp_get, hf]
      exact ⟨_, _, rfl, rfl, rfl⟩)
  rw [bind_of_ok hmap]
  have hzip : ((b₀ :: rest).zip ((b₀ :: rest).map fun r => f (w.genome r))).map Prod.fst = b₀ :: rest := by
    rw [List.map_fst_zip]; simp
  obtain ⟨_, s₁, hrun, h1, h2⟩ := assigns_keep (s := w) (l := (b₀ :: rest).zip ((b₀ :: rest).map fun r => f (w.genome r)))
    (by rw [hzip]; exact hn) (fun p hp => (ho p.1 (by rw [← hzip]; exact List.mem_map_of_mem hp)).1)
  rw [bind_of_ok hrun]
  dsimp only
  rw [rigged_winner (b := b) (fun p hp => (h2 p).trans (ho p (by simp [hp])).2) h1]
  by_cases h : b ∈ rest
  · rw [if_pos h]
  · rw [if_neg h]
    rcases List.mem_cons.1 hb with e | e
    · rw [e]
    · exact absurd e h

/-- Three individuals, the last of which is dominated by the first (minimise the first objective, maximise the second). -/
def exThree : MWorld ℚ := ⟨fun _ => .new none (.each [false, true]) false false, fun r => [5, 6, 8].getD r 0, 3, fun _ => 0⟩

/-- The last one can win. -/
example : ∃ tape, (evaluateM (exCfg true 1).sub [2, 0, 1] [0, 1, 2] { exThree with tape := tape }).1 = .ok 2 := by
  obtain ⟨tape, h⟩ := C70_lottery_partial (s := exThree) (order := [2, 0, 1]) (inds := [0, 1, 2]) (by decide) (by decide)
    (fun r _ => ⟨rfl, rfl⟩) (b := 2) (by decide)
  exact ⟨tape, h (exCfg true 1).sub (fun g => [g, g * (5 - g)]) fun _ => rfl⟩

end Verif.Moo
