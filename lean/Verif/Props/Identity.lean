import Verif.Model.Identity
import Verif.Model.Reports
import Verif.Props.History

/-! # C45 for `IdentityTransformation`, C57 for the run of an algorithm -/

namespace Verif.Evo
open PyM
variable {G κ : Type}

/-- **C45, `IdentityTransformation`**: when it fires, the individuals it is given are returned with the genomes they had — but, like
after any operator, without fitness and with its name recorded, and the others are untouched. -/
theorem C45_identity {w : World G} {refs : List Nat} {p u : ℚ} {t : Tape} (hu : Rand.random w.tape = (.ok u, t)) (hp : u ≤ p)
    (hnd : refs.Nodup) :
    wlp (applyOperator (identityOp p) refs) (fun res w' => res = refs ∧ ∀ r i, w.heap[r]? = some i → ∃ j, w'.heap[r]? = some j ∧
      j.genome = i.genome ∧ (r ∉ refs → j = i) ∧
      (r ∈ refs → j.fit.evaluated = false ∧ j.appliedOps = i.appliedOps ++ ["IdentityTransformation"])) w := by
  intro res w' hrun
  obtain ⟨s₁, e1, n1, t1, l1, h1⟩ := resetAll_heap refs { w with tape := t }
  have hr : (rand Rand.random : WM G ℚ) w = (.ok u, { w with tape := t }) := by simp [rand, zoom, hu]
  unfold applyOperator at hrun
  have hp' : u ≤ (identityOp p : Op G).probability := hp
  rw [bind_of_ok hr, if_pos hp', bind_of_ok e1, bind_of_ok (show (identityOp p : Op G).apply refs s₁ = (.ok (some refs), s₁) from rfl)] at hrun
  simp only [bind_ok] at hrun
  obtain ⟨ids, s₃, hids, _, s₄, hrec, hrest⟩ := hrun
  obtain ⟨rfl, -⟩ := ids_wlp refs s₁ ids s₃ hids
  obtain ⟨s₄', hrec', -, h4⟩ := updateAll_heap (record (identityOp p : Op G).name ids) refs hnd s₃
  rw [hrec'] at hrec
  simp only [Prod.mk.injEq, true_and] at hrec
  subst hrec
  simp only [pure_run, Prod.mk.injEq, Except.ok.injEq] at hrest
  obtain ⟨rfl, rfl⟩ := hrest
  refine ⟨rfl, fun r i hi => ?_⟩
  have hj := h4 r
  rw [h1 r] at hj
  dsimp only at hj
  rw [hi] at hj
  refine ⟨_, hj, ?_, fun hr => ?_, fun hr => ?_⟩
  · by_cases hr : r ∈ refs <;> simp [hr, record]
  · simp [hr]
  · simp [hr, record, Fit.setNotEvaluated, identityOp]

/-- Seven is on the heap with a fitness and two operators behind it. -/
def exIdle : World Nat :=
  ⟨[⟨0, 0, 7, ⟨.num 3, true, true, false, true, none⟩, -1, [], ["A", "B"], true, []⟩], 1, fun n => n⟩

example : wlp (applyOperator (identityOp 1) [0]) (fun _ w' => ∃ j, w'.heap[0]? = some j ∧ j.genome = 7 ∧
    j.appliedOps = ["A", "B", "IdentityTransformation"]) exIdle := by
  obtain ⟨u, t, hu, hle, -⟩ := C45_probability exIdle.tape
  refine (C45_identity hu (hle 1 (le_refl 1)) (by simp)).mono fun res w' h => ?_
  obtain ⟨j, h1, h2, -, h3⟩ := h.2 0 _ rfl
  exact ⟨j, h1, h2, (h3 (by simp)).2⟩

/-- **C57, the run of an algorithm**: an algorithm that is pickled and unpickled between two calls of `evolve` does on the second call
what it would have done had it not been — with an executor that works. -/
theorem C57_unpickled (c : Cfg G κ) {s s₀ : Run G κ} (hw : s₀.w = s.w) (hi : s₀.inds = s.inds) (hr : s₀.bestOfRun = s.bestOfRun)
    (hb : s₀.bestOfGen = s.bestOfGen) (hl : s₀.worstOfGen = s.worstOfGen) (hg : s₀.genNum = s.genNum) (hs : s₀.randomSeed = s.randomSeed)
    (ht : s₀.genSeed = s.genSeed) (hf : s₀.finalGen = s.finalGen) (hc : s₀.checkers = s.checkers) (hlog : s₀.log = s.log)
    (hd : s₀.shutdown = false) : evolve c s.reloaded = evolve c s₀ := by
  congr 1
  cases s₀
  subst hw hi hr hb hl hg hs ht hf hc hlog hd
  rfl

example (c : Cfg Nat Unit) (s : Run Nat Unit) (h : s.shutdown = false) : evolve c s.reloaded = evolve c s :=
  C57_unpickled c rfl rfl rfl rfl rfl rfl rfl rfl rfl rfl rfl h

end Verif.Evo
