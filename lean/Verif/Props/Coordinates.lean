import Verif.Lemmas.Coordinates
import Verif.Props.Renamed

/-! # C132: runs over vectors do not depend on the units of the cells

Measure the cells of float vectors in other units, `a * x + b` with `a > 0`: convert the bounds given to the creators, the mean and
deviation given to Gaussian mutations, and let the evaluator convert back.  The run does the same in the other units.  Runs over
integer and bit vectors can be shifted by whole numbers. -/

namespace Verif.GA
open PyM Verif.Evo
variable {κ : Type} {A : Units} {k : Kind}

/-- **C132**: let two runs over vectors of the class `k` differ in the units of the cells: bounds and Gaussian noise are converted, and
the evaluator gives converted vectors the scores of the original ones.  Then they raise the same or return, and every vector ever
made, in what is left and in what every event showed, is the conversion of the one of the other run. -/
theorem C132_vectors (hA : A.Fits k) {c' c : Evo.Cfg Vec κ}
    (hc : Evo.Cfg.Alike (Vec.moved A) (fun v => v.kind = k) (CreatorMoved A k) (OpMoved A) c' c) {s : Run Vec κ}
    (hs : s.w.Fine fun v => v.kind = k) : evolve c' (s.mapped (Vec.moved A)) = ((evolve c s).1, (evolve c s).2.mapped (Vec.moved A)) :=
  C131_represent (hc.maps (fun _ _ h => h.maps hA) fun _ _ h => h.maps hA) hs

/-- The bounds of what is found are the converted ones, and a cell is within its bounds if and only if it was. -/
theorem C132_in_bounds (v : Vec) : (v.moved A).checkIfInBounds = v.checkIfInBounds := checkIfInBounds_moved v

/-! ## Non-vacuity -/

/-- Three floats from 0 to 1 become three floats from 5 to 7. -/
def exUnits : Units := ⟨2, 5, by norm_num⟩

def exMovedSub : SubCfg Vec :=
  ⟨[vectorCreator .float 3 (.tup [5, 7]) (fun h => ⟨.none, false, h, false, true, none⟩) true], exLibSub.pick,
    [crossoverOp 1 2 2, (MutationClass.floatGaussN 2 0 2 3).asOp 1 1], exLibSub.sels, 4, 1, true,
    fun v => pure ((v.vector.headD 5 - 5) / 2)⟩

def exMovedCfg : Evo.Cfg Vec Unit :=
  ⟨exLibCfg.size, [exMovedSub], exLibCfg.stream, 2, .none, exLibCfg.sched, false⟩

theorem exMoved_alike : Evo.Cfg.Alike (Vec.moved exUnits) (fun v => v.kind = .float) (CreatorMoved exUnits .float) (OpMoved exUnits)
    exMovedCfg exLibCfg where
  size := fun g _ => by show (g.vector.map _).length = g.vector.length; simp
  subs := by
    refine List.Forall₂.cons ⟨.cons ?_ .nil, .cons ?_ (.cons ?_ .nil), .cons (.inl ⟨2, false, rfl, rfl⟩) .nil, rfl, rfl, rfl, rfl, ?_⟩ .nil
    · have := CreatorMoved.mk (A := exUnits) (k := .float) 3 (.tup [0, 1]) (fun h => ⟨.none, false, h, false, true, none⟩) true
      have e : Bounds.moved exUnits (.tup [0, 1]) = .tup [5, 7] := by simp [Bounds.moved, Units.cell, exUnits]; norm_num
      rwa [e] at this
    · exact .crossover _ _ _
    · have := OpMoved.mutation (A := exUnits) (.floatGaussN 2 0 1 3) 1 1
      have e : MutationClass.moved exUnits (.floatGaussN 2 0 1 3) = .floatGaussN 2 0 2 3 := by simp [MutationClass.moved, exUnits]
      rwa [e] at this
    · intro v _
      show (pure (((v.vector.map exUnits.cell).headD 5 - 5) / 2) : Rand ℚ) = pure (v.vector.headD 0)
      congr 1
      cases v.vector <;> simp [exUnits, Units.cell]
  stream := rfl
  maxGen := rfl
  checkers := .none
  sched := rfl
  submit := rfl

example : ∃ s' : Run Vec Unit, evolve exMovedCfg exLibRun = (.ok (), s'.mapped (Vec.moved exUnits)) ∧ s'.genNum = 2 := by
  refine ⟨(evolve exLibCfg exLibRun).2, ?_, exLibRun_ends.2.1⟩
  have := C132_vectors (.inl rfl) exMoved_alike (s := exLibRun) (fun i hi => by simp [exLibRun] at hi)
  rw [exLibRun_ends.1] at this
  exact this

/-- Bits can be shifted to 3 and 4. -/
example : Units.Fits ⟨1, 3, by norm_num⟩ .bit := .inr ⟨rfl, 3, rfl⟩

example : (Vec.moved exUnits ⟨.float, .tup [0, 1], 2, [1 / 2, 2]⟩).checkIfInBounds = .ok false := by
  rw [C132_in_bounds]; decide +kernel

end Verif.GA
