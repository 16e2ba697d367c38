import Verif.Lemmas.Cells
import Verif.Props.OneMax

/-! # C152: integer and bit vectors hold whole numbers -/

namespace Verif.GA
open PyM Verif.Evo
variable {κ : Type} {K : κ → Prop} {kind : Kind} {bounds : Bounds} {length : Nat} {m : Mode}

/-- All cells are whole numbers. -/
def Vec.Whole (v : Vec) : Prop := ∀ x ∈ v.vector, ∃ z : ℤ, x = z

/-- A legal vector whose cells are whole numbers, unless it is a vector of floats. -/
def WholeLegal (kind : Kind) (bounds : Bounds) (length : Nat) (v : Vec) : Prop :=
  Legal kind bounds length v ∧ (kind ≠ .float → v.Whole)

theorem randCell_whole (lo hi : ℚ) : Post (randCell lo hi) fun x => ∃ z : ℤ, x = z :=
  Post.bind Post.trivial fun z _ => Post.pure ⟨z, rfl⟩

theorem getRandomNumberInBounds_whole {v : Vec} (hk : v.kind ≠ .float) (i : Int) :
    Post (v.getRandomNumberInBounds i) fun x => ∃ z : ℤ, x = z := by
  unfold Vec.getRandomNumberInBounds
  split
  · exact randCell_whole _ _
  · exact Post.raise
  · exact Post.bind Post.trivial fun p _ => randCell_whole _ _
  · rename_i h _; exact absurd h hk
  · exact Post.raise
  · rename_i h _; exact absurd h hk
  · exact randCell_whole _ _
  · exact Post.raise
  · exact Post.raise
  · exact Post.raise

theorem bitFlip_whole {v : Vec} (hb : v.bounds.Integral) (i : Int) : Post (v.bitFlip i) fun x => ∃ z : ℤ, x = z := by
  unfold Vec.bitFlip
  split
  · rename_i lo hi _ h
    obtain ⟨h1, h2⟩ := hb 0 lo hi (by rw [h]; rfl)
    refine Post.bind Post.trivial fun x _ => Post.pure ?_
    split
    exacts [h2, h1]
  · exact Post.raise
  · exact Post.raise

theorem MutationClass.op_whole (c : MutationClass) (p : ℚ) (hf : c.kind ≠ .float) (hb : bounds.Integral) :
    (c.op p).CellValues (fun x => ∃ z : ℤ, x = z) c.kind bounds ∧ (c.op p).onFail = defaultOnFail := by
  cases c with
  | floatUniformOne => exact absurd rfl hf
  | floatUniformN => exact absurd rfl hf
  | floatGaussOne => exact absurd rfl hf
  | floatGaussN => exact absurd rfl hf
  | intOne q =>
    refine ⟨fun v h1 h2 h3 i => ?_, rfl⟩
    exact Post.bind Post.trivial fun u _ => Post.ite (fun _ => getRandomNumberInBounds_whole (by rw [h1]; exact hf) i)
      fun _ => cellValue_cells h3 i
  | intN n => exact ⟨fun v h1 h2 h3 i => getRandomNumberInBounds_whole (by rw [h1]; exact hf) i, rfl⟩
  | bitFlip => exact ⟨fun v h1 h2 h3 i => bitFlip_whole (by rw [h2]; exact hb) i, rfl⟩
  | bitNFlip n q =>
    refine ⟨fun v h1 h2 h3 i => ?_, rfl⟩
    exact Post.bind Post.trivial fun u _ => Post.ite (fun _ => bitFlip_whole (by rw [h2]; exact hb) i)
      fun _ => cellValue_cells h3 i

theorem WholeLegal.iff_cells (hf : kind ≠ .float) {v : Vec} :
    WholeLegal kind bounds length v ↔ CellLegal (fun x => ∃ z : ℤ, x = z) kind bounds length v :=
  ⟨fun h => ⟨h.1, h.2 hf⟩, fun h => ⟨h.1, fun _ => h.2⟩⟩

theorem WholeLegal.iff_legal {v : Vec} : WholeLegal .float bounds length v ↔ Legal .float bounds length v :=
  ⟨fun h => h.1, fun h => ⟨h, fun h => absurd rfl h⟩⟩

theorem LibOp.preserves_whole (hb : bounds.Proper kind length) {o : Op Vec} (h : LibOp kind length o) :
    o.Preserves (WholeLegal kind bounds length) := by
  by_cases hf : kind = .float
  · subst hf
    rw [show WholeLegal .float bounds length = Legal .float bounds length from funext fun v => propext WholeLegal.iff_legal]
    exact h.preserves hb
  · rw [show WholeLegal kind bounds length = _ from funext fun v => propext (WholeLegal.iff_cells hf)]
    cases h with
    | crossover p a k hk => exact crossoverOp_preserves_cells hk
    | mutation c p a hc hn =>
      subst hc
      obtain ⟨h1, h2⟩ := c.op_whole p hf (hb.integral hf)
      rcases c.asOp_eq p a with he | ⟨name, d, hd, hpt, hfl, -⟩
      · exact MutationClass.preserves_cells hb rfl hn h1 h2 he
      · exact absurd hfl hf

theorem LibCreator.makes_whole (hb : bounds.Proper kind length) {create : Nat → Bool → WM Vec (List Nat)}
    (h : LibCreator kind bounds length m create) : Makes (WholeLegal kind bounds length) create := by
  by_cases hf : kind = .float
  · subst hf
    rw [show WholeLegal .float bounds length = Legal .float bounds length from funext fun v => propext WholeLegal.iff_legal]
    exact h.makes hb
  · rw [show WholeLegal kind bounds length = _ from funext fun v => propext (WholeLegal.iff_cells hf)]
    exact h.makes_cells hb fun i => getRandomNumberInBounds_whole hf i

/-- **C152.** In a run put together from a vector creator of the library, its crossover and the mutations of the vector
class, with proper bounds and whatever is drawn, evaluated and checked: the cells of every integer or bit vector an
observer can see in any event are whole numbers, however the run ends. -/
theorem C152_whole (hb : bounds.Proper kind length) (hk : kind ≠ .float) {c : Evo.Cfg Vec κ} {sub : SubCfg Vec}
    (h : c.BuiltWith sub m (LibCreator kind bounds length m) (LibOp kind length)) {s : Run Vec κ}
    (hr : s.Ready m) (hs : s.Starts (WholeLegal kind bounds length)) (r : Except Err Unit) (s' : Run Vec κ)
    (hrun : evolve c s = (r, s')) : ∀ e ∈ s'.log, e.AllHave fun v : Vec => ∀ x ∈ v.vector, ∃ z : ℤ, x = z := by
  intro e he
  have := run_invariant h (fun _ h => h.good hb) (fun _ h => h.makes_whole hb) (fun _ h => h.good)
    (fun _ h => h.preserves_whole hb) hr hs r s' hrun e he
  obtain ⟨h1, h2, h3⟩ := this
  refine ⟨fun is hi r hr => ?_, fun b hb r hr => ?_, fun b hb r hr => ?_⟩
  · obtain ⟨i, g1, g2⟩ := h1 is hi r hr
    exact ⟨i, g1, g2.2 hk⟩
  · obtain ⟨i, g1, g2⟩ := h2 b hb r hr
    exact ⟨i, g1, g2.2 hk⟩
  · obtain ⟨i, g1, g2⟩ := h3 b hb r hr
    exact ⟨i, g1, g2.2 hk⟩

/-- **C152, bit strings.** The cells of the bit strings of a run are bits: one of the two bounds, if these are one apart
(such as the default `(0, 1)`). -/
theorem C152_bits (hb : bounds.Proper .bit length) {z : ℤ} (hz : bounds = .tup [(z : ℚ), (z : ℚ) + 1]) {c : Evo.Cfg Vec κ}
    {sub : SubCfg Vec} (h : c.BuiltWith sub m (LibCreator .bit bounds length m) (LibOp .bit length)) {s : Run Vec κ}
    (hr : s.Ready m) (hs : s.Starts (WholeLegal .bit bounds length)) (r : Except Err Unit) (s' : Run Vec κ)
    (hrun : evolve c s = (r, s')) : ∀ e ∈ s'.log, e.AllHave fun v : Vec => ∀ x ∈ v.vector, x = z ∨ x = z + 1 := by
  intro e he
  have := run_invariant h (fun _ h => h.good hb) (fun _ h => h.makes_whole hb) (fun _ h => h.good)
    (fun _ h => h.preserves_whole hb) hr hs r s' hrun e he
  have key : ∀ v : Vec, WholeLegal .bit bounds length v → ∀ x ∈ v.vector, x = z ∨ x = z + 1 := by
    rintro v ⟨⟨-, h2, -, -, h5⟩, h6⟩ x hx
    obtain ⟨i, hi⟩ := List.mem_iff_getElem?.1 hx
    obtain ⟨lo, hi', hat, hlo, hhi⟩ := h5 i x hi
    rw [h2, hz] at hat
    simp only [Bounds.At, List.cons.injEq, and_true] at hat
    obtain ⟨rfl, rfl⟩ := hat
    obtain ⟨y, rfl⟩ := h6 (by simp) x hx
    have h7 : z ≤ y := by exact_mod_cast hlo
    have h8 : y ≤ z + 1 := by exact_mod_cast hhi
    rcases eq_or_lt_of_le h7 with h | h
    · left; rw [h]
    · right
      have : y = z + 1 := by omega
      rw [this]; push_cast; rfl
  obtain ⟨h1, h2, h3⟩ := this
  refine ⟨fun is hi r hr => ?_, fun b hb r hr => ?_, fun b hb r hr => ?_⟩
  · obtain ⟨i, g1, g2⟩ := h1 is hi r hr
    exact ⟨i, g1, key _ g2⟩
  · obtain ⟨i, g1, g2⟩ := h2 b hb r hr
    exact ⟨i, g1, key _ g2⟩
  · obtain ⟨i, g1, g2⟩ := h3 b hb r hr
    exact ⟨i, g1, key _ g2⟩

/-- Four integer vectors of length three with bounds of their own for each cell, two-point crossover and a mutation of
up to all cells; the fitness is the first cell. -/
def exIntSub : SubCfg Vec where
  creators := [vectorCreator .int 3 Sample.cells (fun h => ⟨.none, false, h, false, true, none⟩) true]
  pick := pure 0
  ops := [crossoverOp 1 2 2, (MutationClass.intN 3).asOp 1 1]
  sels := [tournament (fun v => v.vector.length) 2 false]
  popSize := 4
  nElite := 1
  hib := true
  evaluate := fun v => pure (v.vector.headD 0)

def exIntCfg : Evo.Cfg Vec Unit where
  size := fun v => v.vector.length
  subs := [exIntSub]
  stream := fun seed n => seed + n * n
  maxGen := 2
  checker := .none
  sched := fun _ n => List.range n
  submit := false

theorem exInt_proper : Sample.cells.Proper .int 3 where
  legal := by
    refine ⟨rfl, fun i lo hi h => ?_⟩
    simp only [Bounds.At, Sample.cells] at h
    match i, h with
    | 0, h => simp at h; obtain ⟨rfl, rfl⟩ := h; norm_num
    | 1, h => simp at h; obtain ⟨rfl, rfl⟩ := h; norm_num
    | 2, h => simp at h; obtain ⟨rfl, rfl⟩ := h; norm_num
    | n + 3, h => simp at h
  integral := by
    intro _ i lo hi h
    simp only [Bounds.At, Sample.cells] at h
    match i, h with
    | 0, h => simp at h; obtain ⟨rfl, rfl⟩ := h; exact ⟨⟨0, by norm_num⟩, 1, by norm_num⟩
    | 1, h => simp at h; obtain ⟨rfl, rfl⟩ := h; exact ⟨⟨-5, by norm_num⟩, 5, by norm_num⟩
    | 2, h => simp at h; obtain ⟨rfl, rfl⟩ := h; exact ⟨⟨2, by norm_num⟩, 2, by norm_num⟩
    | n + 3, h => simp at h
  pair := by simp
  notTwo := by rintro ⟨p, q, h⟩; simp [Sample.cells] at h

theorem exIntCfg_built : exIntCfg.BuiltWith exIntSub ⟨true, none⟩
    (LibCreator .int Sample.cells 3 ⟨true, none⟩) (LibOp .int 3) where
  subs := rfl
  dir := rfl
  creators := by
    intro create h
    simp only [exIntSub, List.mem_singleton] at h
    subst h
    exact .mk _ _ ⟨rfl, rfl⟩
  sels := ⟨_, _, rfl, tournament_good _ _, tournament_fills _ _⟩
  ops := by
    intro o ho
    simp only [exIntSub, List.mem_cons, List.not_mem_nil, or_false] at ho
    rcases ho with rfl | rfl
    · exact .crossover _ _ _ (by omega)
    · exact .mutation _ _ _ rfl (by simp [MutationClass.points])
  sched := fun _ _ => List.Perm.refl _
  map := rfl

/-- The run returns after two generations, and its best vector has changed on the way. -/
theorem exIntRun_ends : (evolve exIntCfg exLibRun).1 = .ok () ∧ (evolve exIntCfg exLibRun).2.genNum = 2 ∧
    (evolve exIntCfg exLibRun).2.log.length = 14 := by decide +kernel

example := C152_whole exInt_proper (by simp) exIntCfg_built (s := exLibRun) (.inl rfl)
  ⟨by simp [exLibRun], rfl, rfl, rfl⟩ (.ok ()) (evolve exIntCfg exLibRun).2 (ran exIntRun_ends.1)

end Verif.GA

namespace Verif.Examples
open Verif.Evo

/-- The vectors of the OneMax example consist of zeros and ones. -/
example : ∀ e ∈ (evolve exOneMax exOneMaxRun).2.log,
    e.AllHave fun v : GA.Vec => ∀ x ∈ v.vector, x = ((0 : ℤ) : ℚ) ∨ x = ((0 : ℤ) : ℚ) + 1 :=
  have hb : exOneMax.BuiltWith _ _ _ _ := oneMax_built (by omega) fun _ _ => .refl _
  GA.C152_bits (zeroOne_proper 3) (by norm_num) { hb with ops := fun o ho => (hb.ops o ho).1 } (.inl rfl)
    ⟨by simp [exOneMaxRun], rfl, rfl, rfl⟩ (.ok ()) _ (ran exOneMax_ends.1)

end Verif.Examples
