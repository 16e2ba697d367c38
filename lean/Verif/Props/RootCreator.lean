import Verif.Model.Examples
import Verif.Props.GPExec
import Verif.Lemmas.Creation

/-! # C142: the creator of trees with a given root function -/

namespace Verif.Examples
open PyM Evo

/-- C142: given enough room for nested calls, the creator makes trees with the given function at their root. -/
def C142_statement : Prop :=
  ∀ root : GP.Fn, ∃ limit, ∀ t, ∃ tree t', rootTree root limit [] t = (.ok tree, t') ∧ tree.head? = some (.func root)

theorem childTypes_nil {root : GP.Fn} : GP.childTypes root = [] ↔ root.params = [] := by
  unfold GP.childTypes
  rw [List.take_eq_nil_iff]
  constructor
  · rintro (h | h)
    · exact List.length_eq_zero_iff.1 h
    · unfold GP.getFuncTypes at h
      split at h
      · simp at h
      · rename_i h'
        exact absurd h h'
  · intro h
    exact .inl (List.length_eq_zero_iff.2 h)

/-- **C142.** For a root function with parameters, `create_tree` never returns: however deep calls may be nested, whatever the
tree and the random numbers, it ends with `RecursionError`. -/
theorem C142_diverges {root : GP.Fn} (h : root.params ≠ []) (limit : Nat) (tree : List GP.Node) (t : Tape) :
    rootTree root limit tree t = (.error .runtimeError, t) := by
  induction limit generalizing tree t with
  | zero => rfl
  | succ limit ih =>
    unfold rootTree
    cases hc : GP.childTypes root with
    | nil => exact absurd (childTypes_nil.1 hc) h
    | cons ty rest =>
      rw [List.foldlM_cons, bind_run, ih]

/-- **C142.** For a root function without parameters it returns, and the tree is what it was: empty. -/
theorem C142_empty {root : GP.Fn} (h : root.params = []) (limit : Nat) (tree : List GP.Node) (t : Tape) :
    rootTree root (limit + 1) tree t = (.ok tree, t) := by
  unfold rootTree
  rw [childTypes_nil.2 h]
  rfl

/-- **C142 is false**, of every root function. -/
theorem C142_refuted (root : GP.Fn) : ¬ ∃ limit, ∀ t, ∃ tree t', rootTree root limit [] t = (.ok tree, t') ∧ tree.head? = some (.func root) := by
  rintro ⟨limit, h⟩
  obtain ⟨tree, t', h1, h2⟩ := h fun _ => 0
  by_cases hp : root.params = []
  · cases limit with
    | zero => cases h1
    | succ limit =>
      rw [C142_empty hp] at h1
      cases h1
      cases h2
  · rw [C142_diverges hp] at h1
    cases h1

theorem C142_statement_refuted : ¬ C142_statement := fun h => C142_refuted iteFn (h iteFn)

/-- **C142 (partial)**: nothing with another root is returned - whatever is returned is the tree as it was, and only for root
functions without parameters; a tree that is returned in a new individual cannot be executed.  What is missing: that trees
are made. -/
theorem C142_partial {V : Type} {root : GP.Fn} {limit : Nat} {t t' : Tape} {tree : List GP.Node}
    (h : rootTree root limit [] t = (.ok tree, t')) :
    root.params = [] ∧ tree = [] ∧ t' = t ∧
      ∀ (sem : GP.Fn → List V → Except Err V) lit c kwargs, GP.execute sem lit c tree kwargs = .error .valueError := by
  by_cases hp : root.params = []
  · cases limit with
    | zero => cases h
    | succ limit =>
      rw [C142_empty hp] at h
      cases h
      exact ⟨hp, rfl, rfl, fun _ _ _ _ => rfl⟩
  · rw [C142_diverges hp] at h
    cases h

/-- **C142** for the creator: asked for individuals, it raises, unless the root function has no parameters. -/
theorem C142_creator {c : GP.Cfg} {root : GP.Fn} (h : root.params ≠ []) (limit : Nat) (fit : Bool → Fit) (up : Bool) {n : Nat} (hn : 0 < n)
    (hib : Bool) (w : World GP.Ind) : (rootCreator c root limit fit up n hib w).1 = .error .runtimeError := by
  obtain ⟨refs, w', h1, -, h2⟩ := newInds_wp (⟨c, []⟩ : GP.Ind) (fit hib) up n w
  unfold rootCreator GP.treeCreator createIndividuals
  rw [bind_run, h1]
  dsimp only
  cases refs with
  | nil => simp at h2; omega
  | cons r refs =>
    have h3 : rand (do let t ← rootTree root limit []; pure (⟨c, t⟩ : GP.Ind)) w' = (.error .runtimeError, w') := by
      unfold rand zoom
      rw [bind_run, C142_diverges h]
    unfold forL
    simp only [bind_run, h3]

/-! ## Examples -/

example : rootTree iteFn 1000 [] (fun k => k) = (.error .runtimeError, fun k => k) := C142_diverges (by simp [iteFn]) _ _ _

/-- A function without parameters, such as one that returns a random number. -/
example : rootTree ⟨7, [], none⟩ 1000 [] (fun k => k) = (.ok [], fun k => k) := C142_empty rfl _ _ _

example : (rootCreator muxGP iteFn 1000 simpleFit false 3 true ⟨[], 1, fun k => k⟩).1 = .error .runtimeError :=
  C142_creator (by simp [iteFn]) _ _ _ (by omega) _ _

end Verif.Examples
