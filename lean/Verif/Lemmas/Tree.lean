import Verif.Model.Tree
import Verif.Lemmas.Prog

/-! # The cursor walks of the model, on listings of programs -/

namespace Verif.GP

/-- Apply a fallible function to a list from left to right. -/
def exAll {α : Type} (g : Prog → Except Err α) : List Prog → Except Err (List α)
  | [] => .ok []
  | p :: ps =>
    match g p with
    | .ok a => match exAll g ps with
      | .ok as => .ok (a :: as)
      | .error e => .error e
    | .error e => .error e

theorem loopArgs_spec {α : Type} {tree : List Node} {step : Nat → Except Err (α × Nat)}
    {g : Prog → Except Err α} : ∀ (ps : List Prog) (pos : Nat) (pre post : List Node),
    tree = pre ++ Prog.flattenAll ps ++ post → pre.length = pos + 1 →
    (∀ p ∈ ps, ∀ pre post : List Node, tree = pre ++ p.flatten ++ post →
      step pre.length = (g p).map fun a => (a, pre.length + p.size - 1)) →
    loopArgs step ps.length pos = (exAll g ps).map fun as => (as, pos + Prog.sizeAll ps)
  | [], pos, pre, post, _, _, _ => by simp [loopArgs, exAll, Prog.sizeAll, Except.map]
  | p :: ps, pos, pre, post, htree, hpre, hstep => by
    have h1 := hstep p (by simp) pre (Prog.flattenAll ps ++ post)
      (by simpa [Prog.flattenAll] using htree)
    simp only [List.length_cons, loopArgs, exAll, Prog.sizeAll]
    rw [hpre] at h1
    rw [h1]
    cases hg : g p with
    | error e => simp [Except.map, bind, Except.bind]
    | ok a =>
      have hsz := p.size_pos
      have h2 := loopArgs_spec ps (pos + 1 + p.size - 1) (pre ++ p.flatten) post
        (by simpa [Prog.flattenAll] using htree)
        (by simp [hpre, Prog.length_flatten]; omega)
        (fun q hq => hstep q (by simp [hq]))
      simp only [Except.map, bind, Except.bind]
      rw [h2]
      cases hgs : exAll g ps with
      | error e => simp [Except.map]
      | ok as =>
        simp only [Except.map, Except.ok.injEq, Prod.mk.injEq, true_and]
        omega

theorem getElem?_listing {pre post : List Node} {n : Node} {l : List Node} :
    (pre ++ (n :: l) ++ post)[pre.length]? = some n := by
  simp

theorem exAll_denote {V : Type} {sem : Fn → List V → Except Err V} {leaf : Val → V}
    (ps : List Prog) : exAll (Prog.denote sem leaf) ps = Prog.denoteAll sem leaf ps := by
  induction ps with
  | nil => simp [exAll, Prog.denoteAll]
  | cons p ps ih =>
    simp only [exAll, Prog.denoteAll, ih, bind, Except.bind]
    cases Prog.denote sem leaf p with
    | error e => rfl
    | ok a => cases Prog.denoteAll sem leaf ps <;> rfl

theorem executeAt_listing {V : Type} (sem : Fn → List V → Except Err V) (lit : Val → V)
    (kw : String → Option V) (tree : List Node) (fuel : Nat) : ∀ (p : Prog), p.Ok →
    p.size ≤ fuel → ∀ pre post : List Node, tree = pre ++ p.flatten ++ post →
    executeAt sem lit kw tree fuel pre.length =
      (p.denote sem (leafVal lit kw)).map fun v => (v, pre.length + p.size - 1) := by
  induction fuel with
  | zero => intro p _ h; have := p.size_pos; omega
  | succ fuel ih =>
    intro p hok hfuel pre post htree
    cases p with
    | term v ty =>
      simp only [Prog.flatten] at htree
      have : tree[pre.length]? = some (.term v ty) := by rw [htree]; simp
      simp only [executeAt, this, Prog.denote, Except.map, Prog.size, leafVal]
      cases v.data <;> simp
      rename_i s
      cases kw s <;> rfl
    | app f args =>
      simp only [Prog.flatten] at htree
      have : tree[pre.length]? = some (.func f) := by rw [htree]; simp
      simp only [Prog.Ok, Prog.okAll_iff] at hok
      simp only [Prog.size] at hfuel
      have hl := loopArgs_spec (tree := tree) (step := executeAt sem lit kw tree fuel)
        (g := Prog.denote sem (leafVal lit kw)) args pre.length (pre ++ [.func f]) post
        (by simpa using htree) (by simp)
        (fun q hq pre' post' ht => by
          refine ih q (hok.2 q hq) ?_ pre' post' ht
          have : q.size ≤ Prog.sizeAll args := by
            obtain ⟨l, r, rfl⟩ := List.append_of_mem hq
            simp [Prog.sizeAll_append, Prog.sizeAll]; omega
          omega)
      simp only [executeAt, this, Fn.arity, ← hok.1, hl, exAll_denote, Prog.denote, Prog.size]
      cases Prog.denoteAll sem (leafVal lit kw) args with
      | error e => simp [Except.map, bind, Except.bind]
      | ok vs =>
        simp only [Except.map, bind, Except.bind]
        cases sem f vs with
        | error e => rfl
        | ok v => simp; omega

theorem findEndAt_listing (fs : List Fn) (tree : List Node) (fuel : Nat) : ∀ (p : Prog), p.Ok →
    (∀ f ∈ p.fns, f ∈ fs) → p.size ≤ fuel → ∀ pre post : List Node,
    tree = pre ++ p.flatten ++ post →
    findEndAt fs tree fuel pre.length = .ok (pre.length + p.size - 1) := by
  induction fuel with
  | zero => intro p _ _ h; have := p.size_pos; omega
  | succ fuel ih =>
    intro p hok hfs hfuel pre post htree
    cases p with
    | term v ty =>
      simp only [Prog.flatten] at htree
      have : tree[pre.length]? = some (.term v ty) := by rw [htree]; simp
      simp [findEndAt, this, Prog.size]
    | app f args =>
      simp only [Prog.flatten] at htree
      have hget : tree[pre.length]? = some (.func f) := by rw [htree]; simp
      simp only [Prog.Ok, Prog.okAll_iff] at hok
      simp only [Prog.size] at hfuel
      simp only [Prog.fns, List.mem_cons, forall_eq_or_imp, Prog.mem_fnsAll] at hfs
      have hl := loopArgs_spec (tree := tree) (step := fun q => do
          let q' ← findEndAt fs tree fuel q
          .ok ((), q'))
        (g := fun _ => .ok ()) args pre.length (pre ++ [.func f]) post
        (by simpa using htree) (by simp)
        (fun q hq pre' post' ht => by
          have hsz : q.size ≤ Prog.sizeAll args := by
            obtain ⟨l, r, rfl⟩ := List.append_of_mem hq
            simp [Prog.sizeAll_append, Prog.sizeAll]; omega
          rw [ih q (hok.2 q hq) (fun g hg => hfs.2 g ⟨q, hq, hg⟩) (by omega) pre' post' ht]
          simp [bind, Except.bind, Except.map])
      have hex : exAll (fun _ => Except.ok (ε := Err) ()) args = .ok (args.map fun _ => ()) := by
        clear * -
        induction args with
        | nil => rfl
        | cons a as ih => simp [exAll, ih]
      simp only [findEndAt, hget, hfs.1, if_true, Fn.arity, ← hok.1, hl, hex, Prog.size]
      simp [bind, Except.bind, Except.map]; omega

theorem pyMax_ok {xs : List Nat} (h : xs ≠ []) : ∃ m, pyMax xs = .ok m ∧ m ∈ xs ∧ ∀ x ∈ xs, x ≤ m := by
  cases xs with
  | nil => exact absurd rfl h
  | cons x xs =>
    refine ⟨xs.foldl max x, rfl, ?_⟩
    clear h
    induction xs generalizing x with
    | nil => simp
    | cons y ys ih =>
      simp only [List.foldl_cons]
      obtain ⟨h1, h2⟩ := ih (max x y)
      constructor
      · rcases List.mem_cons.1 h1 with h | h
        · rw [h]
          rcases Nat.le_total x y with hxy | hxy
          · simp [Nat.max_eq_right hxy]
          · simp [Nat.max_eq_left hxy]
        · simp [h]
      · intro z hz
        have hm := h2 (max x y) (by simp)
        rcases List.mem_cons.1 hz with rfl | hz
        · exact le_trans (le_max_left _ _) hm
        · rcases List.mem_cons.1 hz with rfl | hz
          · exact le_trans (le_max_right _ _) hm
          · exact h2 z (by simp [hz])

end Verif.GP
