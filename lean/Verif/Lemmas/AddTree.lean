import Verif.Lemmas.Subtree
import Verif.Spec.Partial

/-! # `add_tree` -/

namespace Verif.GP

/-- The test that the code really performs along the path to the open slot: at the topmost function
the type of the new node is compared with the parameter, at every deeper function the *return type
of the function above* is compared with the parameter. -/
def Part.codeAccepts : Part → Option Ty → Bool
  | .slot, _ => true
  | .app f done p, τ => p.codeAccepts f.ret && decide (f.params[done.length]?.join = τ)

theorem Prog.size_le_sizeAll {a : Prog} {as : List Prog} (h : a ∈ as) : a.size ≤ Prog.sizeAll as := by
  induction as with
  | nil => simp at h
  | cons b bs ih =>
    simp only [Prog.sizeAll]
    rcases List.mem_cons.1 h with rfl | h
    · omega
    · have := ih h; omega

theorem shouldAddLoop_done {step : Nat → Except Err (Option Bool × Nat)} {types : List (Option Ty)}
    {newTy : Option Ty} {tree : List Node} (done : List Prog) :
    ∀ (pre post : List Node) (n i pos : Nat), tree = pre ++ Prog.flattenAll done ++ post →
    pos + 1 = pre.length →
    (∀ a ∈ done, ∀ pre post : List Node, tree = pre ++ a.flatten ++ post →
      step pre.length = .ok (none, pre.length + a.size - 1)) →
    shouldAddLoop step types newTy (done.length + n) i pos none =
      shouldAddLoop step types newTy n (i + done.length) (pos + Prog.sizeAll done) none := by
  induction done with
  | nil => intro pre post n i pos _ _ _; simp [Prog.sizeAll]
  | cons a as ih =>
    intro pre post n i pos ht hpos hstep
    rw [List.length_cons, show as.length + 1 + n = (as.length + n) + 1 by omega]
    rw [shouldAddLoop]
    have h1 := hstep a (by simp) pre (Prog.flattenAll as ++ post) (by rw [ht]; simp [Prog.flattenAll])
    rw [hpos, h1]
    simp only [bind, Except.bind]
    have hsz := a.size_pos
    rw [ih (pre ++ a.flatten) post n (i + 1) (pre.length + a.size - 1)
      (by rw [ht]; simp [Prog.flattenAll]) (by rw [List.length_append, Prog.length_flatten]; omega)
      (fun b hb => hstep b (by simp [hb]))]
    congr 1
    · omega
    · simp only [Prog.sizeAll]; omega

theorem shouldAdd_complete (tree : List Node) (q : Prog) : q.Ok → ∀ (fuel : Nat) (newTy : Option Ty)
    (pre post : List Node), q.size ≤ fuel → tree = pre ++ q.flatten ++ post →
    shouldAdd tree fuel pre.length newTy = .ok (none, pre.length + q.size - 1) := by
  induction q using Prog.ind with
  | hterm v ty =>
    intro _ fuel newTy pre post hfuel ht
    cases fuel with
    | zero => simp [Prog.size] at hfuel
    | succ fuel =>
      have hlen : pre.length ≠ tree.length := by rw [ht]; simp [Prog.flatten]
      have hget : tree[pre.length]? = some (.term v ty) := by rw [ht]; simp [Prog.flatten]
      rw [shouldAdd, if_neg hlen, hget]
      simp [Prog.size]
  | happ f args ih =>
    intro hok fuel newTy pre post hfuel ht
    cases fuel with
    | zero => simp [Prog.size] at hfuel
    | succ fuel =>
      have hlen : pre.length ≠ tree.length := by rw [ht]; simp [Prog.flatten]
      have hget : tree[pre.length]? = some (.func f) := by rw [ht]; simp [Prog.flatten]
      rw [shouldAdd, if_neg hlen, hget]
      simp only
      have hok' := Prog.okAll_iff.1 hok.2
      have hloop := shouldAddLoop_done (step := fun q => shouldAdd tree fuel q (Node.func f).type)
        (types := getFuncTypes f) (newTy := newTy) (tree := tree) args (pre ++ [.func f]) post 0 0
        pre.length (by rw [ht]; simp [Prog.flatten]) (by simp) ?_
      · rw [Fn.arity, ← hok.1]
        rw [Nat.add_zero] at hloop
        rw [hloop]
        simp only [shouldAddLoop, Prog.size]
        congr 2
        omega
      · intro a ha pre' post' ht'
        refine ih a ha (hok' a ha) fuel _ pre' post' ?_ ht'
        have hsz := Prog.size_le_sizeAll ha
        simp only [Prog.size] at hfuel
        omega

theorem shouldAdd_part (tree : List Node) (p : Part) : p.Ok → (∀ f ∈ p.path, f.Legal) →
    ∀ (fuel : Nat) (newTy : Option Ty) (pre : List Node), p.flatten.length + 1 ≤ fuel →
    tree = pre ++ p.flatten → ∃ k,
      shouldAdd tree fuel pre.length newTy = .ok (some (p.codeAccepts newTy), k) := by
  induction p with
  | slot =>
    intro _ _ fuel newTy pre hfuel ht
    cases fuel with
    | zero => omega
    | succ fuel =>
      refine ⟨pre.length, ?_⟩
      rw [shouldAdd, if_pos (by rw [ht]; simp [Part.flatten])]
      rfl
  | app f done p ih =>
    intro hok hleg fuel newTy pre hfuel ht
    obtain ⟨h1, h2, h3⟩ := hok
    simp only [Part.flatten, List.length_cons, List.length_append] at hfuel
    cases fuel with
    | zero => omega
    | succ fuel =>
      have hl : f.Legal := hleg f (by simp [Part.path])
      have hlen : pre.length ≠ tree.length := by rw [ht]; simp [Part.flatten]
      have hget : tree[pre.length]? = some (.func f) := by rw [ht]; simp [Part.flatten]
      rw [shouldAdd, if_neg hlen, hget]
      simp only
      have hok' := Prog.okAll_iff.1 h2
      have hsizes : (Prog.flattenAll done).length = Prog.sizeAll done := 
        Prog.length_flattenAll fun p _ => p.length_flatten
      have hloop := shouldAddLoop_done (step := fun q => shouldAdd tree fuel q (Node.func f).type)
        (types := getFuncTypes f) (newTy := newTy) (tree := tree) done (pre ++ [.func f]) p.flatten
        (f.params.length - done.length) 0
        pre.length (by rw [ht]; simp [Part.flatten]) (by simp) ?_
      · rw [Fn.arity, show f.params.length = done.length + (f.params.length - done.length) by omega,
          hloop]
        obtain ⟨n, hn⟩ : ∃ n, f.params.length - done.length = n + 1 := ⟨_, (by omega :
          _ = (f.params.length - done.length - 1) + 1)⟩
        rw [hn, shouldAddLoop]
        obtain ⟨k, hk⟩ := ih h3 (fun g hg => hleg g (by simp [Part.path, hg])) fuel
          (Node.func f).type (pre ++ [.func f] ++ Prog.flattenAll done) (by omega)
          (by rw [ht]; simp [Part.flatten])
        have hpos : pre.length + Prog.sizeAll done + 1 =
            (pre ++ [Node.func f] ++ Prog.flattenAll done).length := by
          simp [hsizes]; omega
        rw [hpos, hk, node_type_legal hl]
        simp only [bind, Except.bind]
        have hty : (getFuncTypes f)[0 + done.length]? = some (f.params[done.length]) := by
          rw [getFuncTypes_legal hl, Nat.zero_add, List.getElem?_append_left h1,
            List.getElem?_eq_getElem h1]
        cases hb : p.codeAccepts f.ret with
        | true =>
          simp only [hty]
          exact ⟨k, by simp [Part.codeAccepts, hb, List.getElem?_eq_getElem h1]⟩
        | false => exact ⟨k, by simp [Part.codeAccepts, hb]⟩
      · intro a ha pre' post' ht'
        refine shouldAdd_complete tree a (hok' a ha) fuel _ pre' post' ?_ ht'
        have hsz := Prog.size_le_sizeAll ha
        omega

end Verif.GP
