import Verif.Lemmas.Tree

/-! # `depth` on listings of programs -/

namespace Verif.GP

mutual
/-- What `_depth` computes, on programs. -/
def depthE : Prog → Except Err Nat
  | .term _ _ => .ok 0
  | .app _ args =>
    match depthEAll args with
    | .ok ds => pyMax ds
    | .error e => .error e
def depthEAll : List Prog → Except Err (List Nat)
  | [] => .ok []
  | p :: ps =>
    match depthE p with
    | .ok d => match depthEAll ps with
      | .ok ds => .ok ((1 + d) :: ds)
      | .error e => .error e
    | .error e => .error e
end

theorem depthEAll_eq (ps : List Prog) :
    exAll (fun p => (depthE p).map (1 + ·)) ps = depthEAll ps := by
  induction ps with
  | nil => simp [exAll, depthEAll]
  | cons p ps ih =>
    simp only [exAll, depthEAll, ih]
    cases depthE p with
    | error e => rfl
    | ok d => simp only [Except.map]; cases depthEAll ps <;> rfl

theorem depthAt_listing (tree : List Node) (fuel : Nat) : ∀ (p : Prog), p.Ok →
    p.size ≤ fuel → ∀ pre post : List Node, tree = pre ++ p.flatten ++ post →
    depthAt tree fuel pre.length = (depthE p).map fun d => (d, pre.length + p.size - 1) := by
  induction fuel with
  | zero => intro p _ h; have := p.size_pos; omega
  | succ fuel ih =>
    intro p hok hfuel pre post htree
    cases p with
    | term v ty =>
      simp only [Prog.flatten] at htree
      have : tree[pre.length]? = some (.term v ty) := by rw [htree]; simp
      simp [depthAt, this, Prog.size, depthE, Except.map]
    | app f args =>
      simp only [Prog.flatten] at htree
      have hget : tree[pre.length]? = some (.func f) := by rw [htree]; simp
      simp only [Prog.Ok, Prog.okAll_iff] at hok
      simp only [Prog.size] at hfuel
      have hl := loopArgs_spec (tree := tree) (step := fun q => do
          let (d, q') ← depthAt tree fuel q
          .ok (1 + d, q'))
        (g := fun p => (depthE p).map (1 + ·)) args pre.length (pre ++ [.func f]) post
        (by simpa using htree) (by simp)
        (fun q hq pre' post' ht => by
          have hsz : q.size ≤ Prog.sizeAll args := by
            obtain ⟨l, r, rfl⟩ := List.append_of_mem hq
            simp [Prog.sizeAll_append, Prog.sizeAll]; omega
          rw [ih q (hok.2 q hq) (by omega) pre' post' ht]
          cases depthE q <;> simp [bind, Except.bind, Except.map])
      simp only [depthAt, hget, Fn.arity, ← hok.1, hl, depthEAll_eq, Prog.size, depthE]
      cases depthEAll args with
      | error e => simp [bind, Except.bind, Except.map]
      | ok ds =>
        simp only [bind, Except.bind, Except.map]
        cases pyMax ds <;> simp
        omega

theorem depthE_ok (p : Prog) : p.Ok → (∀ f ∈ p.fns, f.params ≠ []) →
    ∃ d, depthE p = .ok d ∧ d ∈ p.leafDepths ∧ ∀ x ∈ p.leafDepths, x ≤ d := by
  induction p using Prog.ind with
  | hterm v ty => intros; exact ⟨0, by simp [depthE, Prog.leafDepths]⟩
  | happ f args ih =>
    intro hok hf
    simp only [Prog.Ok, Prog.okAll_iff] at hok
    simp only [Prog.fns, List.mem_cons, forall_eq_or_imp, Prog.mem_fnsAll] at hf
    have hne : args ≠ [] := by
      intro h; subst h
      have := hok.1
      exact hf.1 (List.length_eq_zero_iff.1 (by simpa using this.symm))
    have key : ∀ ps : List Prog, (∀ p ∈ ps, p ∈ args) →
        ∃ ds, depthEAll ps = .ok ds ∧ ds.length = ps.length ∧
          (∀ d ∈ ds, ∃ x ∈ Prog.leafDepthsAll ps, d = x + 1) ∧
          (∀ x ∈ Prog.leafDepthsAll ps, ∃ d ∈ ds, x + 1 ≤ d) := by
      intro ps
      induction ps with
      | nil => intro _; exact ⟨[], by simp [depthEAll, Prog.leafDepthsAll]⟩
      | cons p ps ihp =>
        intro hsub
        obtain ⟨d, hd, hd1, hd2⟩ := ih p (hsub p (by simp)) (hok.2 p (hsub p (by simp)))
          (fun g hg => hf.2 g ⟨p, hsub p (by simp), hg⟩)
        obtain ⟨ds, hds, hlen, h1, h2⟩ := ihp fun q hq => hsub q (by simp [hq])
        refine ⟨(1 + d) :: ds, by simp [depthEAll, hd, hds], by simp [hlen], ?_, ?_⟩
        · intro e he
          rcases List.mem_cons.1 he with rfl | he
          · exact ⟨d, by simp [Prog.leafDepthsAll, hd1], by omega⟩
          · obtain ⟨x, hx, rfl⟩ := h1 e he
            exact ⟨x, by simp [Prog.leafDepthsAll, hx], rfl⟩
        · intro x hx
          simp only [Prog.leafDepthsAll, List.mem_append] at hx
          rcases hx with hx | hx
          · exact ⟨1 + d, by simp, by have := hd2 x hx; omega⟩
          · obtain ⟨e, he, hle⟩ := h2 x hx
            exact ⟨e, by simp [he], hle⟩
    obtain ⟨ds, hds, hlen, h1, h2⟩ := key args fun p hp => hp
    have hdne : ds ≠ [] := by
      intro h; subst h; exact hne (List.length_eq_zero_iff.1 (by simpa using hlen.symm))
    obtain ⟨m, hm, hmem, hmax⟩ := pyMax_ok hdne
    refine ⟨m, by simp [depthE, hds, hm], ?_, ?_⟩
    · obtain ⟨x, hx, rfl⟩ := h1 m hmem
      simp [Prog.leafDepths, hne]; exact hx
    · intro x hx
      simp only [Prog.leafDepths, hne, if_false, List.mem_map] at hx
      obtain ⟨y, hy, rfl⟩ := hx
      obtain ⟨d, hd, hle⟩ := h2 y hy
      exact le_trans hle (hmax d hd)

theorem depthE_nullary (p : Prog) : p.Ok → (∃ f ∈ p.fns, f.params = []) →
    depthE p = .error .valueError := by
  -- every outcome is a number or `ValueError`; here a number is impossible
  have hcase : ∀ p : Prog, (∃ d, depthE p = .ok d) ∨ depthE p = .error .valueError := by
    intro p
    induction p using Prog.ind with
    | hterm v ty => exact .inl ⟨0, by simp [depthE]⟩
    | happ f args ih =>
      have : (∃ ds, depthEAll args = .ok ds) ∨ depthEAll args = .error .valueError := by
        induction args with
        | nil => exact .inl ⟨[], by simp [depthEAll]⟩
        | cons a as iha =>
          simp only [depthEAll]
          rcases ih a (by simp) with ⟨d, hd⟩ | h
          · rcases iha (fun b hb => ih b (by simp [hb])) with ⟨ds, hds⟩ | h
            · exact .inl ⟨_, by simp [hd, hds]; rfl⟩
            · exact .inr (by simp [hd, h])
          · exact .inr (by simp [h])
      simp only [depthE]
      rcases this with ⟨ds, hds⟩ | h
      · rw [hds]
        cases ds with
        | nil => exact .inr rfl
        | cons x xs => exact .inl ⟨_, rfl⟩
      · exact .inr (by simp [h])
  induction p using Prog.ind with
  | hterm v ty => rintro - ⟨f, hf, -⟩; simp [Prog.fns] at hf
  | happ f args ih =>
    intro hok hex
    simp only [Prog.Ok, Prog.okAll_iff] at hok
    rcases hcase (.app f args) with ⟨d, hd⟩ | h
    · exfalso
      simp only [depthE] at hd
      cases hda : depthEAll args with
      | error e => simp [hda] at hd
      | ok ds =>
        have hall : ∀ (ps : List Prog) ds, depthEAll ps = .ok ds →
            ds.length = ps.length ∧ ∀ p ∈ ps, ∃ d, depthE p = .ok d := by
          intro ps
          induction ps with
          | nil => intro ds h; simp [depthEAll] at h; subst h; simp
          | cons p ps ihp =>
            intro ds h
            simp only [depthEAll] at h
            cases hp : depthE p with
            | error e => simp [hp] at h
            | ok d =>
              cases hps : depthEAll ps with
              | error e => simp [hp, hps] at h
              | ok ds' =>
                simp only [hp, hps, Except.ok.injEq] at h
                subst h
                obtain ⟨h1, h2⟩ := ihp ds' hps
                refine ⟨by simp [h1], ?_⟩
                intro q hq
                rcases List.mem_cons.1 hq with rfl | hq
                · exact ⟨d, hp⟩
                · exact h2 q hq
        obtain ⟨hlen, hargs⟩ := hall args ds hda
        obtain ⟨g, hg, hnil⟩ := hex
        simp only [Prog.fns, List.mem_cons, Prog.mem_fnsAll] at hg
        rcases hg with rfl | ⟨a, ha, hga⟩
        · rw [hok.1, hnil] at hlen
          have : ds = [] := by simpa using hlen
          subst this
          simp [hda, pyMax] at hd
        · obtain ⟨d', hd'⟩ := hargs a ha
          rw [ih a ha (hok.2 a ha) ⟨g, hga, hnil⟩] at hd'
          simp at hd'
    · exact h

theorem leafDepth_lt_size (p : Prog) : ∀ d ∈ p.leafDepths, d < p.size := by
  induction p using Prog.ind with
  | hterm v ty => simp [Prog.leafDepths, Prog.size]
  | happ f args ih =>
    intro d hd
    simp only [Prog.leafDepths] at hd
    split at hd
    · simp at hd; simp [hd, Prog.size]
    · simp only [List.mem_map, Prog.mem_leafDepthsAll] at hd
      obtain ⟨e, ⟨a, ha, hea⟩, rfl⟩ := hd
      have := ih a ha e hea
      have hsz : a.size ≤ Prog.sizeAll args := by
        obtain ⟨l, r, rfl⟩ := List.append_of_mem ha
        simp [Prog.sizeAll_append, Prog.sizeAll]; omega
      simp [Prog.size]; omega

end Verif.GP
