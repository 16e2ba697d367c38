import Verif.Lemmas.Crossover
import Verif.Props.GPTree

/-!
# C05, C06: subtree crossover
-/

namespace Verif.GP
open PyM

theorem crossover_legal_post {inds : List Ind} {ps : List Prog} (h : List.Forall₂ Represents inds ps)
    (hcommon : ∀ i ∈ inds, ∀ j ∈ inds, ∀ f ∈ i.cfg.functionSet, f ∈ j.cfg.functionSet)
    (arity attempts : Nat) :
    Post (subtreeCrossover arity attempts inds) fun out =>
      out.map (·.cfg) = inds.map (·.cfg) ∧ ∃ ps', List.Forall₂ Represents out ps' := by
  intro tape out tape' hrun
  rcases crossover_post h arity attempts tape out tape' hrun with rfl |
    ⟨tr, x0, tl, ps', hex, htr, rfl, -, -⟩
  · exact ⟨rfl, ps, h⟩
  · have hlen : ps'.length = inds.length := by
      rw [hex.2, h.length_eq, hex.1]; simp [turn_length]
    constructor
    · apply List.ext_getElem <;> simp [hlen]
    · refine ⟨ps', List.forall₂_iff_get.2 ⟨by simp [hlen], fun i hi1 hi2 => ?_⟩⟩
      have hi : i < inds.length := by omega
      obtain ⟨x, hx, y, hy, hxy⟩ := exchange_mem hex ps'[i] (List.getElem_mem hi2)
      have hmemx : x.1.fill x.2 ∈ ps := by
        rw [hex.1]; exact List.mem_map.2 ⟨x, hx, rfl⟩
      have hmemy : y.1.fill y.2 ∈ ps := by
        rw [hex.1]; exact List.mem_map.2 ⟨y, hy, rfl⟩
      have hback : ∀ p ∈ ps, ∃ i ∈ inds, Represents i p := by
        intro p hp
        obtain ⟨k, hk, rfl⟩ := List.getElem_of_mem hp
        have := List.forall₂_iff_get.1 h
        exact ⟨inds[k]'(by rw [this.1]; exact hk), List.getElem_mem _,
          this.2 k (by rw [this.1]; exact hk) hk⟩
      obtain ⟨ix, hix, hrx⟩ := hback _ hmemx
      obtain ⟨iy, hiy, hry⟩ := hback _ hmemy
      refine ⟨by simp, ?_, ?_⟩
      · simp only [List.get_eq_getElem]
        rw [hxy]; exact Ctx.fill_ok hrx.2.1 (Ctx.ok_of_fill hry.2.1)
      · simp only [List.get_eq_getElem, List.getElem_zipWith]
        rw [hxy]
        intro f hf
        have hfmem : f ∈ ix.cfg.functionSet ∨ f ∈ iy.cfg.functionSet := by
          rw [Prog.mem_fns_iff] at hf
          obtain ⟨pre, post, hfill⟩ := x.1.flatten_fill
          obtain ⟨pre', post', hfill'⟩ := y.1.flatten_fill
          rw [hfill, List.mem_append, List.mem_append] at hf
          rcases hf with (hf | hf) | hf
          · exact .inl (hrx.2.2 f (Prog.mem_fns_iff.2 (by rw [hfill]; simp [hf])))
          · exact .inr (hry.2.2 f (Prog.mem_fns_iff.2 (by rw [hfill']; simp [hf])))
          · exact .inl (hrx.2.2 f (Prog.mem_fns_iff.2 (by rw [hfill]; simp [hf])))
        rcases hfmem with hfm | hfm
        · exact hcommon ix hix _ (List.getElem_mem hi) f hfm
        · exact hcommon iy hiy _ (List.getElem_mem hi) f hfm

/-- **C05.** Subtree crossover of individuals holding legal programs over a common function set:
whatever is drawn, for every arity and number of attempts, it returns (never raises) as many
individuals with unchanged configuration, each again holding a legal program over the function
set. -/
theorem C05_crossover_legal (inds : List Ind) (ps : List Prog) (hne : inds ≠ [])
    (h : List.Forall₂ Represents inds ps)
    (hcommon : ∀ i ∈ inds, ∀ j ∈ inds, ∀ f ∈ i.cfg.functionSet, f ∈ j.cfg.functionSet)
    (attempts : Nat) (tape : Tape) :
    ∃ out tape', subtreeCrossover inds.length attempts inds tape = (.ok out, tape') ∧
      out.map (·.cfg) = inds.map (·.cfg) ∧ ∃ ps', List.Forall₂ Represents out ps' := by
  have htot : Total (subtreeCrossover inds.length attempts inds) := by
    unfold subtreeCrossover failableApply
    generalize hi : 0 = i
    clear hi
    induction attempts generalizing i with
    | zero => exact Total.pure
    | succ n ih =>
      refine Total.bind (crossoverAttempt_total h hne i) (crossoverAttempt_post h inds.length i)
        fun r hr => ?_
      obtain ⟨b, out⟩ := r
      rcases hr with ⟨h1, h2⟩ | ⟨h1, -⟩
      · simp only at h1 h2; subst h1 h2; exact ih _
      · simp only at h1; subst h1; exact Total.pure
  obtain ⟨out, tape', hrun⟩ := htot tape
  exact ⟨out, tape', hrun, crossover_legal_post h hcommon inds.length attempts tape out tape' hrun⟩

/-- **C05, arity.** Given another number of individuals than its arity, crossover raises `ValueError` before
drawing anything. -/
theorem C05_crossover_arity (arity attempts : Nat) (inds : List Ind) (h : inds.length ≠ arity) (tape : Tape) :
    subtreeCrossover arity (attempts + 1) inds tape = (.error .valueError, tape) := by
  simp [subtreeCrossover, failableApply, failableLoop, crossoverAttempt, h, bind, PyM.bind, PyM.raise]

/-- All nodes of all programs are typed, or all are untyped. -/
def Homogeneous (ps : List Prog) : Prop :=
  (∀ p ∈ ps, ∀ n ∈ p.flatten, n.type ≠ none) ∨ (∀ p ∈ ps, ∀ n ∈ p.flatten, n.type = none)

/-- **C05, typed form.** If the programs are well-typed (all nodes typed, or all untyped), the
individuals after crossover hold well-typed programs with the same root types as before. -/
theorem C05_crossover_typed (inds : List Ind) (ps : List Prog) (ρs : List (Option Ty))
    (h : List.Forall₂ Represents inds ps) (hty : List.Forall₂ Prog.HasType ps ρs)
    (hhom : Homogeneous ps) (hlegal : ∀ p ∈ ps, ∀ f ∈ p.fns, f.Legal)
    (arity attempts : Nat) (tape tape' : Tape) (out : List Ind)
    (hrun : subtreeCrossover arity attempts inds tape = (.ok out, tape')) :
    ∃ ps', out.map (·.tree) = ps'.map Prog.flatten ∧ List.Forall₂ Prog.HasType ps' ρs := by
  have htrees : inds.map (·.tree) = ps.map Prog.flatten := by
    clear hrun hty hhom hlegal
    induction h with
    | nil => rfl
    | cons h _ ih => simp [h.1, ih]
  rcases crossover_post h arity attempts tape out tape' hrun with rfl |
    ⟨tr, x0, tl, ps', hex, htr, rfl, -, r0, hr0, hel⟩
  · exact ⟨ps, htrees, hty⟩
  · have hlen : ps'.length = inds.length := by
      rw [hex.2, h.length_eq, hex.1]; simp [turn_length]
    refine ⟨ps', ?_, ?_⟩
    · apply List.ext_getElem
      · simp [hlen]
      · intro i hi hi'; simp
    · -- all cut sub-programs have the same root type
      have hmem : ∀ x ∈ tr, x.1.fill x.2 ∈ ps := fun x hx => by
        rw [hex.1]; exact List.mem_map.2 ⟨x, hx, rfl⟩
      have hsub : ∀ x ∈ tr, ∀ n ∈ x.2.flatten, n ∈ (x.1.fill x.2).flatten := by
        intro x _ n hn
        obtain ⟨pre, post, hfill⟩ := x.1.flatten_fill
        rw [hfill]; simp [hn]
      have hroot : ∀ x ∈ tr, ∀ n, x.2.flatten.head? = some n → n.type = x.2.rootType := by
        intro x hx n hn
        refine head_type (fun f hf => hlegal _ (hmem x hx) f ?_) hn
        rw [Prog.mem_fns_iff] at hf ⊢
        exact hsub x hx _ hf
      have hsame : ∀ x ∈ tr, x.2.rootType = r0.type := by
        intro x hx
        rw [htr, List.mem_cons] at hx
        rcases hx with rfl | hx
        · exact (hroot x (by simp [htr]) r0 hr0).symm
        · obtain ⟨n, hn, hrel⟩ := hel x hx
          have hxtr : x ∈ tr := by simp [htr, hx]
          rw [← hroot x hxtr n hn]
          obtain ⟨hn1, hn2⟩ := mem_relevantNodes.1 hrel
          have hr0mem : r0 ∈ (x0.1.fill x0.2).flatten :=
            hsub x0 (by simp [htr]) r0 (List.mem_of_mem_head? hr0)
          rcases hhom with htyped | huntyped
          · obtain ⟨r, l, hrl⟩ := List.exists_cons_of_ne_nil (x.1.fill x.2).flatten_ne_nil
            rcases hn2 r (by simp [hrl]) with hq | ⟨-, hq | hq⟩
            · exact absurd hq (htyped _ (hmem x hxtr) n hn1)
            · exact absurd hq (htyped _ (hmem x0 (by simp [htr])) r0 hr0mem)
            · exact hq
          · rw [huntyped _ (hmem x hxtr) n hn1, huntyped _ (hmem x0 (by simp [htr])) r0 hr0mem]
      have hpslen : ps.length = tr.length := by rw [hex.1]; simp
      have hps'len : ps'.length = tr.length := by rw [hlen, h.length_eq, hpslen]
      have hty' := List.forall₂_iff_get.1 hty
      refine List.forall₂_iff_get.2 ⟨by rw [hps'len, ← hpslen]; exact hty'.1, fun i hi1 hi2 => ?_⟩
      simp only [List.get_eq_getElem] at *
      have hit : i < tr.length := by omega
      have hxi : tr[i] ∈ tr := List.getElem_mem hit
      have hpi : ps[i]'(by omega) = tr[i].1.fill tr[i].2 := by simp [hex.1]
      have hp'i : ∃ y ∈ tr, ps'[i] = tr[i].1.fill y.2 := by
        have hm : (turn (tr.map fun x => x.2))[i]'(by rw [turn_length]; simpa using hit)
            ∈ tr.map fun x => x.2 := (turn_perm _).mem_iff.1 (List.getElem_mem _)
        obtain ⟨y, hy, hye⟩ := List.mem_map.1 hm
        exact ⟨y, hy, by simp [hex.2, hye]⟩
      obtain ⟨y, hy, hyi⟩ := hp'i
      have hpt := hty'.2 i (by omega) hi2
      rw [hpi] at hpt
      obtain ⟨σ, hσ, hrepl⟩ := Ctx.fill_hasType hpt
      rw [hyi]
      refine hrepl _ ?_
      -- the received sub-program is well-typed with its own root type
      obtain ⟨k, hk, hky⟩ := List.getElem_of_mem hy
      have hpk := hty'.2 k (by omega) (by rw [← hty'.1]; omega)
      have hpk' : ps[k]'(by omega) = y.1.fill y.2 := by simp [hex.1, hky]
      rw [hpk'] at hpk
      obtain ⟨σ', hσ', -⟩ := Ctx.fill_hasType hpk
      have e1 := HasType.rootType hσ
      have e2 := HasType.rootType hσ'
      rw [hsame _ hxi] at e1
      rw [hsame _ hy] at e2
      rw [e1, ← e2]; exact hσ'

/-- **C06.** Crossover either leaves everything unchanged or exchanges sub-programs cyclically:
every program is split into a context and one complete sub-program, and individual `i + 1` receives
the sub-program cut out of individual `i` (individual `0` that of the last).  Consequently the
multiset of nodes over all participants is unchanged. -/
theorem C06_crossover_conserves (inds : List Ind) (ps : List Prog)
    (h : List.Forall₂ Represents inds ps) (arity attempts : Nat) (tape tape' : Tape)
    (out : List Ind) (hrun : subtreeCrossover arity attempts inds tape = (.ok out, tape')) :
    (out = inds ∨ ∃ tr ps', Exchange tr ps ps' ∧ out.map (·.tree) = ps'.map Prog.flatten) ∧
    (out.flatMap (·.tree)).Perm (inds.flatMap (·.tree)) := by
  rcases crossover_post h arity attempts tape out tape' hrun with rfl |
    ⟨tr, x0, tl, ps', hex, htr, rfl, -, -⟩
  · exact ⟨.inl rfl, .refl _⟩
  · have hlen : ps'.length = inds.length := by
      rw [hex.2, h.length_eq, hex.1]; simp [turn_length]
    have htree : (List.zipWith (fun ind p => ({ ind with tree := p.flatten } : Ind)) inds ps').map
        (·.tree) = ps'.map Prog.flatten := by
      apply List.ext_getElem
      · simp [hlen]
      · intro i hi hi'; simp
    refine ⟨.inr ⟨tr, ps', hex, htree⟩, ?_⟩
    have htrees : inds.map (·.tree) = ps.map Prog.flatten := by
      clear hrun hex hlen htree
      induction h with
      | nil => rfl
      | cons h _ ih => simp [h.1, ih]
    have e1 : ∀ l : List Ind, l.flatMap (·.tree) = (l.map (·.tree)).flatten := by
      intro l; simp [List.flatMap_def]
    rw [e1, e1, htree, htrees, hex.1, hex.2]
    -- a context contributes a fixed part
    have hctx : ∀ c : Ctx, ∃ k : List Node, ∀ q : Prog, (c.fill q).flatten.Perm (k ++ q.flatten) := by
      intro c
      obtain ⟨pre, post, hfill⟩ := c.flatten_fill
      refine ⟨pre ++ post, fun q => ?_⟩
      rw [hfill, List.append_assoc, List.append_assoc]
      exact (List.Perm.refl pre).append List.perm_append_comm
    choose kp hkp using hctx
    have hgen : ∀ (tr : List (Ctx × Prog)) (qs : List Prog), qs.length = tr.length →
        ((List.zipWith (fun x q => x.1.fill q) tr qs).map Prog.flatten).flatten.Perm
          ((tr.map fun x => kp x.1).flatten ++ (qs.map Prog.flatten).flatten) := by
      intro tr
      induction tr with
      | nil => intro qs hq; simp at hq; subst hq; simp
      | cons x tr ih =>
        intro qs hq
        cases qs with
        | nil => simp at hq
        | cons q qs =>
          simp only [List.zipWith_cons_cons, List.map_cons, List.flatten_cons]
          refine ((hkp x.1 q).append (ih qs (by simpa using hq))).trans ?_
          simp only [List.append_assoc]
          refine (List.Perm.refl _).append ?_
          rw [← List.append_assoc, ← List.append_assoc]
          exact List.perm_append_comm.append_right _
    have h1 := hgen tr (turn (tr.map fun x => x.2)) (by rw [turn_length]; simp)
    have h2 := hgen tr (tr.map fun x => x.2) (by simp)
    have e2 : List.zipWith (fun (x : Ctx × Prog) q => x.1.fill q) tr (tr.map fun x => x.2)
        = tr.map fun x => x.1.fill x.2 := by
      rw [List.zipWith_map_right, List.zipWith_self]
    rw [e2] at h2
    refine h1.trans (List.Perm.trans ?_ h2.symm)
    exact (List.Perm.refl _).append (((turn_perm _).map _).flatten)

/-! ### Non-vacuity: three individuals -/

namespace Sample

def prog2 : Prog := .app neg [.term y none]
def prog3 : Prog := .app mul [.term y none, .term two none]

def inds3 : List Ind := [⟨cfg, prog.flatten⟩, ⟨cfg, prog2.flatten⟩, ⟨cfg, prog3.flatten⟩]

theorem inds3_represents : List.Forall₂ Represents inds3 [prog, prog2, prog3] := by
  refine .cons ⟨rfl, ?_, ?_⟩ (.cons ⟨rfl, ?_, ?_⟩ (.cons ⟨rfl, ?_, ?_⟩ .nil)) <;>
    simp [prog, prog2, prog3, Prog.Ok, Prog.OkAll, Prog.fns, Prog.fnsAll, cfg, add, mul, neg]

/-- The hypotheses of C05/C06 hold for `inds3`, and a run really exchanges three blocks. -/
example : inds3 ≠ [] ∧ List.Forall₂ Represents inds3 [prog, prog2, prog3] ∧
    (∀ i ∈ inds3, ∀ j ∈ inds3, ∀ f ∈ i.cfg.functionSet, f ∈ j.cfg.functionSet) ∧
    List.Forall₂ Prog.HasType [prog, prog2, prog3] [none, none, none] ∧
    Homogeneous [prog, prog2, prog3] ∧
    (∃ t', subtreeCrossover 3 1 inds3 (fun _ => 1) = (.ok
      [⟨cfg, [.func add, .term y none, .func neg, .term x none]⟩,
       ⟨cfg, [.func neg, .func mul, .term x none, .term two none]⟩,
       ⟨cfg, [.func mul, .term y none, .term two none]⟩], t')) := by
  refine ⟨by simp [inds3], inds3_represents, ?_, ?_, .inr ?_, ⟨_, rfl⟩⟩
  · simp [inds3]
  · refine .cons ?_ (.cons ?_ (.cons ?_ .nil)) <;>
      simp [prog, prog2, prog3, Prog.HasType, Prog.HaveTypes, add, mul, neg]
  · simp [prog, prog2, prog3, Prog.flatten, Prog.flattenAll, add, mul, neg, Node.type, getFuncTypes,
      Fn.hints, List.replicate, Fn.arity]

end Sample
end Verif.GP
