import Verif.Props.Legal

/-! # C45: the mutation objects of a run do to the genomes what the mutations do

C19, C20 and C86 are about mutations of vectors; here they are related to the operator objects of a run, in particular
for the Gaussian mutations, which hand over to another object. -/

namespace Verif.Evo
open PyM
variable {G : Type}

/-- The genomes at `refs`. -/
abbrev Hold (s : World G) (refs : List Nat) (gs : List G) : Prop := List.Forall₂ (fun r g => genomeAt s r = some g) refs gs

theorem Hold.unique {s : World G} {refs : List Nat} {gs gs' : List G} (h : Hold s refs gs) (h' : Hold s refs gs') : gs = gs' := by
  induction h generalizing gs' with
  | nil => cases h'; rfl
  | cons h1 _ ih =>
    cases h' with
    | cons h2 h3 =>
      rw [h1, Option.some.injEq] at h2
      rw [h2, ih h3]

theorem genomes_hold {s : World G} {refs : List Nat} {gs : List G} (h : Hold s refs gs) :
    wlp (genomes refs) (fun gs' s' => s' = s ∧ gs' = gs) s :=
  (genomes_wlp refs s).mono fun _ _ h' => ⟨h'.1, Hold.unique h'.2 h⟩

theorem genomeAt_modify (s : World G) (a r : Nat) (f : Ind G → Ind G) :
    genomeAt { s with heap := s.heap.modify a f } r = if a = r then (s.heap[r]?).map fun i => (f i).genome else genomeAt s r := by
  unfold genomeAt
  simp only [List.getElem?_modify]
  cases s.heap[r]? with
  | none => by_cases ha : a = r <;> simp [ha]
  | some i => by_cases ha : a = r <;> simp [ha]

/-- Storing as many genomes as there are individuals, all different, and reading them back. -/
theorem putGenomes_hold {refs : List Nat} (hn : refs.Nodup) {gs : List G} (hl : gs.length = refs.length) {s : World G}
    (hv : ∀ r ∈ refs, (genomeAt s r).isSome) :
    wlp (putGenomes refs gs) (fun _ s' => s'.tape = s.tape ∧ Hold s' refs gs) s := by
  induction refs generalizing gs s with
  | nil =>
    cases gs with
    | nil => unfold putGenomes forL; rw [List.zip_nil_left, wlp_pure]; exact ⟨rfl, .nil⟩
    | cons => simp at hl
  | cons r rs ih =>
    cases gs with
    | nil => simp at hl
    | cons g gs =>
      unfold putGenomes
      rw [List.zip_cons_cons]
      unfold forL
      rw [wlp_bind, wlp_update]
      rw [List.nodup_cons] at hn
      have hlen : gs.length = rs.length := by simpa using hl
      refine (wlp.mono (Q := fun _ s' => (s'.tape = s.tape ∧ Hold s' rs gs) ∧ genomeAt s' r = some g) ?_
        fun _ s' h => ⟨h.1.1, .cons h.2 h.1.2⟩)
      refine wlp.and (ih hn.2 hlen fun q hq => ?_) ?_
      · have := hv q (by simp [hq])
        rw [genomeAt_modify]
        have hne : r ≠ q := by rintro rfl; exact hn.1 hq
        rw [if_neg hne]
        exact this
      · refine (putGenomes_ext rs gs _).mono fun _ s' h => ?_
        have hr := hv r (by simp)
        have h1 := genomeAt_modify s r r fun i => { i with genome := g }
        rw [if_pos rfl] at h1
        have hlt : r < s.heap.length := by
          unfold genomeAt at hr
          by_contra hge
          rw [List.getElem?_eq_none (by omega)] at hr
          simp at hr
        have h2 : genomeAt s' r = genomeAt { s with heap := s.heap.modify r fun i => { i with genome := g } } r := by
          unfold genomeAt
          rw [h.1.same r (by simpa using hlt) hn.1]
        rw [h2, h1, List.getElem?_eq_getElem hlt]
        rfl

theorem updates_hold {refs xs : List Nat} {gs : List G} (f : Ind G → Ind G) (hf : ∀ i, (f i).genome = i.genome) {s : World G}
    (h : Hold s refs gs) : wlp (forL (fun r => update r f) xs) (fun _ s' => s'.tape = s.tape ∧ Hold s' refs gs) s := by
  refine wlp_forL (I := fun _ (s' : World G) => s'.tape = s.tape ∧ Hold s' refs gs) ⟨rfl, h⟩ ?_
  rintro pre a post s₁ - ⟨h1, h2⟩
  rw [wlp_update]
  refine ⟨h1, h2.imp fun r g hg => ?_⟩
  rw [genomeAt_modify]
  split
  · unfold genomeAt at hg
    cases hi : s₁.heap[r]? with
    | none => simp [hi] at hg
    | some i => simpa [hi, hf] using hg
  · exact hg

/-- What an operator object makes of the individuals at `refs` is what `f` makes of their genomes, with the same draws:
it returns the individuals it was given if `f` returns genomes, and `None` if `f` does. -/
def Op.Does (o : Op G) (f : List G → Rand (Option (List G))) : Prop :=
  ∀ refs gs s, refs.Nodup → Hold s refs gs → wlp (o.apply refs) (fun res s' => ∃ out,
    f gs s.tape = (.ok out, s'.tape) ∧ (out = none → res = none) ∧ ∀ gs', out = some gs' → res = some refs ∧ Hold s' refs gs') s

theorem Hold.some {s : World G} {refs : List Nat} {gs : List G} (h : Hold s refs gs) : ∀ r ∈ refs, (genomeAt s r).isSome := by
  intro r hr
  obtain ⟨k, hk, rfl⟩ := List.getElem_of_mem hr
  have := h.get hk (h.length_eq ▸ hk)
  simp only [List.get_eq_getElem] at this
  rw [this]; rfl

theorem Op.inPlace_does (name : String) (p : ℚ) (arity : Nat) {f : List G → Rand (Option (List G))}
    (hl : ∀ gs, Post (f gs) fun res => ∀ gs', res = some gs' → gs'.length = gs.length) : (Op.inPlace name p arity f).Does f := by
  intro refs gs s hn hh
  unfold Op.inPlace
  dsimp only
  rw [wlp_bind]
  refine (genomes_hold hh).mono ?_
  rintro _ _ ⟨rfl, rfl⟩
  rename_i gs s
  rw [wlp_bind, wlp_rand]
  intro r t e
  cases r with
  | none => rw [wlp_pure]; exact ⟨none, e, fun _ => rfl, by simp⟩
  | some gs' =>
    simp only
    rw [wlp_bind]
    refine (putGenomes_hold hn ((hl gs _ _ _ e gs' rfl).trans hh.length_eq.symm) (s := { s with tape := t })
      (Hold.some hh)).mono fun _ s' h => ?_
    rw [wlp_pure]
    refine ⟨some gs', by rw [e, h.1], by simp, ?_⟩
    rintro _ ⟨⟩
    exact ⟨rfl, h.2⟩

end Verif.Evo

namespace Verif.GA
open PyM Verif.Evo

theorem attemptOperator_length (m : NPoint) (inds : List Vec) :
    Post (attemptOperator m inds) fun r => r.2.length = inds.length := by
  induction inds with
  | nil => exact Post.pure rfl
  | cons v rest ih =>
    unfold attemptOperator
    refine Post.bind (Q := fun _ => True) (fun _ _ _ _ => trivial) fun r _ => ?_
    obtain ⟨ok, v'⟩ := r
    refine Post.ite (fun _ => Post.bind ih fun r hr => ?_) fun _ => Post.pure (by simp)
    obtain ⟨s, rest'⟩ := r
    exact Post.pure (by simpa using hr)

theorem npLoop_length {m : NPoint} {k : Nat}
    (hf : ∀ l : List Vec, l.length = k → Post (m.onFail l) fun r => ∀ l', r = some l' → l'.length = k) :
    ∀ n i (l : List Vec), l.length = k → Post (failableLoop (α := Option (List Vec))
      (fun p _ => match p with
        | none => raise .typeError
        | some l => do
          let (s, l') ← attemptOperator m l
          pure (s, some l'))
      (fun p => match p with
        | none => raise .typeError
        | some l => m.onFail l) n i (some l)) fun r => ∀ l', r = some l' → l'.length = k := by
  intro n
  induction n with
  | zero => intro i l hl; exact hf l hl
  | succ n ih =>
    intro i l hl
    refine Post.bind (Q := fun r => ∃ l', r.2 = some l' ∧ l'.length = k) ?_ fun r hr => ?_
    · refine Post.bind (attemptOperator_length m l) fun r hr => ?_
      obtain ⟨s, l'⟩ := r
      exact Post.pure ⟨l', rfl, hr.trans hl⟩
    · obtain ⟨s, p⟩ := r
      obtain ⟨l', rfl, hl'⟩ := hr
      exact Post.ite (fun _ => Post.pure (by rintro _ ⟨⟩; exact hl')) fun _ => ih (i + 1) l' hl'

theorem npApply_length (c : MutationClass) (p : ℚ) (gs : List Vec) :
    Post (npApply (c.op p) gs) fun res => ∀ gs', res = some gs' → gs'.length = gs.length := by
  unfold npApply failableApply
  have hdef : ∀ m : NPoint, m.onFail = defaultOnFail → ∀ l : List Vec, l.length = gs.length →
      Post (m.onFail l) fun r => ∀ l', r = some l' → l'.length = gs.length := by
    intro m hm l _
    rw [hm]
    exact Post.pure (by simp)
  have hgauss : ∀ n mu sigma a, ∀ l : List Vec, l.length = gs.length →
      Post ((gaussNPoint n p mu sigma a).onFail l) fun r => ∀ l', r = some l' → l'.length = gs.length := by
    intro n mu sigma a l hl
    show Post (do let r ← applyOperator p (npApply (uniformNPoint n)) l; pure (some r)) _
    refine Post.bind (Q := fun l' : List Vec => l'.length = gs.length) ?_ fun r hr => Post.pure (by rintro _ ⟨⟩; exact hr)
    unfold applyOperator
    refine Post.bind (Q := fun _ => True) (fun _ _ _ _ => trivial) fun u _ => ?_
    refine Post.ite (fun _ => ?_) fun _ => Post.pure hl
    refine Post.bind (npLoop_length (m := uniformNPoint n) (k := gs.length) (hdef _ rfl) _ _ l hl) fun r hr => ?_
    cases r with
    | none => exact Post.raise
    | some l' => exact Post.pure (hr l' rfl)
  refine npLoop_length ?_ _ _ gs rfl
  cases c with
  | floatGaussOne mu sigma a => exact hgauss 1 mu sigma a
  | floatGaussN n mu sigma a => exact hgauss n mu sigma a
  | _ => exact hdef _ rfl

/-- The attempts, followed by `on_fail` if they all fail, are the whole of `apply`. -/
theorem npApply_run (m : NPoint) (inds : List Vec) (t : Tape) : npApply m inds t =
    match npTry m inds t with
    | (.ok (true, l), t') => (.ok (some l), t')
    | (.ok (false, l), t') => m.onFail l t'
    | (.error e, t') => (.error e, t') := by
  unfold npApply npTry failableApply
  suffices ∀ n i (l : List Vec) (t : Tape), failableLoop (α := Option (List Vec))
      (fun p _ => match p with
        | none => raise .typeError
        | some l => do
          let (s, l') ← attemptOperator m l
          pure (s, some l'))
      (fun p => match p with
        | none => raise .typeError
        | some l => m.onFail l) n i (some l) t =
    match failableLoop (α := Bool × List Vec) (fun p _ => do
        let (s, l') ← attemptOperator m p.2
        pure (s, (s, l'))) pure n i (false, l) t with
    | (.ok (true, l), t') => (.ok (some l), t')
    | (.ok (false, l), t') => m.onFail l t'
    | (.error e, t') => (.error e, t') from this _ _ _ _
  intro n
  induction n with
  | zero => intro i l t; rfl
  | succ n ih =>
    intro i l t
    unfold failableLoop
    simp only [bind_run]
    cases h : attemptOperator m l t with
    | mk r t' =>
      cases r with
      | error e => rfl
      | ok r =>
        obtain ⟨s, l'⟩ := r
        cases s with
        | true => rfl
        | false => exact ih (i + 1) l' t'

theorem npTry_length (m : NPoint) (inds : List Vec) : Post (npTry m inds) fun r => r.2.length = inds.length := by
  unfold npTry failableApply
  suffices ∀ n i b (l : List Vec), l.length = inds.length → Post (failableLoop (α := Bool × List Vec)
      (fun p _ => do
        let (s, l') ← attemptOperator m p.2
        pure (s, (s, l'))) pure n i (b, l)) fun r => r.2.length = inds.length from this _ _ _ _ rfl
  intro n
  induction n with
  | zero => intro i b l hl; exact Post.pure hl
  | succ n ih =>
    intro i b l hl
    refine Post.bind (Q := fun r => r.2.2.length = inds.length) ?_ fun r hr => ?_
    · refine Post.bind (attemptOperator_length m l) fun r hr => ?_
      obtain ⟨s, l'⟩ := r
      exact Post.pure (hr.trans hl)
    · obtain ⟨s, b', l'⟩ := r
      exact Post.ite (fun _ => Post.pure hr) fun _ => ih (i + 1) b' l' hr

/-- `apply_operator` of an object, on the genomes. -/
theorem applyOperator_does {o : Op Vec} {f : List Vec → Rand (Option (List Vec))} (ho : o.Does f) {refs : List Nat}
    {gs : List Vec} {s : World Vec} (hn : refs.Nodup) (hh : Hold s refs gs) :
    wlp (Evo.applyOperator o refs) (fun res s' => res = refs ∧ ∃ gs',
      applyOperator o.probability f gs s.tape = (.ok gs', s'.tape) ∧ Hold s' refs gs') s := by
  unfold Evo.applyOperator
  rw [wlp_bind, wlp_rand]
  intro u t hu
  have hrun : applyOperator o.probability f gs s.tape = (if u ≤ o.probability then do
      let r ← f gs
      match r with
      | none => raise .typeError
      | some l => pure l
    else pure gs : Rand (List Vec)) t := by
    unfold applyOperator
    rw [bind_run, hu]
    rfl
  rw [wlp_ite]
  refine ⟨fun hp => ?_, fun hp => by rw [wlp_pure]; exact ⟨rfl, gs, by rw [hrun, if_neg hp]; rfl, hh⟩⟩
  rw [if_pos hp, bind_run] at hrun
  rw [wlp_bind]
  refine (updates_hold (xs := refs) (fun i => { i with fit := i.fit.setNotEvaluated }) (fun _ => rfl)
    (s := { s with tape := t }) hh).mono fun _ s₁ h1 => ?_
  rw [wlp_bind]
  refine (ho refs gs s₁ hn h1.2).mono fun res s₂ h2 => ?_
  obtain ⟨out, e, hnone, hsome⟩ := h2
  rw [h1.1] at e
  rw [e] at hrun
  cases out with
  | none => rw [hnone rfl]; simp
  | some gs' =>
    obtain ⟨rfl, hh2⟩ := hsome gs' rfl
    simp only
    rw [wlp_bind]
    refine (wlp.mono (Q := fun _ s' => s' = s₂) (by
      refine wlp_mapL (I := fun _ _ (s' : World Vec) => s' = s₂) rfl ?_
      rintro pre a post ys _ - rfl
      rw [wlp_bind, wlp_deref]
      intro i _
      rw [wlp_pure]) ?_)
    rintro ids _ rfl
    rename_i s₂
    rw [wlp_bind]
    refine (updates_hold (xs := refs) (record o.name ids) (fun _ => rfl) hh2).mono fun _ s₃ h3 => ?_
    rw [wlp_pure]
    exact ⟨rfl, gs', by rw [hrun, h3.1]; rfl, h3.2⟩

theorem gauss_does (name name' : String) (n : Nat) (p : ℚ) (arity : Nat) (mu sigma : ℚ) (a : Nat) :
    (Op.withFallback name p arity (npTry (gaussNPoint n p mu sigma a)) (mutationOp name' p arity (uniformNPoint n))).Does
      (npApply (gaussNPoint n p mu sigma a)) := by
  have hin : (mutationOp name' p arity (uniformNPoint n)).Does (npApply (uniformNPoint n)) :=
    Op.inPlace_does _ _ _ (npApply_length (.floatUniformN n) p)
  intro refs gs s hnd hh
  unfold Op.withFallback
  dsimp only
  rw [wlp_bind]
  refine (genomes_hold hh).mono ?_
  rintro _ _ ⟨rfl, rfl⟩
  rename_i gs s
  rw [wlp_bind, wlp_rand]
  rintro ⟨ok, gs'⟩ t hrun
  have hfull := npApply_run (gaussNPoint n p mu sigma a) gs s.tape
  rw [hrun] at hfull
  dsimp only
  rw [wlp_bind]
  refine (putGenomes_hold hnd ((npTry_length _ gs _ _ _ hrun).trans hh.length_eq.symm) (s := { s with tape := t })
    (Hold.some hh)).mono fun _ s₁ h1 => ?_
  rw [wlp_ite]
  refine ⟨fun hok => ?_, fun hok => ?_⟩
  · rw [wlp_pure]
    subst hok
    exact ⟨some gs', by rw [hfull, h1.1], by simp, by rintro _ ⟨⟩; exact ⟨rfl, h1.2⟩⟩
  · simp only [Bool.not_eq_true] at hok
    subst hok
    rw [wlp_bind]
    refine (applyOperator_does hin hnd h1.2).mono ?_
    rintro res s₂ ⟨rfl, gs₂, e2, h2⟩
    rw [wlp_pure]
    refine ⟨some gs₂, ?_, by simp, by rintro _ ⟨⟩; exact ⟨rfl, h2⟩⟩
    rw [hfull]
    show (do let r ← applyOperator p (npApply (uniformNPoint n)) gs'; pure (some r) : Rand _) t = _
    rw [h1.1] at e2
    change applyOperator p (npApply (uniformNPoint n)) gs' t = _ at e2
    rw [bind_run, e2]
    rfl

/-- **C45, vector mutations.** Every mutation object of the library for vectors changes the genomes of the individuals it
is applied to exactly as the mutation computes from these genomes and the same draws — the Gaussian ones too, which after
their last failed attempt hand the individuals to a uniform mutation object and its bookkeeping — and returns the
individuals it was given; whatever the other attributes of the individuals.  So what C19, C20 and C86 say about mutations
holds of the individuals of a run. -/
theorem C45_vector_mutations (c : MutationClass) (p : ℚ) (arity : Nat) : (c.asOp p arity).Does (npApply (c.op p)) := by
  have h := npApply_length c p
  cases c with
  | floatGaussOne mu sigma a => exact gauss_does _ _ 1 p arity mu sigma a
  | floatGaussN n mu sigma a => exact gauss_does _ _ n p arity mu sigma a
  | _ => exact Op.inPlace_does _ _ _ h

/-- A world with one vector of floats between 0 and 1. -/
def gaussWorld : World Vec :=
  ⟨[⟨0, 0, ⟨.float, .tup [0, 1], 2, [1 / 2, 1 / 2]⟩, ⟨.none, false, true, false, true, none⟩, -1, [], [], true, []⟩], 1,
    fun n => n * n⟩

example := C45_vector_mutations (.floatGaussOne 0 5 2) 1 1 [0] [⟨.float, .tup [0, 1], 2, [1 / 2, 1 / 2]⟩] gaussWorld (by simp)
  (.cons rfl .nil)

/-- With a large deviation both attempts fail, and the uniform mutation does the work. -/
example : (Evo.applyOperator (MutationClass.asOp (.floatGaussOne 0 5 2) 1 1) [0] gaussWorld).2.heap.map
      (fun i => (i.genome.vector, i.appliedOps)) =
    [([169 / 197, 1 / 2], ["FloatVectorUniformOnePointMutation", "FloatVectorGaussOnePointMutation"])] := by decide +kernel

end Verif.GA
