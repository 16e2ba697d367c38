import Verif.Props.Complete
import Verif.Props.Pressure
import Verif.Lemmas.Mutation

/-!
# C157 — how often each program is created

`random.choice` is a draw, and which element it returns depends on the draw modulo the number of elements, so that of
the draws below a multiple `L` of that number an equal share returns each.  The odds of a program are the share of the
sequences of draws below `L` that make the creator return it.
-/

namespace Verif.GP
open PyM Verif.Evo
variable {c : Cfg} {τ : Option Ty} {L : Nat}

/-- The sequences of draws below `L`, one draw for each node, with which the nodes are made. -/
def drawsFor (L : Nat) (m : Rand (List Node)) (l : List Node) : Set (List Nat) :=
  {ds | ds.length = l.length ∧ (∀ d ∈ ds, d < L) ∧ ∀ t, m (prepend ds t) = (.ok l, t)}

/-- The draws below `L` with which the node is returned. -/
def drawsOne (L : Nat) (m : Rand (Option Node)) (n : Node) : Set Nat :=
  {d | d < L ∧ ∀ t, m (prepend [d] t) = (.ok (some n), t)}

/-- The functions that return the type. -/
def Cfg.functionsOf (c : Cfg) (τ : Option Ty) : List Fn := c.functionSet.filter fun f => decide (f.ret = τ)

/-- The terminals of the type. -/
def Cfg.terminalsOf (c : Cfg) (τ : Option Ty) : List Val := (c.terminalSet.filter fun kv => decide (kv.2 = τ)).map (·.1)

/-- Among how many the node has been chosen. -/
def Cfg.among (c : Cfg) : Node → Nat
  | .func f => (c.functionsOf f.ret).length
  | .term _ τ => (c.terminalsOf τ).length

/-! ## Draws -/

theorem prepend_nil (t : Tape) : prepend [] t = t := rfl

theorem prepend_append (a b : List Nat) (t : Tape) : prepend (a ++ b) t = prepend a (prepend b t) := by
  induction a with
  | nil => rfl
  | cons x a ih =>
    funext i
    cases i with
    | zero => rfl
    | succ i => show prepend (a ++ b) t i = prepend a (prepend b t) i; rw [ih]

theorem prepend_split (T : Tape) : T = prepend [T 0] fun n => T (n + 1) := by
  funext i
  cases i with
  | zero => rfl
  | succ i => rfl

theorem prepend_inj {a b : List Nat} {t : Tape} (hl : a.length = b.length) (h : prepend a t = prepend b t) : a = b := by
  induction a generalizing b with
  | nil => exact (List.eq_nil_of_length_eq_zero hl.symm).symm
  | cons x a ih =>
    cases b with
    | nil => simp at hl
    | cons y b =>
      have h0 : x = y := congrFun h 0
      have h1 : prepend a t = prepend b t := funext fun i => congrFun h (i + 1)
      rw [h0, ih (by simpa using hl) h1]

theorem choice_cons {α : Type} {xs : List α} (hne : xs ≠ []) (d : Nat) (t : Tape) :
    ∃ x, xs[d % xs.length]? = some x ∧ Rand.choice xs (prepend [d] t) = (.ok x, t) := by
  have hpos : 0 < xs.length := List.length_pos_of_ne_nil hne
  have hlt : d % xs.length < xs.length := Nat.mod_lt _ hpos
  refine ⟨xs[d % xs.length], List.getElem?_eq_getElem hlt, ?_⟩
  unfold Rand.choice
  rw [if_neg (by omega)]
  have : (Rand.next : Rand Nat) (prepend [d] t) = (.ok d, t) := rfl
  rw [bind_of_ok this, List.getElem?_eq_getElem hlt]
  rfl

/-- The share of the draws that choose an element. -/
theorem share {α : Type} {xs : List α} (hn : xs.Nodup) {x : α} (hx : x ∈ xs) (hL : xs.length ∣ L) :
    {d | d < L ∧ xs[d % xs.length]? = some x}.ncard * xs.length = L := by
  obtain ⟨i, hi, rfl⟩ := List.getElem_of_mem hx
  obtain ⟨q, rfl⟩ := hL
  have hset : {d | d < xs.length * q ∧ xs[d % xs.length]? = some xs[i]} =
      (((Finset.range q).image fun j => xs.length * j + i : Finset Nat) : Set Nat) := by
    ext d
    simp only [Set.mem_ofPred_eq, Finset.coe_image, Finset.coe_range, Set.mem_image, Set.mem_Iio]
    have hpos : 0 < xs.length := by omega
    constructor
    · rintro ⟨h1, h2⟩
      obtain ⟨h3, h4⟩ := List.getElem?_eq_some_iff.1 h2
      have h5 : d % xs.length = i := (List.Nodup.getElem_inj_iff hn).1 h4
      exact ⟨d / xs.length, Nat.div_lt_of_lt_mul h1, by rw [← h5]; exact Nat.div_add_mod d xs.length⟩
    · rintro ⟨j, hj, rfl⟩
      have h5 : (xs.length * j + i) % xs.length = i := by rw [Nat.mul_add_mod, Nat.mod_eq_of_lt hi]
      refine ⟨?_, by rw [h5]; exact List.getElem?_eq_getElem hi⟩
      calc xs.length * j + i < xs.length * j + xs.length := by omega
        _ = xs.length * (j + 1) := by ring
        _ ≤ xs.length * q := Nat.mul_le_mul_left _ hj
  rw [hset, Set.ncard_coe_finset, Finset.card_image_of_injective, Finset.card_range, Nat.mul_comm]
  intro a b hab
  have hpos : 0 < xs.length := by omega
  have : xs.length * a = xs.length * b := by simpa using hab
  exact Nat.eq_of_mul_eq_mul_left hpos this

/-! ## Functions and terminals -/

theorem randomFunction_cons {f : Fn} (hf : f ∈ c.functionSet) (hl : f.Legal) (d : Nat) (t : Tape) :
    (∀ g, (c.functionsOf f.ret)[d % (c.functionsOf f.ret).length]? = some g → g = f →
      randomFunction c f.ret (prepend [d] t) = (.ok (some (.func f)), t)) := by
  intro g hg he
  subst he
  have hmem : g ∈ c.functionsOf g.ret := by simp [Cfg.functionsOf, hf]
  have hne : c.functionsOf g.ret ≠ [] := List.ne_nil_of_mem hmem
  obtain ⟨x, hx, hch⟩ := choice_cons hne d t
  rw [hg] at hx
  obtain rfl := Option.some.inj hx
  unfold randomFunction
  show (if c.functionsOf g.ret = [] then pure none else _ : Rand (Option Node)) _ = _
  rw [if_neg hne]
  refine (bind_of_ok hch).trans ?_
  have hmk : mkFunctionNode g = .ok (.func g) := by
    unfold mkFunctionNode
    rw [getFuncTypes_legal hl]
    simp [Fn.arity]
  rw [hmk]
  rfl

theorem randomFunction_inv {T T' : Tape} {n : Node} (h : randomFunction c τ T = (.ok (some n), T')) :
    ∃ f d, n = .func f ∧ f ∈ c.functionSet ∧ f.ret = τ ∧ T = prepend [d] T' ∧
      (c.functionsOf τ)[d % (c.functionsOf τ).length]? = some f := by
  unfold randomFunction at h
  by_cases hne : c.functionsOf τ = []
  · rw [show (c.functionSet.filter fun f => decide (getReturnType f = τ)) = c.functionsOf τ from rfl] at h
    rw [if_pos hne] at h
    simp at h
  · rw [show (c.functionSet.filter fun f => decide (getReturnType f = τ)) = c.functionsOf τ from rfl] at h
    rw [if_neg hne] at h
    obtain ⟨x, hx, hch⟩ := choice_cons hne (T 0) (fun i => T (i + 1))
    rw [← prepend_split T] at hch
    rw [bind_of_ok hch] at h
    have hmk : mkFunctionNode x = .ok (.func x) ∨ ∃ e, mkFunctionNode x = .error e := by
      unfold mkFunctionNode
      dsimp only
      split
      · exact .inr ⟨_, rfl⟩
      · exact .inl rfl
    rcases hmk with hmk | ⟨e, hmk⟩
    · rw [hmk] at h
      have h' : ((Except.ok (some (Node.func x)) : Except Err (Option Node)), fun i => T (i + 1)) = (.ok (some n), T') := h
      simp only [Prod.mk.injEq, Except.ok.injEq, Option.some.injEq] at h'
      obtain ⟨rfl, h2⟩ := h'
      have hm := List.mem_of_getElem? hx
      simp only [Cfg.functionsOf, List.mem_filter, decide_eq_true_eq] at hm
      exact ⟨x, T 0, rfl, hm.1, hm.2, by rw [← h2]; exact prepend_split T, hx⟩
    · rw [hmk] at h
      have h' : ((Except.error e : Except Err (Option Node)), fun i => T (i + 1)) = (.ok (some n), T') := h
      simp at h'

theorem relevant_eq (he : c.erc = none) (τ : Option Ty) (T : Tape) : relevantTerminals c τ T = (.ok (c.terminalsOf τ), T) := by
  unfold relevantTerminals
  rw [he]
  rfl

theorem randomTerminal_run (he : c.erc = none) (hne : c.terminalsOf τ ≠ []) (d : Nat) (t : Tape) :
    ∃ v, (c.terminalsOf τ)[d % (c.terminalsOf τ).length]? = some v ∧
      randomTerminal c τ (prepend [d] t) = (.ok (some (.term v (terminalType c τ v))), t) := by
  obtain ⟨x, hx, hch⟩ := choice_cons hne d t
  refine ⟨x, hx, ?_⟩
  unfold randomTerminal
  refine (bind_of_ok (relevant_eq he τ _)).trans ?_
  rw [if_neg hne]
  exact (bind_of_ok hch).trans rfl

theorem mem_terminalsOf {v : Val} : v ∈ c.terminalsOf τ ↔ (v, τ) ∈ c.terminalSet := by
  simp only [Cfg.terminalsOf, List.mem_map, List.mem_filter, decide_eq_true_eq]
  constructor
  · rintro ⟨⟨a, b⟩, ⟨h1, rfl⟩, rfl⟩; exact h1
  · intro h; exact ⟨(v, τ), ⟨h, rfl⟩, rfl⟩

theorem terminalType_of_mem (hd : DistinctKeys c.terminalSet) {v : Val} (hv : v ∈ c.terminalsOf τ) : terminalType c τ v = τ := by
  unfold terminalType
  rw [tsGet_mem hd (mem_terminalsOf.1 hv)]
  rfl

theorem randomTerminal_inv (he : c.erc = none) (hd : DistinctKeys c.terminalSet) {T T' : Tape} {n : Node}
    (h : randomTerminal c τ T = (.ok (some n), T')) :
    ∃ v d, n = .term v τ ∧ v ∈ c.terminalsOf τ ∧ T = prepend [d] T' ∧
      (c.terminalsOf τ)[d % (c.terminalsOf τ).length]? = some v := by
  by_cases hne : c.terminalsOf τ = []
  · unfold randomTerminal at h
    rw [bind_of_ok (relevant_eq he τ T), if_pos hne] at h
    simp at h
  · obtain ⟨v, hv, hrun⟩ := randomTerminal_run he hne (T 0) (fun i => T (i + 1))
    rw [← prepend_split T] at hrun
    rw [hrun] at h
    simp only [Prod.mk.injEq, Except.ok.injEq, Option.some.injEq] at h
    obtain ⟨rfl, h2⟩ := h
    have hm := List.mem_of_getElem? hv
    exact ⟨v, T 0, by rw [terminalType_of_mem hd hm], hm, by rw [← h2]; exact prepend_split T, hv⟩

/-- The draw picks the node. -/
def Picks (c : Cfg) (d : Nat) : Node → Prop
  | .func f => (c.functionsOf f.ret)[d % (c.functionsOf f.ret).length]? = some f
  | .term v τ => (c.terminalsOf τ)[d % (c.terminalsOf τ).length]? = some v

/-- **C157**: `random_function` returns each function of the requested type for the same share of the draws. -/
theorem C157_function (hn : c.functionSet.Nodup) {f : Fn} (hf : f ∈ c.functionSet) (hl : f.Legal)
    (hL : (c.functionsOf f.ret).length ∣ L) :
    (drawsOne L (randomFunction c f.ret) (.func f)).ncard * (c.functionsOf f.ret).length = L := by
  have hmem : f ∈ c.functionsOf f.ret := by simp [Cfg.functionsOf, hf]
  refine Eq.trans ?_ (share (hn.filter _) hmem hL)
  congr 2
  ext d
  refine ⟨fun ⟨h1, h2⟩ => ⟨h1, ?_⟩, fun ⟨h1, h2⟩ => ⟨h1, fun t => randomFunction_cons hf hl d t f h2 rfl⟩⟩
  obtain ⟨g, d', hg, -, -, h3, h4⟩ := randomFunction_inv (h2 fun _ => 0)
  obtain rfl := Node.func.inj hg
  obtain rfl : d = d' := congrFun h3 0
  exact h4

theorem terminals_nodup (hd : DistinctKeys c.terminalSet) : (c.terminalsOf τ).Nodup := by
  unfold Cfg.terminalsOf
  rw [List.Nodup, List.pairwise_map]
  refine (List.Pairwise.filter _ hd).imp ?_
  intro a b hab he
  rw [he, pyEq_refl b.1.data] at hab
  exact absurd hab (by decide)

/-- **C157**: without ephemeral constants `random_terminal` returns each terminal of the requested type for the same
share of the draws. -/
theorem C157_terminal (he : c.erc = none) (hd : DistinctKeys c.terminalSet) {v : Val} (hv : (v, τ) ∈ c.terminalSet)
    (hL : (c.terminalsOf τ).length ∣ L) :
    (drawsOne L (randomTerminal c τ) (.term v τ)).ncard * (c.terminalsOf τ).length = L := by
  have hmem := mem_terminalsOf.2 hv
  refine Eq.trans ?_ (share (terminals_nodup hd) hmem hL)
  congr 2
  ext d
  refine ⟨fun ⟨h1, h2⟩ => ⟨h1, ?_⟩, fun ⟨h1, h2⟩ => ⟨h1, fun t => ?_⟩⟩
  · obtain ⟨w, d', hw, -, h3, h4⟩ := randomTerminal_inv he hd (h2 fun _ => 0)
    obtain rfl := (Node.term.inj hw).1
    obtain rfl : d = d' := congrFun h3 0
    exact h4
  · obtain ⟨w, hw, hrun⟩ := randomTerminal_run he (List.ne_nil_of_mem hmem) d t
    rw [h2] at hw
    obtain rfl := Option.some.inj hw
    rw [hrun, terminalType_of_mem hd hmem]

/-! ## The full method -/

theorem forall₂_append_split {α β : Type} {R : α → β → Prop} : ∀ {a : List α} {b₁ b₂ : List β}, List.Forall₂ R a (b₁ ++ b₂) →
    ∃ a₁ a₂, a = a₁ ++ a₂ ∧ List.Forall₂ R a₁ b₁ ∧ List.Forall₂ R a₂ b₂
  | a, [], b₂, h => ⟨[], a, rfl, .nil, h⟩
  | _, b :: b₁, b₂, h => by
    cases h with
    | cons h1 h2 =>
      obtain ⟨a₁, a₂, rfl, h3, h4⟩ := forall₂_append_split h2
      exact ⟨_ :: a₁, a₂, rfl, .cons h1 h3, h4⟩

theorem leafStep_inv (he : c.erc = none) (hd : DistinctKeys c.terminalSet) {T T' : Tape} {l : List Node}
    (h : (do
      let n ← randomTerminal c τ
      let n ← assertNode n
      pure [n] : Rand (List Node)) T = (.ok l, T')) :
    ∃ ds, T = prepend ds T' ∧ List.Forall₂ (Picks c) ds l := by
  obtain ⟨r, T₁, h1, h2⟩ := bind_ok.1 h
  cases r with
  | none => simp [assertNode, PyM.bind, PyM.raise, Bind.bind] at h2
  | some n =>
    obtain ⟨v, d, rfl, hv, hT, hp⟩ := randomTerminal_inv he hd h1
    have h2' : ((Except.ok [Node.term v τ] : Except Err (List Node)), T₁) = (.ok l, T') := h2
    simp only [Prod.mk.injEq, Except.ok.injEq] at h2'
    obtain ⟨rfl, rfl⟩ := h2'
    exact ⟨[d], hT, .cons hp .nil⟩

theorem createArgs_inv {create : Option Ty → Rand (List Node)}
    (hc : ∀ τ T l T', create τ T = (.ok l, T') → ∃ ds, T = prepend ds T' ∧ List.Forall₂ (Picks c) ds l) :
    ∀ (ts : List (Option Ty)) {T T' : Tape} {l : List Node}, createArgs create ts T = (.ok l, T') →
      ∃ ds, T = prepend ds T' ∧ List.Forall₂ (Picks c) ds l
  | [], T, T', l, h => by
    have h' : ((Except.ok [] : Except Err (List Node)), T) = (.ok l, T') := h
    simp only [Prod.mk.injEq, Except.ok.injEq] at h'
    obtain ⟨rfl, rfl⟩ := h'
    exact ⟨[], rfl, .nil⟩
  | τ :: ts, T, T', l, h => by
    obtain ⟨a, T₁, h1, h2⟩ := bind_ok.1 h
    obtain ⟨as, T₂, h3, h4⟩ := bind_ok.1 h2
    have h' : ((Except.ok (a ++ as) : Except Err (List Node)), T₂) = (.ok l, T') := h4
    simp only [Prod.mk.injEq, Except.ok.injEq] at h'
    obtain ⟨rfl, rfl⟩ := h'
    obtain ⟨ds, rfl, h5⟩ := hc _ _ _ _ h1
    obtain ⟨es, rfl, h6⟩ := createArgs_inv hc ts h3
    exact ⟨ds ++ es, (prepend_append ds es _).symm, List.rel_append h5 h6⟩

theorem fullTree_inv (he : c.erc = none) (hd : DistinctKeys c.terminalSet) (rem : Nat) :
    ∀ τ T l T', fullTree c rem τ T = (.ok l, T') → ∃ ds, T = prepend ds T' ∧ List.Forall₂ (Picks c) ds l := by
  induction rem with
  | zero => intro τ T l T' h; exact leafStep_inv he hd h
  | succ rem ih =>
    intro τ T l T' h
    unfold fullTree at h
    obtain ⟨r, T₁, h1, h2⟩ := bind_ok.1 h
    cases r with
    | none => simp [assertNode, PyM.bind, PyM.raise, Bind.bind] at h2
    | some n =>
      obtain ⟨f, d, rfl, hf, hret, hT, hp⟩ := randomFunction_inv h1
      subst hret
      have h2' : (do
        let as ← createArgs (fullTree c rem) ((getFuncTypes f).dropLast)
        pure (.func f :: as) : Rand (List Node)) T₁ = (.ok l, T') := h2
      obtain ⟨as, T₂, h3, h4⟩ := bind_ok.1 h2'
      have h' : ((Except.ok (.func f :: as) : Except Err (List Node)), T₂) = (.ok l, T') := h4
      simp only [Prod.mk.injEq, Except.ok.injEq] at h'
      obtain ⟨rfl, rfl⟩ := h'
      obtain ⟨es, rfl, h6⟩ := createArgs_inv ih _ h3
      exact ⟨d :: es, by rw [hT]; exact (prepend_append [d] es _).symm, .cons hp h6⟩

theorem leafStep_run (he : c.erc = none) (hd : DistinctKeys c.terminalSet) {v : Val} {d : Nat}
    (hp : Picks c d (.term v τ)) (t : Tape) :
    (do
      let n ← randomTerminal c τ
      let n ← assertNode n
      pure [n] : Rand (List Node)) (prepend [d] t) = (.ok [.term v τ], t) := by
  have hmem := List.mem_of_getElem? hp
  obtain ⟨w, hw, hrun⟩ := randomTerminal_run he (List.ne_nil_of_mem hmem) d t
  rw [show (c.terminalsOf τ)[d % (c.terminalsOf τ).length]? = some v from hp] at hw
  obtain rfl := Option.some.inj hw
  rw [terminalType_of_mem hd hmem] at hrun
  exact (bind_of_ok hrun).trans rfl

theorem createArgs_run {create : Option Ty → Rand (List Node)} {ps : List Prog} {ts : List (Option Ty)}
    (h : List.Forall₂ (fun p τ => ∀ ds t, List.Forall₂ (Picks c) ds p.flatten → create τ (prepend ds t) = (.ok p.flatten, t)) ps ts) :
    ∀ ds t, List.Forall₂ (Picks c) ds (Prog.flattenAll ps) → createArgs create ts (prepend ds t) = (.ok (Prog.flattenAll ps), t) := by
  induction h with
  | nil =>
    intro ds t hds
    cases hds
    rfl
  | @cons p τ ps ts h1 _ ih =>
    intro ds t hds
    rw [Prog.flattenAll] at hds
    obtain ⟨a, b, rfl, h3, h4⟩ := forall₂_append_split hds
    rw [prepend_append]
    unfold createArgs
    refine (bind_of_ok (h1 a _ h3)).trans ?_
    exact (bind_of_ok (ih b t h4)).trans rfl

theorem fullTree_run (he : c.erc = none) (hd : DistinctKeys c.terminalSet) (rem : Nat) : ∀ {τ} {p : Prog},
    p.Growable c τ rem rem → ∀ ds t, List.Forall₂ (Picks c) ds p.flatten →
      fullTree c rem τ (prepend ds t) = (.ok p.flatten, t) := by
  induction rem with
  | zero =>
    intro τ p hp ds t hds
    cases p with
    | term v ty =>
      obtain ⟨rfl, hv, -⟩ := Prog.growable_term.1 hp
      rw [Prog.flatten] at hds
      cases hds with
      | cons h1 h2 => cases h2; exact leafStep_run he hd h1 t
    | app f ps => exact absurd (Prog.growable_app.1 hp).1 (by omega)
  | succ rem ih =>
    intro τ p hp ds t hds
    cases p with
    | term v ty => exact absurd (Prog.growable_term.1 hp).2.2 (by omega)
    | app f ps =>
      obtain ⟨-, rfl, hf, hl, hps⟩ := Prog.growable_app.1 hp
      rw [Prog.flatten] at hds
      cases hds with
      | @cons d _ ds _ h1 h2 =>
        have hstep := randomFunction_cons hf hl d (prepend ds t) f h1 rfl
        unfold fullTree
        rw [show prepend (d :: ds) t = prepend [d] (prepend ds t) from prepend_append [d] ds t]
        refine (bind_of_ok hstep).trans ?_
        have hty : (getFuncTypes f).dropLast = f.params := by
          rw [getFuncTypes_legal hl]; simp
        have hargs := createArgs_run (c := c) (create := fullTree c rem) (ps := ps) (ts := f.params)
          (hps.imp fun p σ hσ ds t => ih hσ ds t) ds t h2
        show (do
          let as ← createArgs (fullTree c rem) ((getFuncTypes f).dropLast)
          pure (.func f :: as) : Rand (List Node)) (prepend ds t) = _
        rw [hty]
        exact (bind_of_ok hargs).trans (by rw [Prog.flatten]; rfl)

/-! ## Counting -/

theorem ncard_forall₂ {α : Type} (S : α → Set Nat) (l : List α) :
    {ds | List.Forall₂ (fun d a => d ∈ S a) ds l}.ncard = (l.map fun a => (S a).ncard).prod := by
  induction l with
  | nil =>
    have : {ds : List Nat | List.Forall₂ (fun d (a : α) => d ∈ S a) ds []} = {[]} := by
      ext ds; simp
    rw [this]; simp
  | cons a l ih =>
    have : {ds | List.Forall₂ (fun d a => d ∈ S a) ds (a :: l)} =
        (fun x : Nat × List Nat => x.1 :: x.2) '' ((S a) ×ˢ {ds | List.Forall₂ (fun d a => d ∈ S a) ds l}) := by
      ext ds
      constructor
      · intro h
        cases h with
        | cons h1 h2 => exact ⟨(_, _), ⟨h1, h2⟩, rfl⟩
      · rintro ⟨⟨d, ds⟩, ⟨h1, h2⟩, rfl⟩
        exact .cons h1 h2
    rw [this, Set.ncard_image_of_injective _ (by rintro ⟨a, b⟩ ⟨a', b'⟩ h; simpa using h), Set.ncard_prod, ih, List.map_cons,
      List.prod_cons]

/-- The draws that pick a node that the configuration offers. -/
theorem picks_share (hn : c.functionSet.Nodup) (hd : DistinctKeys c.terminalSet) {n : Node}
    (hoff : match n with | .func f => f ∈ c.functionSet | .term v τ => (v, τ) ∈ c.terminalSet) (hL : c.among n ∣ L) :
    {d | d < L ∧ Picks c d n}.ncard * c.among n = L := by
  cases n with
  | func f => exact share (hn.filter _) (by simp only [List.mem_filter]; exact ⟨hoff, by simp⟩) hL
  | term v τ => exact share (terminals_nodup hd) (mem_terminalsOf.2 hoff) hL

/-- **C157**: the odds of a program with the full method.  Of the `L ^ size` sequences of draws, one in
`∏ (number of functions or terminals of the type of the node)` makes the program, whatever the program. -/
theorem C157_full (he : c.erc = none) (hn : c.functionSet.Nodup) (hd : DistinctKeys c.terminalSet) {maxDepth : Nat} {p : Prog}
    (hp : p.Growable c τ maxDepth maxDepth) (hL : ∀ n ∈ p.flatten, c.among n ∣ L) :
    (drawsFor L (fullCreate c maxDepth τ) p.flatten).ncard * (p.flatten.map c.among).prod = L ^ p.flatten.length := by
  have hset : drawsFor L (fullCreate c maxDepth τ) p.flatten =
      {ds | List.Forall₂ (fun d n => d ∈ {d | d < L ∧ Picks c d n}) ds p.flatten} := by
    ext ds
    constructor
    · rintro ⟨h1, h2, h3⟩
      obtain ⟨es, h4, h5⟩ := fullTree_inv he hd maxDepth _ _ _ _ (h3 fun _ => 0)
      have := prepend_inj (by rw [h1, h5.length_eq]) h4
      subst this
      refine List.forall₂_iff_get.2 ⟨h1, fun i hi1 hi2 => ⟨h2 _ (List.get_mem _ _), (List.forall₂_iff_get.1 h5).2 i hi1 hi2⟩⟩
    · intro h
      have h' := List.forall₂_iff_get.1 h
      refine ⟨h'.1, fun d hdm => ?_, fun t => fullTree_run he hd maxDepth hp ds t (h.imp fun _ _ x => x.2)⟩
      obtain ⟨i, hi, rfl⟩ := List.getElem_of_mem hdm
      exact (h'.2 i hi (by rw [← h'.1]; exact hi)).1
  rw [hset, ncard_forall₂, ← List.prod_map_mul]
  have : p.flatten.map (fun a => {d | d < L ∧ Picks c d a}.ncard * c.among a) = List.replicate p.flatten.length L := by
    rw [List.eq_replicate_iff]
    refine ⟨by simp, ?_⟩
    intro b hb
    obtain ⟨n, hnm, rfl⟩ := List.mem_map.1 hb
    refine picks_share hn hd ?_ (hL n hnm)
    cases n with
    | func f => exact (hp.drawn.1 f (Prog.mem_fns_iff.2 hnm)).1
    | term v τ' =>
      rcases hp.drawn.2 (v, τ') (Prog.mem_terms_iff.2 hnm) with h | ⟨e, h, -⟩
      · exact h
      · rw [he] at h; exact absurd h (by simp)
  rw [this, List.prod_replicate]

/-- Two lists of nodes are as likely: the sequences of draws that make them have the same share. -/
def SameOdds (L : Nat) (m : Rand (List Node)) (l l' : List Node) : Prop :=
  (drawsFor L m l).ncard * L ^ l'.length = (drawsFor L m l').ncard * L ^ l.length

/-- The full statement: all programs that the full method can make are equally likely. -/
def C157_statement (c : Cfg) (maxDepth : Nat) : Prop :=
  ∀ (p q : Prog), p.Growable c none maxDepth maxDepth → q.Growable c none maxDepth maxDepth →
    ∀ L, c.functionSet.length ∣ L → c.terminalSet.length ∣ L → SameOdds L (fullCreate c maxDepth none) p.flatten q.flatten

theorem among_func (hu : c.Untyped) {f : Fn} (hf : f ∈ c.functionSet) : c.among (.func f) = c.functionSet.length := by
  show (c.functionsOf f.ret).length = _
  unfold Cfg.functionsOf
  rw [List.filter_eq_self.2]
  intro g hg
  rw [(hu.1 f hf).2, (hu.1 g hg).2]
  rfl

theorem among_term (hu : c.Untyped) {v : Val} (hv : (v, τ) ∈ c.terminalSet) : c.among (.term v τ) = c.terminalSet.length := by
  show (c.terminalsOf τ).length = _
  unfold Cfg.terminalsOf
  rw [List.length_map, List.filter_eq_self.2]
  intro g hg
  have h1 : τ = none := hu.2 (v, τ) hv
  rw [h1, hu.2 g hg]
  rfl

theorem leaf_mem (he : c.erc = none) {v : Val} (h : c.Leaf v τ) : (v, τ) ∈ c.terminalSet := by
  rcases h with h | ⟨e, h, -⟩
  · exact h
  · rw [he] at h; exact absurd h (by simp)

/-- With functions of one arity all programs that the full method makes have the same size and the same odds. -/
theorem full_same (he : c.erc = none) (hu : c.Untyped) {k : Nat} (hk : ∀ f ∈ c.functionSet, f.params.length = k) (D : Nat) :
    ∃ K M, 0 < M ∧ ∀ p : Prog, p.Growable c none D D →
      0 < K ∧ p.flatten.length = M ∧ (p.flatten.map c.among).prod = K := by
  induction D with
  | zero =>
    refine ⟨c.terminalSet.length, 1, Nat.one_pos, fun p hp => ?_⟩
    cases p with
    | term v ty =>
      obtain ⟨rfl, hv, -⟩ := Prog.growable_term.1 hp
      have hm := leaf_mem he hv
      exact ⟨List.length_pos_of_mem hm, rfl, by simp [Prog.flatten, among_term hu hm]⟩
    | app f ps => exact absurd (Prog.growable_app.1 hp).1 (by omega)
  | succ D ih =>
    obtain ⟨K, M, hM, h⟩ := ih
    refine ⟨c.functionSet.length * K ^ k, M * k + 1, Nat.succ_pos _, fun p hp => ?_⟩
    cases p with
    | term v ty => exact absurd (Prog.growable_term.1 hp).2.2 (by omega)
    | app f ps =>
      obtain ⟨-, -, hf, -, hps⟩ := Prog.growable_app.1 hp
      have hall : ∀ q ∈ ps, 0 < K ∧ q.flatten.length = M ∧ (q.flatten.map c.among).prod = K := by
        intro q hq
        obtain ⟨i, hi, rfl⟩ := List.getElem_of_mem hq
        have h2 := List.forall₂_iff_get.1 hps
        have h3 := h2.2 i hi (by rw [← h2.1]; exact hi)
        rw [(hu.1 f hf).1 _ (List.get_mem _ _)] at h3
        exact h _ h3
      have hlen : ps.length = k := hps.length_eq.trans (hk f hf)
      have hflat : ∀ qs : List Prog, (∀ q ∈ qs, 0 < K ∧ q.flatten.length = M ∧ (q.flatten.map c.among).prod = K) →
          (Prog.flattenAll qs).length = M * qs.length ∧ ((Prog.flattenAll qs).map c.among).prod = K ^ qs.length := by
        intro qs
        induction qs with
        | nil => intro _; simp [Prog.flattenAll]
        | cons q qs ihq =>
          intro hq
          obtain ⟨h1, h2⟩ := ihq fun r hr => hq r (by simp [hr])
          obtain ⟨-, h3, h4⟩ := hq q (by simp)
          rw [Prog.flattenAll, List.length_append, h1, h3, List.map_append, List.prod_append, h2, h4, List.length_cons]
          exact ⟨by ring, by ring⟩
      obtain ⟨h1, h2⟩ := hflat ps hall
      rw [hlen] at h1 h2
      refine ⟨?_, by rw [Prog.flatten, List.length_cons, h1], by
        rw [Prog.flatten, List.map_cons, List.prod_cons, h2, among_func hu hf]⟩
      have : 0 < c.functionSet.length := List.length_pos_of_mem hf
      rcases Nat.eq_zero_or_pos k with h0 | h0
      · rw [h0]; simpa using this
      · have : ps ≠ [] := by rintro rfl; simp at hlen; omega
        obtain ⟨q, hq⟩ := List.exists_mem_of_ne_nil _ this
        exact Nat.mul_pos ‹_› (Nat.pow_pos (hall q hq).1)

/-- **C157**, what holds: when all functions take equally many arguments, the full method makes all its programs with the
same odds.  Missing: functions of different arities, for which see `C157_refuted`. -/
theorem C157_even_partial (he : c.erc = none) (hn : c.functionSet.Nodup) (hd : DistinctKeys c.terminalSet) (hu : c.Untyped)
    {k : Nat} (hk : ∀ f ∈ c.functionSet, f.params.length = k) (maxDepth : Nat) : C157_statement c maxDepth := by
  intro p q hp hq L hF hT
  obtain ⟨K, M, hM, h⟩ := full_same he hu hk maxDepth
  have hdvd : ∀ {p : Prog}, p.Growable c none maxDepth maxDepth → ∀ n ∈ p.flatten, c.among n ∣ L := by
    intro p hp n hnm
    cases n with
    | func f => rw [among_func hu (hp.drawn.1 f (Prog.mem_fns_iff.2 hnm)).1]; exact hF
    | term v τ' => rw [among_term hu (leaf_mem he (hp.drawn.2 (v, τ') (Prog.mem_terms_iff.2 hnm)))]; exact hT
  have h1 := C157_full he hn hd hp (hdvd hp)
  have h2 := C157_full he hn hd hq (hdvd hq)
  obtain ⟨hK, hp1, hp2⟩ := h p hp
  obtain ⟨-, hq1, hq2⟩ := h q hq
  rw [hp2, hp1] at h1
  rw [hq2, hq1] at h2
  unfold SameOdds
  rw [hp1, hq1, Nat.eq_of_mul_eq_mul_right hK (h1.trans h2.symm)]

/-! ## Examples -/

namespace Sample

/-- A function of one argument besides `add`. -/
def negF : Fn := ⟨77, [none], none⟩
def mixed : Cfg := ⟨[negF, add], [(x, none), (y, none)], none, none⟩

def negX : Prog := .app negF [.term x none]
def addXX : Prog := .app add [.term x none, .term x none]

theorem negX_full : negX.Growable mixed none 1 1 := by
  refine ⟨?_, ⟨?_, ?_⟩, ?_, ?_⟩
  · simp [negX, Prog.HasType, Prog.HaveTypes, negF]
  · simp [negX, Prog.fns, Prog.fnsAll, mixed, Fn.Legal, negF]
  · simp [negX, Prog.terms, Prog.termsAll, mixed, Cfg.Leaf]
  · simp [negX, Prog.termDepths, Prog.termDepthsAll]
  · simp [negX, Prog.fnDepths, Prog.fnDepthsAll]

theorem addXX_full : addXX.Growable mixed none 1 1 := by
  refine ⟨?_, ⟨?_, ?_⟩, ?_, ?_⟩
  · simp [addXX, Prog.HasType, Prog.HaveTypes, add]
  · simp [addXX, Prog.fns, Prog.fnsAll, mixed, Fn.Legal, add]
  · simp [addXX, Prog.terms, Prog.termsAll, mixed, Cfg.Leaf]
  · simp [addXX, Prog.termDepths, Prog.termDepthsAll]
  · simp [addXX, Prog.fnDepths, Prog.fnDepthsAll]

theorem mixed_distinct : DistinctKeys mixed.terminalSet := by
  simp [DistinctKeys, mixed, x, y, Data.pyEq, Data.num?]

theorem mixed_nodup : mixed.functionSet.Nodup := by decide

/-- Half of the six draws return `neg`, half of them return `x`. -/
example : (drawsOne 6 (randomFunction mixed none) (.func negF)).ncard * 2 = 6 ∧
    (drawsOne 6 (randomTerminal mixed none) (.term x none)).ncard * 2 = 6 :=
  ⟨C157_function (c := mixed) mixed_nodup (f := negF) (by decide) (by simp [Fn.Legal, negF]) (by decide),
    C157_terminal (c := mixed) rfl mixed_distinct (by decide) (by decide)⟩

/-- One in four of the pairs of draws makes `neg(x)`. -/
theorem negX_odds : (drawsFor 2 (fullCreate mixed 1 none) negX.flatten).ncard * 4 = 2 ^ 2 :=
  C157_full (L := 2) rfl mixed_nodup mixed_distinct negX_full (by decide)

/-- One in eight of the triples of draws makes `add(x, x)`. -/
theorem addXX_odds : (drawsFor 2 (fullCreate mixed 1 none) addXX.flatten).ncard * 8 = 2 ^ 3 :=
  C157_full (L := 2) rfl mixed_nodup mixed_distinct addXX_full (by decide)

end Sample

/-- **C157 does not hold as stated**: with a function of one argument and one of two, `neg(x)` is twice as likely as
`add(x, x)`. -/
theorem C157_refuted : ¬ ∀ (c : Cfg) (maxDepth : Nat), c.Untyped → c.erc = none → c.functionSet.Nodup →
    DistinctKeys c.terminalSet → C157_statement c maxDepth := by
  intro h
  have := h Sample.mixed 1 ⟨by decide, by decide⟩ rfl Sample.mixed_nodup Sample.mixed_distinct _ _ Sample.negX_full
    Sample.addXX_full 2 (by decide) (by decide)
  unfold SameOdds at this
  have h1 := Sample.negX_odds
  have h2 := Sample.addXX_odds
  rw [show Sample.negX.flatten.length = 2 from rfl, show Sample.addXX.flatten.length = 3 from rfl] at this
  omega

namespace Sample
/-- Two functions of two arguments, two variables. -/
def binary : Cfg := ⟨[add, mul], [(x, none), (y, none)], none, none⟩
end Sample

/-- The hypotheses of `C157_even_partial` for the two functions of two arguments. -/
example : C157_statement Sample.binary 3 :=
  C157_even_partial (c := Sample.binary) (k := 2) rfl (by decide) Sample.mixed_distinct ⟨by decide, by decide⟩ (by decide) 3

end Verif.GP
