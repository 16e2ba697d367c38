import Verif.Props.TreeOdds
import Mathlib.Order.Interval.Finset.Nat

/-!
# C158 — how often the grow method creates each program

The grow method decides with `random() < p_prune` whether a node between the minimal and the maximal depth becomes a
terminal.  `random()` reads two draws, `k` and `b`, and returns `(k mod (b+1)) / (b+1)`; with `b = N - 1` for an `N`
on whose grid the pruning probability lies, the share of the `k` below `N` that prune is that probability.
-/

namespace Verif.GP
open PyM Verif.Evo
variable {c : Cfg} {τ : Option Ty} {L N : Nat} {π : ℚ}

mutual
/-- The nodes in the order of the listing, marked when the node lies between the depths `lo` and `hi`, that is, when
its kind is left to chance. -/
def Prog.marked : (lo hi : Nat) → Prog → List (Bool × Node)
  | lo, hi, .term v τ => [(decide (lo = 0 ∧ hi ≠ 0), .term v τ)]
  | lo, hi, .app f args => (decide (lo = 0 ∧ hi ≠ 0), .func f) :: Prog.markedAll (lo - 1) (hi - 1) args
def Prog.markedAll : (lo hi : Nat) → List Prog → List (Bool × Node)
  | _, _, [] => []
  | lo, hi, p :: ps => p.marked lo hi ++ Prog.markedAll lo hi ps
end

/-- The draws spent on a node: one below `L`, for a marked node after the two draws of `random()` on the grid of `N`. -/
def Spent (N L : Nat) : List Nat → Bool × Node → Prop
  | [d], (false, _) => d < L
  | [k, b, d], (true, _) => k < N ∧ b + 1 = N ∧ d < L
  | _, _ => False

/-- The sequences of draws, one for each node and two more for each marked node, with which the nodes are made. -/
def drawsGrow (N L : Nat) (m : Rand (List Node)) (l : List (Bool × Node)) : Set (List Nat) :=
  {ds | (∃ chunks, ds = List.flatten chunks ∧ List.Forall₂ (Spent N L) chunks l) ∧
    ∀ t, m (prepend ds t) = (.ok (l.map (·.2)), t)}

/-- The draws make the node: a marked node is a terminal when `random() < p_prune`. -/
def Makes (c : Cfg) (π : ℚ) : List Nat → Bool × Node → Prop
  | [d], (false, n) => Picks c d n
  | [k, b, d], (true, .term v τ) => (((k % (b + 1) : Nat) : ℚ) / ((b : ℚ) + 1) < π) ∧ Picks c d (.term v τ)
  | [k, b, d], (true, .func f) => ¬ (((k % (b + 1) : Nat) : ℚ) / ((b : ℚ) + 1) < π) ∧ Picks c d (.func f)
  | _, _ => False

theorem makes_false {ch : List Nat} {n : Node} : Makes c π ch (false, n) ↔ ∃ d, ch = [d] ∧ Picks c d n := by
  rcases ch with _ | ⟨a, _ | ⟨b, _ | ⟨e, _ | ⟨g, ch⟩⟩⟩⟩ <;> simp [Makes]

theorem spent_false {ch : List Nat} {n : Node} : Spent N L ch (false, n) ↔ ∃ d, ch = [d] ∧ d < L := by
  rcases ch with _ | ⟨a, _ | ⟨b, _ | ⟨e, _ | ⟨g, ch⟩⟩⟩⟩ <;> simp [Spent]

theorem spent_true {ch : List Nat} {n : Node} : Spent N L ch (true, n) ↔ ∃ k b d, ch = [k, b, d] ∧ k < N ∧ b + 1 = N ∧ d < L := by
  rcases ch with _ | ⟨a, _ | ⟨b, _ | ⟨e, _ | ⟨g, ch⟩⟩⟩⟩ <;> simp [Spent]

theorem marked_nodes (p : Prog) : ∀ lo hi, (p.marked lo hi).map (·.2) = p.flatten := by
  induction p using Prog.ind with
  | hterm v ty => intro lo hi; rfl
  | happ f args ih =>
    intro lo hi
    have : ∀ ps : List Prog, (∀ p ∈ ps, ∀ lo hi, (p.marked lo hi).map (·.2) = p.flatten) → ∀ lo hi,
        (Prog.markedAll lo hi ps).map (·.2) = Prog.flattenAll ps := by
      intro ps
      induction ps with
      | nil => intro _ lo hi; rfl
      | cons p ps ihp =>
        intro h lo hi
        rw [Prog.markedAll, List.map_append, h p (by simp), ihp (fun q hq => h q (by simp [hq])), Prog.flattenAll]
    rw [Prog.marked, List.map_cons, this args ih, Prog.flatten]

/-! ## What the grow method draws -/

theorem random_read (T : Tape) : (Rand.random : Rand ℚ) T =
    (.ok (((T 0 % (T 1 + 1) : Nat) : ℚ) / ((T 1 : ℚ) + 1)), fun n => T (n + 2)) := by
  simp [Rand.random, PyM.bind, Bind.bind, Rand.next]

theorem random_cons (k b : Nat) (t : Tape) : (Rand.random : Rand ℚ) (prepend [k, b] t) =
    (.ok (((k % (b + 1) : Nat) : ℚ) / ((b : ℚ) + 1)), t) := random_read _

theorem prepend_split2 (T : Tape) : T = prepend [T 0, T 1] fun n => T (n + 2) := by
  funext i
  match i with
  | 0 => rfl
  | 1 => rfl
  | i + 2 => rfl

/-- One node and its arguments, as in both creators. -/
theorem leaf_inv (he : c.erc = none) (hd : DistinctKeys c.terminalSet) {T T' : Tape} {l : List Node}
    (h : (do
      let n ← randomTerminal c τ
      let n ← assertNode n
      pure [n] : Rand (List Node)) T = (.ok l, T')) :
    ∃ v d, l = [.term v τ] ∧ T = prepend [d] T' ∧ Picks c d (.term v τ) := by
  obtain ⟨r, T₁, h1, h2⟩ := bind_ok.1 h
  cases r with
  | none => simp [assertNode, PyM.bind, PyM.raise, Bind.bind] at h2
  | some n =>
    obtain ⟨v, d, rfl, hv, hT, hp⟩ := randomTerminal_inv he hd h1
    have h2' : ((Except.ok [Node.term v τ] : Except Err (List Node)), T₁) = (.ok l, T') := h2
    simp only [Prod.mk.injEq, Except.ok.injEq] at h2'
    obtain ⟨rfl, rfl⟩ := h2'
    exact ⟨v, d, rfl, hT, hp⟩

theorem args_inv {create : Option Ty → Rand (List Node)} {lo hi : Nat}
    (hc : ∀ τ T l T', create τ T = (.ok l, T') → ∃ (q : Prog) (chunks : List (List Nat)), l = q.flatten ∧ q.Ok ∧
      T = prepend chunks.flatten T' ∧ List.Forall₂ (Makes c π) chunks (q.marked lo hi)) :
    ∀ (ts : List (Option Ty)) {T T' : Tape} {l : List Node}, createArgs create ts T = (.ok l, T') →
      ∃ (qs : List Prog) (chunks : List (List Nat)), l = Prog.flattenAll qs ∧ qs.length = ts.length ∧ (∀ q ∈ qs, q.Ok) ∧
      T = prepend chunks.flatten T' ∧ List.Forall₂ (Makes c π) chunks (Prog.markedAll lo hi qs)
  | [], T, T', l, h => by
    have h' : ((Except.ok [] : Except Err (List Node)), T) = (.ok l, T') := h
    simp only [Prod.mk.injEq, Except.ok.injEq] at h'
    obtain ⟨rfl, rfl⟩ := h'
    exact ⟨[], [], rfl, rfl, by simp, rfl, .nil⟩
  | τ :: ts, T, T', l, h => by
    obtain ⟨a, T₁, h1, h2⟩ := bind_ok.1 h
    obtain ⟨as, T₂, h3, h4⟩ := bind_ok.1 h2
    have h' : ((Except.ok (a ++ as) : Except Err (List Node)), T₂) = (.ok l, T') := h4
    simp only [Prod.mk.injEq, Except.ok.injEq] at h'
    obtain ⟨rfl, rfl⟩ := h'
    obtain ⟨q, ds, rfl, hok, rfl, h5⟩ := hc _ _ _ _ h1
    obtain ⟨qs, es, rfl, hlen, hoks, rfl, h6⟩ := args_inv hc ts h3
    refine ⟨q :: qs, ds ++ es, rfl, by simp [hlen], by simpa using ⟨hok, hoks⟩, ?_, List.rel_append h5 h6⟩
    rw [List.flatten_append, prepend_append]

theorem growTree_inv (he : c.erc = none) (hd : DistinctKeys c.terminalSet) (fuel : Nat) :
    ∀ need rem, need ≤ rem → fuel = rem → ∀ τ T l T', growTree c π fuel need rem τ T = (.ok l, T') →
      ∃ (q : Prog) (chunks : List (List Nat)), l = q.flatten ∧ q.Ok ∧ T = prepend chunks.flatten T' ∧
        List.Forall₂ (Makes c π) chunks (q.marked need rem) := by
  induction fuel with
  | zero =>
    intro need rem hle hfuel τ T l T' h
    subst hfuel
    obtain ⟨v, d, rfl, hT, hp⟩ := leaf_inv he hd h
    exact ⟨.term v τ, [[d]], rfl, trivial, hT, .cons (show Makes c π [d] (decide (need = 0 ∧ 0 ≠ 0), .term v τ) by
      rw [show decide (need = 0 ∧ 0 ≠ 0) = false by simp]; exact hp) .nil⟩
  | succ fuel ih =>
    intro need rem hle hfuel τ T l T' h
    unfold growTree at h
    obtain ⟨isFunc, T₁, h1, h2⟩ := bind_ok.1 h
    -- what has been drawn to decide between a function and a terminal
    have hdec : ∃ pre : List Nat, T = prepend pre T₁ ∧ ∀ d n, Picks c d n →
        (match n with | .func _ => isFunc = true | .term _ _ => isFunc = false) →
        Makes c π (pre ++ [d]) (decide (need = 0 ∧ rem ≠ 0), n) := by
      by_cases hneed : 0 < need
      · rw [if_pos hneed] at h1
        have h1' : ((Except.ok true : Except Err Bool), T) = (.ok isFunc, T₁) := h1
        simp only [Prod.mk.injEq, Except.ok.injEq] at h1'
        obtain ⟨rfl, rfl⟩ := h1'
        refine ⟨[], rfl, fun d n hp _ => ?_⟩
        rw [show decide (need = 0 ∧ rem ≠ 0) = false by simp; omega]
        exact hp
      · rw [if_neg hneed, if_neg (by omega)] at h1
        obtain ⟨r, T₂, h3, h4⟩ := bind_ok.1 h1
        rw [random_read] at h3
        simp only [Prod.mk.injEq, Except.ok.injEq] at h3
        obtain ⟨rfl, rfl⟩ := h3
        have h4' : ((Except.ok (!decide (((T 0 % (T 1 + 1) : Nat) : ℚ) / ((T 1 : ℚ) + 1) < π)) : Except Err Bool),
          fun n => T (n + 2)) = (.ok isFunc, T₁) := h4
        simp only [Prod.mk.injEq, Except.ok.injEq] at h4'
        obtain ⟨hb, rfl⟩ := h4'
        refine ⟨[T 0, T 1], prepend_split2 T, fun d n hp hn => ?_⟩
        rw [show decide (need = 0 ∧ rem ≠ 0) = true by simp; omega]
        cases n with
        | func f =>
          rw [show isFunc = true from hn] at hb
          exact ⟨by simpa using hb, hp⟩
        | term v τ' =>
          rw [show isFunc = false from hn] at hb
          exact ⟨by simpa using hb, hp⟩
    obtain ⟨pre, rfl, hmk⟩ := hdec
    by_cases hb : isFunc = true
    · subst hb
      rw [if_pos rfl] at h2
      obtain ⟨r, T₂, h3, h4⟩ := bind_ok.1 h2
      cases r with
      | none => simp [assertNode, PyM.bind, PyM.raise, Bind.bind] at h4
      | some n =>
        obtain ⟨f, d, rfl, hf, hret, hT, hp⟩ := randomFunction_inv h3
        obtain ⟨g, -, hg, -, hl⟩ := randomFunction_post c τ _ _ _ h3 _ rfl
        obtain rfl := Node.func.inj hg
        subst hret
        have h4' : (do
          let as ← createArgs (growTree c π fuel (need - 1) (rem - 1)) (childTypes f)
          pure (.func f :: as) : Rand (List Node)) T₂ = (.ok l, T') := h4
        obtain ⟨as, T₃, h5, h6⟩ := bind_ok.1 h4'
        have h' : ((Except.ok (.func f :: as) : Except Err (List Node)), T₃) = (.ok l, T') := h6
        simp only [Prod.mk.injEq, Except.ok.injEq] at h'
        obtain ⟨rfl, rfl⟩ := h'
        obtain ⟨qs, chunks, rfl, hlen, hoks, rfl, h7⟩ := args_inv (ih (need - 1) (rem - 1) (by omega) (by omega)) _ h5
        rw [childTypes_legal hl] at hlen
        refine ⟨.app f qs, (pre ++ [d]) :: chunks, by rw [Prog.flatten], ⟨hlen, Prog.okAll_iff.2 hoks⟩, ?_, ?_⟩
        · rw [hT, List.flatten_cons, prepend_append, prepend_append]
        · rw [Prog.marked]
          exact .cons (hmk d _ hp rfl) h7
    · have hb' : isFunc = false := by simpa using hb
      subst hb'
      rw [if_neg (by simp)] at h2
      obtain ⟨v, d, rfl, hT, hp⟩ := leaf_inv he hd h2
      refine ⟨.term v τ, [pre ++ [d]], rfl, trivial, ?_, ?_⟩
      · rw [hT, List.flatten_cons, List.flatten_nil, List.append_nil, prepend_append]
      · rw [Prog.marked]
        exact .cons (hmk d _ hp rfl) .nil

theorem args_run {create : Option Ty → Rand (List Node)} {lo hi : Nat} {ps : List Prog} {ts : List (Option Ty)}
    (h : List.Forall₂ (fun p τ => ∀ chunks t, List.Forall₂ (Makes c π) chunks (p.marked lo hi) →
      create τ (prepend (List.flatten chunks) t) = (.ok p.flatten, t)) ps ts) :
    ∀ chunks t, List.Forall₂ (Makes c π) chunks (Prog.markedAll lo hi ps) →
      createArgs create ts (prepend (List.flatten chunks) t) = (.ok (Prog.flattenAll ps), t) := by
  induction h with
  | nil =>
    intro ds t hds
    cases hds
    rfl
  | @cons p τ ps ts h1 _ ih =>
    intro ds t hds
    rw [Prog.markedAll] at hds
    obtain ⟨a, b, rfl, h3, h4⟩ := forall₂_append_split hds
    rw [List.flatten_append, prepend_append]
    unfold createArgs
    refine (bind_of_ok (h1 a _ h3)).trans ?_
    exact (bind_of_ok (ih b t h4)).trans rfl

/-- The draws that make a node decide between a function and a terminal and then pick it. -/
theorem decision_run {need rem : Nat} (hrem : 0 < rem) {chunk : List Nat} {n : Node}
    (hm : Makes c π chunk (decide (need = 0 ∧ rem ≠ 0), n)) (hn : 0 < need → ∃ f, n = .func f) :
    ∃ pre d, chunk = pre ++ [d] ∧ Picks c d n ∧ ∀ t, (if 0 < need then pure true
      else if rem = 0 then pure false
      else do
        let r ← Rand.random
        pure (!decide (r < π)) : Rand Bool) (prepend pre t) =
          (.ok (match n with | .func _ => true | .term _ _ => false), t) := by
  by_cases hneed : 0 < need
  · rw [show decide (need = 0 ∧ rem ≠ 0) = false by simp; omega] at hm
    obtain ⟨f, rfl⟩ := hn hneed
    obtain ⟨d, rfl, hp⟩ := makes_false.1 hm
    exact ⟨[], d, rfl, hp, fun t => by rw [if_pos hneed]; rfl⟩
  · rw [show decide (need = 0 ∧ rem ≠ 0) = true by simp; omega] at hm
    match chunk, n, hm with
    | [k, b, d], .func f, hm =>
      refine ⟨[k, b], d, rfl, hm.2, fun t => ?_⟩
      rw [if_neg hneed, if_neg (by omega)]
      refine (bind_of_ok (random_cons k b t)).trans ?_
      rw [decide_eq_false hm.1]
      rfl
    | [k, b, d], .term v τ, hm =>
      refine ⟨[k, b], d, rfl, hm.2, fun t => ?_⟩
      rw [if_neg hneed, if_neg (by omega)]
      refine (bind_of_ok (random_cons k b t)).trans ?_
      rw [decide_eq_true hm.1]
      rfl

theorem growTree_run (he : c.erc = none) (hd : DistinctKeys c.terminalSet) (fuel : Nat) : ∀ {need rem τ} {p : Prog},
    need ≤ rem → fuel = rem → p.Growable c τ need rem → ∀ chunks t, List.Forall₂ (Makes c π) chunks (p.marked need rem) →
      growTree c π fuel need rem τ (prepend (List.flatten chunks) t) = (.ok p.flatten, t) := by
  induction fuel with
  | zero =>
    intro need rem τ p hle hfuel hp chunks t hds
    subst hfuel
    cases p with
    | term v ty =>
      obtain ⟨rfl, hv, -⟩ := Prog.growable_term.1 hp
      rw [Prog.marked] at hds
      cases hds with
      | @cons ch _ _ _ h1 h2 =>
        cases h2
        rw [show decide (need = 0 ∧ 0 ≠ 0) = false by simp] at h1
        obtain ⟨d, rfl, hpk⟩ := makes_false.1 h1
        exact leafStep_run he hd hpk t
    | app f ps => exact absurd (Prog.growable_app.1 hp).1 (by omega)
  | succ fuel ih =>
    intro need rem τ p hle hfuel hp chunks t hds
    cases p with
    | term v ty =>
      obtain ⟨rfl, hv, h0⟩ := Prog.growable_term.1 hp
      rw [Prog.marked] at hds
      cases hds with
      | @cons ch _ _ _ h1 h2 =>
        cases h2
        obtain ⟨pre, d, rfl, hpk, hrun⟩ := decision_run (by omega) h1 (by omega)
        rw [List.flatten_cons, List.flatten_nil, List.append_nil, prepend_append]
        unfold growTree
        refine (bind_of_ok (hrun _)).trans ?_
        exact leafStep_run he hd hpk t
    | app f ps =>
      obtain ⟨-, rfl, hf, hl, hps⟩ := Prog.growable_app.1 hp
      rw [Prog.marked] at hds
      cases hds with
      | @cons ch _ chs _ h1 h2 =>
        obtain ⟨pre, d, rfl, hpk, hrun⟩ := decision_run (by omega) h1 fun _ => ⟨f, rfl⟩
        have hstep := randomFunction_cons hf hl d (prepend chs.flatten t) f hpk rfl
        rw [List.flatten_cons, List.append_assoc, prepend_append, prepend_append]
        unfold growTree
        refine (bind_of_ok (hrun _)).trans ?_
        refine (bind_of_ok hstep).trans ?_
        have hargs := args_run (c := c) (create := growTree c π fuel (need - 1) (rem - 1)) (ps := ps) (ts := f.params)
          (hps.imp fun p σ hσ ds t => ih (by omega) (by omega) hσ ds t) chs t h2
        show (do
          let as ← createArgs (growTree c π fuel (need - 1) (rem - 1)) (childTypes f)
          pure (.func f :: as) : Rand (List Node)) (prepend chs.flatten t) = _
        rw [childTypes_legal hl]
        exact (bind_of_ok hargs).trans (by rw [Prog.flatten]; rfl)

/-! ## Counting -/

theorem ncard_lists {α β : Type} (S : α → Set β) (l : List α) :
    {ds | List.Forall₂ (fun d a => d ∈ S a) ds l}.ncard = (l.map fun a => (S a).ncard).prod := by
  induction l with
  | nil =>
    have : {ds : List β | List.Forall₂ (fun d (a : α) => d ∈ S a) ds []} = {[]} := by
      ext ds; simp
    rw [this]; simp
  | cons a l ih =>
    have : {ds | List.Forall₂ (fun d a => d ∈ S a) ds (a :: l)} =
        (fun x : β × List β => x.1 :: x.2) '' ((S a) ×ˢ {ds | List.Forall₂ (fun d a => d ∈ S a) ds l}) := by
      ext ds
      constructor
      · intro h
        cases h with
        | cons h1 h2 => exact ⟨(_, _), ⟨h1, h2⟩, rfl⟩
      · rintro ⟨⟨d, ds⟩, ⟨h1, h2⟩, rfl⟩
        exact .cons h1 h2
    rw [this, Set.ncard_image_of_injective _ (by rintro ⟨a, b⟩ ⟨a', b'⟩ h; simpa using h), Set.ncard_prod, ih, List.map_cons,
      List.prod_cons]

/-- The number of draws of a marked and of an unmarked node. -/
def spentLen (x : Bool × Node) : Nat := if x.1 then 3 else 1

theorem spent_length {ch : List Nat} {x : Bool × Node} (h : Spent N L ch x) : ch.length = spentLen x := by
  obtain ⟨b, n⟩ := x
  cases b with
  | false => obtain ⟨d, rfl, -⟩ := spent_false.1 h; rfl
  | true => obtain ⟨k, b, d, rfl, -⟩ := spent_true.1 h; rfl

theorem makes_length {ch : List Nat} {x : Bool × Node} (h : Makes c π ch x) : ch.length = spentLen x := by
  obtain ⟨b, n⟩ := x
  cases b with
  | false => obtain ⟨d, rfl, -⟩ := makes_false.1 h; rfl
  | true =>
    cases n <;> rcases ch with _ | ⟨a, _ | ⟨b, _ | ⟨e, _ | ⟨g, ch⟩⟩⟩⟩ <;> simp [Makes] at h <;> rfl

/-- Sequences of pieces of known lengths are determined by the draws. -/
theorem flatten_inj {α : Type} {len : α → Nat} : ∀ {l : List α} {a b : List (List Nat)},
    List.Forall₂ (fun ch x => List.length ch = len x) a l → List.Forall₂ (fun ch x => List.length ch = len x) b l →
    a.flatten = b.flatten → a = b
  | [], _, _, .nil, .nil, _ => rfl
  | x :: l, _, _, .cons (a := a) (l₁ := as) h1 h2, .cons (a := b) (l₁ := bs) h3 h4, h => by
    rw [List.flatten_cons, List.flatten_cons] at h
    obtain ⟨rfl, h5⟩ := List.append_inj h (h1.trans h3.symm)
    rw [flatten_inj h2 h4 h5]

theorem flatten_lengths {α : Type} {len : α → Nat} : ∀ {l : List α} {a b : List (List Nat)},
    List.Forall₂ (fun ch x => List.length ch = len x) a l → List.Forall₂ (fun ch x => List.length ch = len x) b l →
    a.flatten.length = b.flatten.length
  | [], _, _, .nil, .nil => rfl
  | x :: l, _, _, .cons h1 h2, .cons h3 h4 => by
    rw [List.flatten_cons, List.flatten_cons, List.length_append, List.length_append, h1, h3, flatten_lengths h2 h4]

/-- The weight of a node: `L` draws, and for a marked node `m` or `N - m` of the `N` draws that decide its kind. -/
def weight (m N L : Nat) : Bool × Node → Nat
  | (false, _) => L
  | (true, .term _ _) => m * L
  | (true, .func _) => (N - m) * L

theorem grid_lt {m k : Nat} (hN : 0 < N) (hk : k < N) : ((((k % N : Nat) : ℚ)) / (N : ℚ) < (m : ℚ) / N) ↔ k < m := by
  rw [Nat.mod_eq_of_lt hk, div_lt_div_iff_of_pos_right (by exact_mod_cast hN)]
  exact_mod_cast Iff.rfl

theorem piece_share (hn : c.functionSet.Nodup) (hd : DistinctKeys c.terminalSet) {m : Nat} (hN : 0 < N) (hm : m ≤ N)
    (hπ : π = (m : ℚ) / N) {x : Bool × Node}
    (hoff : match x.2 with | .func f => f ∈ c.functionSet | .term v τ => (v, τ) ∈ c.terminalSet) (hL : c.among x.2 ∣ L) :
    {ch | Spent N L ch x ∧ Makes c π ch x}.ncard * c.among x.2 = weight m N L x := by
  obtain ⟨b, n⟩ := x
  have hpk := picks_share hn hd hoff hL
  have hNe : ∀ b : Nat, b + 1 = N → (b : ℚ) + 1 = N := fun b h => by rw [← h]; push_cast; rfl
  cases b with
  | false =>
    have : {ch | Spent N L ch (false, n) ∧ Makes c π ch (false, n)} = (fun d => [d]) '' {d | d < L ∧ Picks c d n} := by
      ext ch
      simp only [Set.mem_ofPred_eq, spent_false, makes_false, Set.mem_image]
      constructor
      · rintro ⟨⟨d, rfl, h1⟩, d', h2, h3⟩
        obtain rfl : d = d' := by simpa using h2
        exact ⟨d, ⟨h1, h3⟩, rfl⟩
      · rintro ⟨d, ⟨h1, h2⟩, rfl⟩
        exact ⟨⟨d, rfl, h1⟩, d, rfl, h2⟩
    rw [this, Set.ncard_image_of_injective _ (by intro a b h; simpa using h)]
    exact hpk
  | true =>
    cases n with
    | term v τ =>
      have : {ch | Spent N L ch (true, .term v τ) ∧ Makes c π ch (true, .term v τ)} =
          (fun x : Nat × Nat => [x.1, N - 1, x.2]) '' ((Finset.range m : Set Nat) ×ˢ {d | d < L ∧ Picks c d (.term v τ)}) := by
        ext ch
        simp only [Set.mem_ofPred_eq, spent_true, Set.mem_image, Prod.exists, Set.mem_prod, Finset.coe_range, Set.mem_Iio]
        constructor
        · rintro ⟨⟨k, b, d, rfl, h1, h2, h3⟩, h4, h5⟩
          rw [hNe b h2, h2, hπ, grid_lt hN h1] at h4
          exact ⟨k, d, ⟨h4, h3, h5⟩, by rw [show N - 1 = b by omega]⟩
        · rintro ⟨k, d, ⟨h1, h2, h3⟩, rfl⟩
          refine ⟨⟨k, N - 1, d, rfl, by omega, by omega, h2⟩, ?_, h3⟩
          rw [hNe (N - 1) (by omega), show N - 1 + 1 = N by omega, hπ, grid_lt hN (by omega)]
          exact h1
      rw [this, Set.ncard_image_of_injective _ (by rintro ⟨a, b⟩ ⟨a', b'⟩ h; simpa using h), Set.ncard_prod,
        Set.ncard_coe_finset, Finset.card_range, Nat.mul_assoc, hpk]
      rfl
    | func f =>
      have : {ch | Spent N L ch (true, .func f) ∧ Makes c π ch (true, .func f)} =
          (fun x : Nat × Nat => [x.1, N - 1, x.2]) '' ((Finset.Ico m N : Set Nat) ×ˢ {d | d < L ∧ Picks c d (.func f)}) := by
        ext ch
        simp only [Set.mem_ofPred_eq, spent_true, Set.mem_image, Prod.exists, Set.mem_prod, Finset.coe_Ico, Set.mem_Ico]
        constructor
        · rintro ⟨⟨k, b, d, rfl, h1, h2, h3⟩, h4, h5⟩
          rw [hNe b h2, h2, hπ, grid_lt hN h1] at h4
          exact ⟨k, d, ⟨⟨by omega, h1⟩, h3, h5⟩, by rw [show N - 1 = b by omega]⟩
        · rintro ⟨k, d, ⟨⟨h1, h1'⟩, h2, h3⟩, rfl⟩
          refine ⟨⟨k, N - 1, d, rfl, by omega, by omega, h2⟩, ?_, h3⟩
          rw [hNe (N - 1) (by omega), show N - 1 + 1 = N by omega, hπ, grid_lt hN (by omega)]
          omega
      rw [this, Set.ncard_image_of_injective _ (by rintro ⟨a, b⟩ ⟨a', b'⟩ h; simpa using h), Set.ncard_prod,
        Set.ncard_coe_finset, Nat.card_Ico, Nat.mul_assoc, hpk]
      rfl

/-- How many terminals and how many functions are marked. -/
def markedTerms (l : List (Bool × Node)) : Nat := l.countP fun x => x.1 && match x.2 with | .term _ _ => true | .func _ => false
def markedFns (l : List (Bool × Node)) : Nat := l.countP fun x => x.1 && match x.2 with | .term _ _ => false | .func _ => true

theorem weights (m N L : Nat) (l : List (Bool × Node)) :
    (l.map (weight m N L)).prod = m ^ markedTerms l * (N - m) ^ markedFns l * L ^ l.length := by
  induction l with
  | nil => simp [markedTerms, markedFns]
  | cons x l ih =>
    obtain ⟨b, n⟩ := x
    rw [List.map_cons, List.prod_cons, ih]
    unfold markedTerms markedFns
    rw [List.countP_cons, List.countP_cons, List.length_cons]
    cases b with
    | false => simp [weight]; ring
    | true => cases n <;> simp [weight] <;> ring

theorem marked_counts (p : Prog) : ∀ lo hi,
    markedTerms (p.marked lo hi) = p.termDepths.countP (fun d => decide (lo ≤ d ∧ d < hi)) ∧
    markedFns (p.marked lo hi) = p.fnDepths.countP (fun d => decide (lo ≤ d ∧ d < hi)) := by
  induction p using Prog.ind with
  | hterm v ty =>
    intro lo hi
    by_cases h : lo = 0 ∧ hi ≠ 0
    · obtain ⟨rfl, h2⟩ := h
      simp [Prog.marked, Prog.termDepths, Prog.fnDepths, markedTerms, markedFns, h2, Nat.pos_of_ne_zero h2]
    · have h' : ¬ (lo ≤ 0 ∧ 0 < hi) := by omega
      simp [Prog.marked, Prog.termDepths, Prog.fnDepths, markedTerms, markedFns, h]
      omega
  | happ f args ih =>
    intro lo hi
    have hall : ∀ ps : List Prog, (∀ p ∈ ps, ∀ lo hi,
        markedTerms (p.marked lo hi) = p.termDepths.countP (fun d => decide (lo ≤ d ∧ d < hi)) ∧
        markedFns (p.marked lo hi) = p.fnDepths.countP (fun d => decide (lo ≤ d ∧ d < hi))) → ∀ lo hi,
        markedTerms (Prog.markedAll lo hi ps) = (Prog.termDepthsAll ps).countP (fun d => decide (lo ≤ d ∧ d < hi)) ∧
        markedFns (Prog.markedAll lo hi ps) = (Prog.fnDepthsAll ps).countP (fun d => decide (lo ≤ d ∧ d < hi)) := by
      intro ps
      induction ps with
      | nil => intro _ lo hi; exact ⟨rfl, rfl⟩
      | cons p ps ihp =>
        intro h lo hi
        obtain ⟨h1, h2⟩ := h p (by simp) lo hi
        obtain ⟨h3, h4⟩ := ihp (fun q hq => h q (by simp [hq])) lo hi
        unfold markedTerms markedFns at *
        rw [Prog.markedAll, Prog.termDepthsAll, Prog.fnDepthsAll, List.countP_append, List.countP_append, List.countP_append,
          List.countP_append, h1, h2, h3, h4]
        exact ⟨rfl, rfl⟩
    obtain ⟨h1, h2⟩ := hall args ih (lo - 1) (hi - 1)
    have hshift : ∀ l : List Nat, (l.map (· + 1)).countP (fun d => decide (lo ≤ d ∧ d < hi)) =
        l.countP (fun d => decide (lo - 1 ≤ d ∧ d < hi - 1)) := by
      intro l
      rw [List.countP_map]
      refine List.countP_congr fun d _ => ?_
      simp only [Function.comp, decide_eq_true_eq]
      omega
    unfold markedTerms markedFns at *
    rw [Prog.marked, Prog.termDepths, Prog.fnDepths, List.countP_cons, List.countP_cons, List.countP_cons, hshift, hshift, h1, h2]
    refine ⟨by simp, ?_⟩
    congr 1
    by_cases h : lo = 0 ∧ hi ≠ 0
    · simp [h, Nat.pos_of_ne_zero h.2]
    · simp [h]
      omega

/-- **C158**: the odds of a program with the grow method.  Let the pruning probability be `m / N`.  Of the sequences of
draws for the nodes of the program — one below `L` for each, and one below `N` for each whose kind is left to chance —
the share that makes it is `(m/N) ^ a * (1 - m/N) ^ b / ∏ (number of functions or terminals of the type of the node)`,
with `a` the number of terminals above the maximal depth and `b` the number of functions from the minimal depth on. -/
theorem C158_grow (he : c.erc = none) (hn : c.functionSet.Nodup) (hd : DistinctKeys c.terminalSet) {m : Nat} (hN : 0 < N)
    (hm : m ≤ N) (hπ : π = (m : ℚ) / N) {lo hi : Nat} (hle : lo ≤ hi) {p : Prog} (hp : p.Growable c τ lo hi)
    (hL : ∀ n ∈ p.flatten, c.among n ∣ L) :
    (drawsGrow N L (growCreate c π lo hi τ) (p.marked lo hi)).ncard * (p.flatten.map c.among).prod =
      m ^ (p.termDepths.countP fun d => decide (d < hi)) * (N - m) ^ (p.fnDepths.countP fun d => decide (lo ≤ d)) *
        L ^ p.flatten.length := by
  have hset : drawsGrow N L (growCreate c π lo hi τ) (p.marked lo hi) =
      List.flatten '' {chs | List.Forall₂ (fun ch x => ch ∈ {ch | Spent N L ch x ∧ Makes c π ch x}) chs (p.marked lo hi)} := by
    ext ds
    constructor
    · rintro ⟨⟨chs, rfl, h1⟩, h2⟩
      refine ⟨chs, ?_, rfl⟩
      have hrun := h2 fun _ => 0
      unfold growCreate at hrun
      rw [max_eq_right hle, marked_nodes] at hrun
      obtain ⟨q, chs', h3, hok, h4, h5⟩ := growTree_inv he hd hi lo hi hle rfl _ _ _ _ hrun
      obtain rfl := Prog.flatten_injective hp.typed.ok hok h3
      have hl1 := h1.imp fun _ _ h => spent_length h
      have hl2 := h5.imp fun _ _ h => makes_length h
      obtain rfl := flatten_inj hl1 hl2 (prepend_inj (flatten_lengths hl1 hl2) h4)
      refine List.forall₂_iff_get.2 ⟨h1.length_eq, fun i hi1 hi2 => ⟨?_, ?_⟩⟩
      · exact (List.forall₂_iff_get.1 h1).2 i hi1 hi2
      · exact (List.forall₂_iff_get.1 h5).2 i hi1 hi2
    · rintro ⟨chs, h, rfl⟩
      refine ⟨⟨chs, rfl, h.imp fun _ _ x => x.1⟩, fun t => ?_⟩
      unfold growCreate
      rw [max_eq_right hle, marked_nodes]
      exact growTree_run he hd hi hle rfl hp chs t (h.imp fun _ _ x => x.2)
  have hinj : Set.InjOn List.flatten
      {chs | List.Forall₂ (fun ch x => ch ∈ {ch | Spent N L ch x ∧ Makes c π ch x}) chs (p.marked lo hi)} := by
    intro a ha b hb hab
    exact flatten_inj (len := spentLen) (List.Forall₂.imp (fun _ _ h => spent_length h.1) ha)
      (List.Forall₂.imp (fun _ _ h => spent_length h.1) hb) hab
  rw [hset, hinj.ncard_image, ncard_lists, ← marked_nodes p lo hi, List.map_map, ← List.prod_map_mul]
  have hw : (p.marked lo hi).map (fun x => {ch | Spent N L ch x ∧ Makes c π ch x}.ncard * (c.among ∘ (·.2)) x) =
      (p.marked lo hi).map (weight m N L) := by
    refine List.map_congr_left fun x hx => ?_
    have hnm : x.2 ∈ p.flatten := by rw [← marked_nodes p lo hi]; exact List.mem_map_of_mem hx
    refine piece_share hn hd hN hm hπ ?_ (hL _ hnm)
    obtain ⟨b, n⟩ := x
    cases n with
    | func f => exact (hp.drawn.1 f (Prog.mem_fns_iff.2 hnm)).1
    | term v τ' => exact leaf_mem he (hp.drawn.2 (v, τ') (Prog.mem_terms_iff.2 hnm))
  rw [hw, weights, (marked_counts p lo hi).1, (marked_counts p lo hi).2, List.length_map]
  congr 2
  · congr 1
    refine List.countP_congr fun d hdm => ?_
    have := hp.terms d hdm
    simp; omega
  · congr 1
    refine List.countP_congr fun d hdm => ?_
    have := hp.fns d hdm
    simp; omega

namespace Sample

theorem grown_binary : grown.Growable binary none 1 2 := by
  refine ⟨?_, ⟨?_, ?_⟩, ?_, ?_⟩
  · simp [grown, Prog.HasType, Prog.HaveTypes, add, mul]
  · simp [grown, Prog.fns, Prog.fnsAll, binary, Fn.Legal, add, mul]
  · simp [grown, Prog.terms, Prog.termsAll, binary, Cfg.Leaf]
  · simp [grown, Prog.termDepths, Prog.termDepthsAll]
  · simp [grown, Prog.fnDepths, Prog.fnDepthsAll]

/-- `add(mul(x, y), x)` with depths 1 to 2 and a pruning probability of 0.3: of the `10² * 2⁵` sequences of draws 21
make it, a share of `0.7 * 0.3 / 2⁵`. -/
example : (drawsGrow 10 2 (growCreate binary (3 / 10) 1 2 none) (grown.marked 1 2)).ncard = 21 := by
  have h := C158_grow (c := binary) (L := 2) (N := 10) (m := 3) (π := 3 / 10) rfl (by decide) mixed_distinct (by decide)
    (by decide) (by norm_num) (by decide) grown_binary (by decide)
  have h1 : (grown.flatten.map binary.among).prod = 32 := by decide
  have h2 : (grown.termDepths.countP fun d => decide (d < 2)) = 1 := by decide
  have h3 : (grown.fnDepths.countP fun d => decide (1 ≤ d)) = 1 := by decide
  have h4 : grown.flatten.length = 5 := by decide
  rw [h1, h2, h3, h4] at h
  omega

end Sample

end Verif.GP
