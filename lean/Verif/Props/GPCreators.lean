import Verif.Lemmas.Typing
import Verif.Props.GPTree
import Mathlib.Tactic.Ring

/-!
# C10, C11, C12: the tree creators
-/

namespace Verif.GP
open PyM

theorem post_or_raises {α : Type} {m : Rand α} {Q : α → Prop} {E : Err → Prop} (h : Post m Q)
    (hr : Raises m E) (tape : Tape) :
    (∃ a tape', m tape = (.ok a, tape') ∧ Q a) ∨ ∃ e tape', m tape = (.error e, tape') ∧ E e := by
  rcases hm : m tape with ⟨r, tape'⟩
  cases r with
  | ok a => exact .inl ⟨a, tape', rfl, h _ _ _ hm⟩
  | error e => exact .inr ⟨e, tape', rfl, hr _ _ _ hm⟩

/-- **C10.** Whatever is drawn, the full method either raises `ValueError` or returns the listing of
a legal program built from the configuration; no leaf is deeper than the maximal depth and, if
every function has parameters, every leaf is at exactly that depth. -/
theorem C10_full (c : Cfg) (maxDepth : Nat) (ty : Option Ty) (tape : Tape) :
    (∃ l tape', fullCreate c maxDepth ty tape = (.ok l, tape') ∧ ∃ p : Prog, l = p.flatten ∧
      p.Ok ∧ p.BuiltFrom c ∧ p.InWindow 0 maxDepth ∧
      (c.NonNullary → p.InWindow maxDepth maxDepth)) ∨
    ∃ e tape', fullCreate c maxDepth ty tape = (.error e, tape') ∧ e = .valueError := by
  refine post_or_raises ((fullTree_post c (fun _ => False) maxDepth ty).mono ?_)
    (fullTree_raises c maxDepth ty) tape
  rintro l ⟨p, hp, h⟩
  exact ⟨p, hp, h.ok, h.built, fun d hd => ⟨Nat.zero_le _, h.upper d hd⟩,
    fun hn d hd => ⟨h.lower hn d hd, h.upper d hd⟩⟩

/-- **C10, success.** In an untyped configuration with a function and a terminal the full method
always returns. -/
theorem C10_full_returns (c : Cfg) (hu : c.Untyped) (ht : c.HasTerminal) (hf : c.functionSet ≠ [])
    (maxDepth : Nat) (tape : Tape) :
    ∃ l tape', fullCreate c maxDepth none tape = (.ok l, tape') :=
  fullTree_total hu ht hf maxDepth tape

/-- **C11.** Whatever is drawn, the grow method either raises `ValueError` or returns the listing of
a legal program built from the configuration; with a legal window no leaf is deeper than the
maximal depth and, if every function has parameters, every leaf lies in the window. -/
theorem C11_grow (c : Cfg) (pPrune : ℚ) (minDepth maxDepth : Nat) (hle : minDepth ≤ maxDepth)
    (ty : Option Ty) (tape : Tape) :
    (∃ l tape', growCreate c pPrune minDepth maxDepth ty tape = (.ok l, tape') ∧
      ∃ p : Prog, l = p.flatten ∧ p.Ok ∧ p.BuiltFrom c ∧ p.InWindow 0 maxDepth ∧
      (c.NonNullary → p.InWindow minDepth maxDepth)) ∨
    ∃ e tape', growCreate c pPrune minDepth maxDepth ty tape = (.error e, tape') ∧
      e = .valueError := by
  refine post_or_raises ((growTree_post c (fun _ => False) pPrune _ minDepth maxDepth ty rfl).mono ?_)
    (growTree_raises c pPrune _ minDepth maxDepth ty) tape
  rintro l ⟨p, hp, h⟩
  rw [max_eq_right hle] at h
  exact ⟨p, hp, h.ok, h.built, fun d hd => ⟨Nat.zero_le _, h.upper d hd⟩,
    fun hn d hd => ⟨h.lower hn d hd, h.upper d hd⟩⟩

/-- **C11, success.** In an untyped configuration with a function and a terminal the grow method
always returns. -/
theorem C11_grow_returns (c : Cfg) (hu : c.Untyped) (ht : c.HasTerminal) (hf : c.functionSet ≠ [])
    (pPrune : ℚ) (minDepth maxDepth : Nat) (tape : Tape) :
    ∃ l tape', growCreate c pPrune minDepth maxDepth none tape = (.ok l, tape') :=
  growTree_total hu ht hf pPrune _ minDepth maxDepth tape

/-- One depth of the ramp: `g` grown individuals followed by `g` full ones. -/
def RampBlock (c : Cfg) (minDepth g d : Nat) (block : List Ind) : Prop :=
  ∃ grown full, block = grown ++ full ∧ grown.length = g ∧ full.length = g ∧
    (∀ i ∈ grown, Planted c minDepth d i) ∧ ∀ i ∈ full, Planted c d d i

theorem createIndividuals_post {c : Cfg} {create : Rand (List Node)} {lo hi : Nat}
    (h : Post create fun l => ∃ p : Prog, l = p.flatten ∧ p.Ok ∧ p.BuiltFrom c ∧ p.InWindow lo hi)
    (n : Nat) : Post (createIndividuals c create n) fun inds =>
      inds.length = n ∧ ∀ i ∈ inds, Planted c lo hi i :=
  replicateM_post n (Post.bind h fun _ ht => Post.pure ⟨rfl, ht⟩)

theorem createIndividuals_raises {c : Cfg} {create : Rand (List Node)} {E : Err → Prop}
    (h : Raises create E) (n : Nat) : Raises (createIndividuals c create n) E := by
  unfold createIndividuals
  induction n with
  | zero => exact Raises.pure
  | succ n ih =>
    exact Raises.bind (Raises.bind h Post.trivial fun _ _ => Raises.pure) Post.trivial fun _ _ =>
      Raises.bind ih Post.trivial fun _ _ => Raises.pure

theorem halfLoop_raises (c : Cfg) (pPrune : ℚ) (minDepth g : Nat) (ds : List Nat) :
    Raises (halfLoop c pPrune minDepth g ds) (· = .valueError) := by
  induction ds with
  | nil => exact Raises.pure
  | cons d ds ih =>
    exact Raises.bind (createIndividuals_raises (growTree_raises c pPrune _ minDepth d _) g)
      Post.trivial fun _ _ =>
      Raises.bind (createIndividuals_raises (fullTree_raises c d _) g) Post.trivial fun _ _ =>
      Raises.bind ih Post.trivial fun _ _ => Raises.pure

theorem full_planted (c : Cfg) (hn : c.NonNullary) (d : Nat) (ty : Option Ty) :
    Post (fullCreate c d ty) fun l =>
      ∃ p : Prog, l = p.flatten ∧ p.Ok ∧ p.BuiltFrom c ∧ p.InWindow d d :=
  (fullTree_post c (fun _ => False) d ty).mono fun _ ⟨p, hp, h⟩ =>
    ⟨p, hp, h.ok, h.built, fun e he => ⟨h.lower hn e he, h.upper e he⟩⟩

theorem halfLoop_post (c : Cfg) (hn : c.NonNullary) (pPrune : ℚ) (minDepth g : Nat) (ds : List Nat)
    (hds : ∀ d ∈ ds, minDepth ≤ d) :
    Post (halfLoop c pPrune minDepth g ds) fun inds =>
      ∃ blocks : List (List Ind), inds = blocks.flatten ∧
        List.Forall₂ (RampBlock c minDepth g) ds blocks := by
  induction ds with
  | nil => exact Post.pure ⟨[], rfl, .nil⟩
  | cons d ds ih =>
    unfold halfLoop
    have hd := hds d (by simp)
    refine Post.bind (createIndividuals_post (lo := minDepth) (hi := d) ?_ g) fun grown hg =>
      Post.bind (createIndividuals_post (full_planted c hn d _) g) fun full hf =>
      Post.bind (ih fun e he => hds e (by simp [he])) fun rest hr => Post.pure ?_
    · refine (growTree_post c (fun _ => False) pPrune _ minDepth d _ rfl).mono ?_
      rintro l ⟨p, hp, h⟩
      rw [max_eq_right hd] at h
      exact ⟨p, hp, h.ok, h.built, fun e he => ⟨h.lower hn e he, h.upper e he⟩⟩
    · obtain ⟨blocks, rfl, hb⟩ := hr
      exact ⟨(grown ++ full) :: blocks, by simp,
        .cons ⟨grown, full, rfl, hg.1, hf.1, hg.2, hf.2⟩ hb⟩

theorem rampBlocks_length {c : Cfg} {minDepth g : Nat} {ds : List Nat} {blocks : List (List Ind)}
    (h : List.Forall₂ (RampBlock c minDepth g) ds blocks) :
    blocks.flatten.length = 2 * g * ds.length := by
  induction h with
  | nil => simp
  | cons h _ ih =>
    obtain ⟨grown, full, rfl, h1, h2, -, -⟩ := h
    simp only [List.flatten_cons, List.length_append, ih, h1, h2, List.length_cons]
    ring

/-- **C12.** Ramped half-and-half with a legal depth window and a population of at least twice the
number of depths: it either raises `ValueError` (a needed function or terminal is missing) or
returns exactly `n` individuals: for every depth `d` of the ramp `g = n div (2 * depths)` grown ones
with leaves between `minDepth` and `d` and `g` full ones with all leaves at `d`, then the missing
ones by the full method at the maximal depth. -/
theorem C12_half (c : Cfg) (hn : c.NonNullary) (pPrune : ℚ) (minDepth maxDepth n : Nat)
    (hle : minDepth ≤ maxDepth) (hsize : 2 * (maxDepth + 1 - minDepth) ≤ n) (tape : Tape) :
    (∃ inds tape', halfCreate c pPrune minDepth maxDepth n tape = (.ok inds, tape') ∧
      inds.length = n ∧ ∃ blocks missing, inds = List.flatten blocks ++ missing ∧
        List.Forall₂ (RampBlock c minDepth (n / (2 * (maxDepth + 1 - minDepth))))
          (List.range' minDepth (maxDepth + 1 - minDepth)) blocks ∧
        missing.length =
          n - 2 * (n / (2 * (maxDepth + 1 - minDepth))) * (maxDepth + 1 - minDepth) ∧
        ∀ i ∈ missing, Planted c maxDepth maxDepth i) ∨
    ∃ e tape', halfCreate c pPrune minDepth maxDepth n tape = (.error e, tape') ∧
      e = .valueError := by
  obtain ⟨k, hk⟩ : ∃ k, maxDepth + 1 - minDepth = k := ⟨_, rfl⟩
  have hkpos : 0 < k := by omega
  have hint : 2 * ((maxDepth : Int) + 1 - minDepth) = ((2 * k : Nat) : Int) := by omega
  have hg : Int.tdiv (n : Int) ((2 * k : Nat) : Int) = ((n / (2 * k) : Nat) : Int) := by
    rw [Int.tdiv_eq_ediv_of_nonneg (by omega)]; rfl
  have hgpos : 0 < n / (2 * k) := Nat.div_pos (by omega) (by omega)
  have hmul : 2 * (n / (2 * k)) * k ≤ n := by
    calc 2 * (n / (2 * k)) * k = n / (2 * k) * (2 * k) := by ring
      _ ≤ n := Nat.div_mul_le_self _ _
  have heq : halfCreate c pPrune minDepth maxDepth n = (do
      let inds ← halfLoop c pPrune minDepth (n / (2 * k)) (List.range' minDepth k)
      let nMissing : Int := (n : Int) - inds.length
      if 0 < nMissing then do
        let missing ← createIndividuals c (fullCreate c maxDepth c.rootType) nMissing.toNat
        pure (inds ++ missing)
      else pure inds) := by
    unfold halfCreate
    rw [hk]
    simp only [hint, hg, Int.toNat_natCast]
    rw [if_neg (by omega), if_neg (by omega)]
  rw [hk, heq]
  refine post_or_raises ?_ ?_ tape
  · refine Post.bind (halfLoop_post c hn pPrune minDepth _ _ fun d hd => ?_) fun inds hi => ?_
    · rw [List.mem_range'_1] at hd; exact hd.1
    · obtain ⟨blocks, rfl, hb⟩ := hi
      have hlen := rampBlocks_length hb
      rw [List.length_range'] at hlen
      refine Post.ite (fun hm => ?_) fun hm => ?_
      · refine Post.bind (createIndividuals_post (full_planted c hn maxDepth _) _) fun missing h =>
          Post.pure ?_
        have h1 : missing.length = n - 2 * (n / (2 * k)) * k := by
          rw [h.1, hlen]; omega
        exact ⟨by rw [List.length_append, h1, hlen]; omega, blocks, missing, rfl, hb, h1, h.2⟩
      · refine Post.pure ⟨?_, blocks, [], by simp, hb, ?_, by simp⟩
        · rw [hlen] at hm ⊢; omega
        · rw [hlen] at hm; simp only [List.length_nil]; omega
  · refine Raises.bind (halfLoop_raises c pPrune minDepth _ _) Post.trivial fun inds _ => ?_
    exact Raises.ite' (fun _ => Raises.bind
      (createIndividuals_raises (fullTree_raises c maxDepth _) _) Post.trivial
      fun _ _ => Raises.pure) fun _ => Raises.pure

/-- **C12, too small.** With fewer than two individuals per depth it raises `ValueError` at once. -/
theorem C12_half_too_small (c : Cfg) (pPrune : ℚ) (minDepth maxDepth n : Nat)
    (hle : minDepth ≤ maxDepth) (hsize : n < 2 * (maxDepth + 1 - minDepth)) (tape : Tape) :
    halfCreate c pPrune minDepth maxDepth n tape = (.error .valueError, tape) := by
  obtain ⟨k, hk⟩ : ∃ k, maxDepth + 1 - minDepth = k := ⟨_, rfl⟩
  have hint : 2 * ((maxDepth : Int) + 1 - minDepth) = ((2 * k : Nat) : Int) := by omega
  have hg : Int.tdiv (n : Int) ((2 * k : Nat) : Int) = ((n / (2 * k) : Nat) : Int) := by
    rw [Int.tdiv_eq_ediv_of_nonneg (by omega)]; rfl
  unfold halfCreate
  simp only [hint, hg]
  rw [if_neg (by omega), Nat.div_eq_of_lt (by omega)]
  rfl

/-- **C12, success.** In an untyped configuration with a function and a terminal it always returns
`n` individuals. -/
theorem C12_half_returns (c : Cfg) (hu : c.Untyped) (ht : c.HasTerminal) (hf : c.functionSet ≠ [])
    (hr : c.rootType = none) (hn : c.NonNullary) (pPrune : ℚ) (minDepth maxDepth n : Nat)
    (hle : minDepth ≤ maxDepth) (hsize : 2 * (maxDepth + 1 - minDepth) ≤ n) (tape : Tape) :
    ∃ inds tape', halfCreate c pPrune minDepth maxDepth n tape = (.ok inds, tape') ∧
      inds.length = n := by
  have hci : ∀ (m : Rand (List Node)), Total m → ∀ n, Total (createIndividuals c m n) := by
    intro m hm n
    unfold createIndividuals
    induction n with
    | zero => exact Total.pure
    | succ n ih =>
      exact Total.bind (Total.bind hm Post.trivial fun _ _ => Total.pure) Post.trivial fun _ _ =>
        Total.bind ih Post.trivial fun _ _ => Total.pure
  have hfull : ∀ d, Total (fullCreate c d c.rootType) := by
    intro d; rw [hr]; exact fullTree_total hu ht hf d
  have hgrow : ∀ d, Total (growCreate c pPrune minDepth d c.rootType) := by
    intro d; rw [hr]; exact growTree_total hu ht hf pPrune _ minDepth d
  have hloop : ∀ g ds, Total (halfLoop c pPrune minDepth g ds) := by
    intro g ds
    induction ds with
    | nil => exact Total.pure
    | cons d ds ih =>
      exact Total.bind (hci _ (hgrow d) g) Post.trivial fun _ _ =>
        Total.bind (hci _ (hfull d) g) Post.trivial fun _ _ =>
        Total.bind ih Post.trivial fun _ _ => Total.pure
  rcases C12_half c hn pPrune minDepth maxDepth n hle hsize tape with h | ⟨e, tape', h, -⟩
  · obtain ⟨inds, tape', h1, h2, -⟩ := h
    exact ⟨inds, tape', h1, h2⟩
  · exfalso
    have htot : Total (halfCreate c pPrune minDepth maxDepth n) := by
      obtain ⟨k, hk⟩ : ∃ k, maxDepth + 1 - minDepth = k := ⟨_, rfl⟩
      have hint : 2 * ((maxDepth : Int) + 1 - minDepth) = ((2 * k : Nat) : Int) := by omega
      have hg : Int.tdiv (n : Int) ((2 * k : Nat) : Int) = ((n / (2 * k) : Nat) : Int) := by
        rw [Int.tdiv_eq_ediv_of_nonneg (by omega)]; rfl
      have hgpos : 0 < n / (2 * k) := Nat.div_pos (by omega) (by omega)
      unfold halfCreate
      simp only [hint, hg]
      rw [if_neg (by omega), if_neg (by omega)]
      refine Total.bind (hloop _ _) Post.trivial fun inds _ => ?_
      split
      · exact Total.bind (hci _ (hfull _) _) Post.trivial fun _ _ => Total.pure
      · exact Total.pure
    obtain ⟨a, s', h'⟩ := htot tape
    rw [h'] at h; simp at h

/-! ### Non-vacuity -/

namespace Sample

/-- The sample configuration meets the hypotheses of C10–C12. -/
theorem cfg_untyped : cfg.Untyped := by
  simp [Cfg.Untyped, cfg, add, mul, neg]

theorem cfg_nonNullary : cfg.NonNullary := by
  simp [Cfg.NonNullary, cfg, add, mul, neg]

example : cfg.Untyped ∧ cfg.HasTerminal ∧ cfg.functionSet ≠ [] ∧ cfg.rootType = none ∧
    cfg.NonNullary :=
  ⟨cfg_untyped, by simp [Cfg.HasTerminal, cfg], by simp [cfg], rfl, cfg_nonNullary⟩

/-- A run of the full method of depth 2, and a grow run that stops between the depths 1 and 2. -/
example : (∃ t', fullCreate cfg 2 none (fun n => n) = (.ok
      [.func add, .func mul, .term x none, .term y none, .func mul, .term y none, .term x none],
      t')) ∧
    (growCreate cfg (1 / 2) 1 2 none (fun n => if n = 1 ∨ n = 2 then 3 else 0)).1
      = .ok [.func add, .func add, .term x none, .term x none, .term x none] := by
  constructor
  · exact ⟨_, rfl⟩
  · decide +kernel

/-- A ramp with depths 1 and 2, one individual of each kind per depth and one missing. -/
example : 2 * (2 + 1 - 1) ≤ 5 ∧
    ((halfCreate cfg (1 / 2) 1 2 5 (fun n => n)).1.map fun inds => inds.length) = .ok 5 :=
  ⟨by decide, by decide +kernel⟩

end Sample
end Verif.GP
