import Verif.Spec.Printing
import Verif.Lemmas.Tree

/-! # Printing trees -/

namespace Verif.GP
open Prog

theorem strip_append (a b : String) : strip (a ++ b) = strip a ++ strip b := by
  simp [strip]

theorem strip_word {s : String} (h : Word s) : strip s = s.toList := by
  unfold strip
  rw [List.filter_eq_self]
  intro c hc
  have := h.2 c hc
  simp at this
  simp [this]

theorem notations_eq (N : Names) (ps : List Prog) : notations N ps = ps.map (Prog.notation' N) := by
  induction ps with
  | nil => rfl
  | cons p ps ih => simp [notations, ih]

theorem skelAll_eq (N : Names) (ps : List Prog) : skelAll N ps = ps.map (Prog.skel N) := by
  induction ps with
  | nil => rfl
  | cons p ps ih => simp [skelAll, ih]

/-- The text of a program below the root. -/
def render (N : Names) : (indent : String) → Prog → String
  | indent, .term v _ => indent ++ N.val v
  | indent, .app f args => indent ++ N.fn f ++ "(\n" ++ printArgs args.length 0 (args.map (render N (indent ++ "  "))) ++
      (indent ++ ")")
termination_by _ p => sizeOf p

theorem loopArgs_ok {α : Type} {tree : List Node} {step : Nat → Except Err (α × Nat)} {g : Prog → α}
    (ps : List Prog) (pos : Nat) (pre post : List Node) (htree : tree = pre ++ Prog.flattenAll ps ++ post)
    (hpre : pre.length = pos + 1)
    (hstep : ∀ p ∈ ps, ∀ pre post : List Node, pre ≠ [] → tree = pre ++ p.flatten ++ post →
      step pre.length = .ok (g p, pre.length + p.size - 1)) :
    loopArgs step ps.length pos = .ok (ps.map g, pos + Prog.sizeAll ps) := by
  induction ps generalizing pos pre with
  | nil => simp [loopArgs, Prog.sizeAll]
  | cons p ps ih =>
    have h1 := hstep p (by simp) pre (Prog.flattenAll ps ++ post) (by rintro rfl; simp at hpre)
      (by simpa [Prog.flattenAll] using htree)
    have hsz := p.size_pos
    simp only [List.length_cons, loopArgs, Prog.sizeAll]
    rw [hpre] at h1
    rw [h1]
    have h2 := ih (pos + 1 + p.size - 1) (pre ++ p.flatten) (by simpa [Prog.flattenAll] using htree)
      (by simp [hpre, Prog.length_flatten]; omega) (fun q hq => hstep q (by simp [hq]))
    simp only [bind, Except.bind]
    rw [h2]
    simp only [List.map_cons, Except.ok.injEq, Prod.mk.injEq, true_and]
    omega

theorem strAt_args (N : Names) {tree : List Node} {fuel : Nat} {indent : String} {f : Fn} {args : List Prog}
    (hok : (Prog.app f args).Ok) {pre post : List Node}
    (htree : tree = pre ++ (Prog.app f args).flatten ++ post)
    (ih : ∀ q ∈ args, ∀ pre post : List Node, pre ≠ [] → tree = pre ++ q.flatten ++ post →
      strAt N tree fuel indent pre.length = .ok (render N indent q, pre.length + q.size - 1)) :
    loopArgs (strAt N tree fuel indent) f.arity pre.length =
      .ok (args.map (render N indent), pre.length + Prog.sizeAll args) := by
  simp only [Prog.flatten] at htree
  simp only [Prog.Ok] at hok
  have := loopArgs_ok (step := strAt N tree fuel indent) (g := render N indent) args pre.length
    (pre ++ [.func f]) post (by simpa using htree) (by simp) ih
  rwa [hok.1] at this

theorem strAt_listing (N : Names) (tree : List Node) (fuel : Nat) : ∀ (indent : String) (p : Prog), p.Ok →
    p.size ≤ fuel → ∀ pre post : List Node, pre ≠ [] → tree = pre ++ p.flatten ++ post →
    strAt N tree fuel indent pre.length = .ok (render N indent p, pre.length + p.size - 1) := by
  induction fuel with
  | zero => intro _ p _ h; have := p.size_pos; omega
  | succ fuel ih =>
    intro indent p hok hfuel pre post hne htree
    cases p with
    | term v ty =>
      have : tree[pre.length]? = some (.term v ty) := by rw [htree]; simp [Prog.flatten]
      simp [strAt, this, render, Prog.size]
    | app f args =>
      have hget : tree[pre.length]? = some (.func f) := by rw [htree]; simp [Prog.flatten]
      have hpos : pre.length ≠ 0 := by simpa using hne
      have hok' := hok
      simp only [Prog.Ok, Prog.okAll_iff] at hok'
      simp only [Prog.size] at hfuel
      have hl := strAt_args N (fuel := fuel) (indent := indent ++ "  ") hok htree (fun q hq pre' post' h1 h2 => by
        refine ih _ q (hok'.2 q hq) ?_ pre' post' h1 h2
        have : q.size ≤ Prog.sizeAll args := by
          obtain ⟨l, r, rfl⟩ := List.append_of_mem hq
          simp [Prog.sizeAll_append, Prog.sizeAll]; omega
        omega)
      simp only [strAt, hget, if_neg hpos]
      rw [hl]
      simp only [bind, Except.bind, render, Prog.size, hok'.1, Fn.arity, Except.ok.injEq, Prod.mk.injEq, true_and]
      omega

/-- The text of a whole program: the arguments of the root are indented twice. -/
def renderRoot (N : Names) : Prog → String
  | .term v _ => "" ++ N.val v
  | .app f args => "" ++ N.fn f ++ "(\n" ++ printArgs args.length 0 (args.map (render N ("" ++ "  " ++ "  "))) ++
      ("" ++ "  " ++ ")")

theorem strAt_root (N : Names) {p : Prog} (hok : p.Ok) :
    strAt N p.flatten (p.flatten.length + 1) "" 0 = .ok (renderRoot N p, p.size - 1) := by
  cases p with
  | term v ty => simp [strAt, Prog.flatten, renderRoot, Prog.size]
  | app f args =>
    have hget : (Prog.app f args).flatten[0]? = some (.func f) := by simp [Prog.flatten]
    have hok' := hok
    simp only [Prog.Ok, Prog.okAll_iff] at hok'
    have hl := strAt_args N (tree := (Prog.app f args).flatten) (fuel := (Prog.app f args).flatten.length)
      (indent := "" ++ "  " ++ "  ") hok (pre := []) (post := []) (by simp) (fun q hq pre' post' h1 h2 => by
        refine strAt_listing N _ _ _ q (hok'.2 q hq) ?_ pre' post' h1 h2
        have : q.size ≤ Prog.sizeAll args := by
          obtain ⟨l, r, rfl⟩ := List.append_of_mem hq
          simp [Prog.sizeAll_append, Prog.sizeAll]; omega
        rw [Prog.length_flatten]
        simp only [Prog.size]
        omega)
    simp only [List.length_nil, Nat.zero_add] at hl
    simp only [strAt, hget, if_true]
    rw [hl]
    simp [bind, Except.bind, renderRoot, Prog.size, hok'.1, Fn.arity]

theorem strip_printArgs (n : Nat) (ts : List String) (i : Nat) (h : i + ts.length = n) :
    strip (printArgs n i ts) = [','].intercalate (ts.map strip) := by
  induction ts generalizing i with
  | nil => simp [printArgs, strip]
  | cons t ts ih =>
    simp only [List.length_cons] at h
    simp only [printArgs, strip_append, List.map_cons]
    rw [ih (i + 1) (by omega)]
    cases ts with
    | nil =>
      simp only [List.length_nil] at h
      rw [if_neg (by omega)]
      split <;> simp [strip]
    | cons u us =>
      simp only [List.length_cons] at h
      rw [if_pos (by omega)]
      simp [strip, List.intercalate]

theorem strip_blanks (indent : String) (hi : strip indent = []) : strip (indent ++ "  ") = [] := by
  rw [strip_append, hi]; rfl

theorem clean_arg {N : Names} {f : Fn} {args : List Prog} (h : (Prog.app f args).Clean N) {q : Prog}
    (hq : q ∈ args) : q.Clean N := by
  refine ⟨fun g hg => h.1 g ?_, fun v hv => h.2 v ?_⟩
  · simp only [Prog.fns, List.mem_cons, Prog.mem_fnsAll]; exact .inr ⟨_, hq, hg⟩
  · simp only [Prog.terms, Prog.mem_termsAll]; exact ⟨_, hq, hv⟩

theorem strip_render (N : Names) (p : Prog) : p.Clean N → ∀ indent, strip indent = [] →
    strip (render N indent p) = p.notation' N := by
  induction p using Prog.ind with
  | hterm v ty =>
    intro h indent hi
    have : Word (N.val v) := h.2 (v, ty) (by simp [Prog.terms])
    simp [render, strip_append, hi, strip_word this, Prog.notation']
  | happ f args ih =>
    intro h indent hi
    have hf : Word (N.fn f) := h.1 f (by simp [Prog.fns])
    have hargs : args.map (strip ∘ render N (indent ++ "  ")) = args.map (Prog.notation' N) := by
      refine List.map_congr_left fun q hq => ?_
      exact ih q hq (clean_arg h hq) _ (strip_blanks _ hi)
    simp only [render, strip_append, hi, strip_word hf, Prog.notation', notations_eq]
    rw [strip_printArgs _ _ _ (by simp), List.map_map, hargs]
    simp [strip]

theorem strip_renderRoot (N : Names) {p : Prog} (h : p.Clean N) :
    strip (renderRoot N p) = p.notation' N := by
  cases p with
  | term v ty =>
    have : Word (N.val v) := h.2 (v, ty) (by simp [Prog.terms])
    simp [renderRoot, strip_word this, Prog.notation']
  | app f args =>
    have hf : Word (N.fn f) := h.1 f (by simp [Prog.fns])
    have hargs : args.map (strip ∘ render N ("" ++ "  " ++ "  ")) = args.map (Prog.notation' N) :=
      List.map_congr_left fun q hq => strip_render N q (clean_arg h hq) _ rfl
    simp only [renderRoot, strip_append, strip_word hf, Prog.notation', notations_eq]
    rw [strip_printArgs _ _ _ (by simp), List.map_map, hargs]
    simp [strip]

/-! ## The notation determines the names -/

/-- The rest of a text after a word. -/
def EndsWord (r : List Char) : Prop := ∀ c ∈ r.head?, c ∈ ['(', ')', ',']

/-- The rest of a text after a program. -/
def EndsProg (r : List Char) : Prop := ∀ c ∈ r.head?, c ∈ [')', ',']

theorem split_word {u v r r' : List Char} (hu : ∀ c ∈ u, c ∉ ['(', ')', ',']) (hv : ∀ c ∈ v, c ∉ ['(', ')', ','])
    (hr : EndsWord r) (hr' : EndsWord r') (h : u ++ r = v ++ r') : u = v ∧ r = r' := by
  induction u generalizing v with
  | nil =>
    cases v with
    | nil => exact ⟨rfl, h⟩
    | cons c v =>
      simp only [List.nil_append, List.cons_append] at h
      exact absurd (hr c (by rw [h]; rfl)) (hv c (by simp))
  | cons c u ih =>
    cases v with
    | nil =>
      simp only [List.nil_append, List.cons_append] at h
      exact absurd (hr' c (by rw [← h]; rfl)) (hu c (by simp))
    | cons d v =>
      simp only [List.cons_append, List.cons.injEq] at h
      obtain ⟨rfl, h⟩ := h
      obtain ⟨rfl, h'⟩ := ih (fun x hx => hu x (by simp [hx])) (fun x hx => hv x (by simp [hx])) h
      exact ⟨rfl, h'⟩

theorem word_chars {s : String} (h : Word s) : ∀ c ∈ s.toList, c ∉ ['(', ')', ','] := by
  intro c hc
  have := h.2 c hc
  simp at this
  simp [this]

theorem toList_inj {s t : String} (h : s.toList = t.toList) : s = t := String.toList_inj.1 h

/-- A program's text begins with a character that is neither a bracket nor a comma. -/
theorem notation_head (N : Names) {p : Prog} (h : p.Clean N) :
    ∃ c l, p.notation' N = c :: l ∧ c ∉ ['(', ')', ','] := by
  have aux : ∀ {s : String} (r : List Char), Word s → ∃ c l, s.toList ++ r = c :: l ∧ c ∉ ['(', ')', ','] := by
    intro s r hs
    cases hl : s.toList with
    | nil => exact absurd (String.toList_inj.1 (by simpa using hl)) hs.1
    | cons c l => exact ⟨c, l ++ r, rfl, word_chars hs c (by rw [hl]; simp)⟩
  cases p with
  | term v ty => simpa [Prog.notation'] using aux [] (h.2 (v, ty) (by simp [Prog.terms]))
  | app f args => simpa [Prog.notation'] using aux _ (h.1 f (by simp [Prog.fns]))

theorem intercalate_cons (x : List Char) (xs : List (List Char)) :
    [','].intercalate (x :: xs) = x ++ xs.flatMap fun y => ',' :: y := by
  induction xs generalizing x with
  | nil => simp [List.intercalate]
  | cons y ys ih =>
    have : [','].intercalate (x :: y :: ys) = x ++ ',' :: [','].intercalate (y :: ys) := by
      simp [List.intercalate]
    rw [this, ih]
    simp

theorem rest_inj (N : Names) (as : List Prog) (ih : ∀ p ∈ as, p.Clean N → ∀ (q : Prog) r r', q.Clean N → EndsProg r →
      EndsProg r' → p.notation' N ++ r = q.notation' N ++ r' → p.skel N = q.skel N ∧ r = r') :
    ∀ (bs : List Prog) (r r' : List Char), (∀ p ∈ as, p.Clean N) → (∀ p ∈ bs, p.Clean N) →
      (as.map (Prog.notation' N)).flatMap (fun y => ',' :: y) ++ ')' :: r =
        (bs.map (Prog.notation' N)).flatMap (fun y => ',' :: y) ++ ')' :: r' →
      as.map (Prog.skel N) = bs.map (Prog.skel N) ∧ r = r' := by
  have hend : ∀ (xs : List (List Char)) (r : List Char),
      EndsProg (xs.flatMap (fun y => ',' :: y) ++ ')' :: r) := by
    intro xs r
    cases xs <;> simp [EndsProg]
  induction as with
  | nil =>
    intro bs r r' _ _ h
    cases bs with
    | nil => simpa using h
    | cons b bs => simp at h
  | cons a as ih2 =>
    intro bs r r' ha hb h
    cases bs with
    | nil => simp at h
    | cons b bs =>
      simp only [List.map_cons, List.flatMap_cons, List.cons_append, List.append_assoc, List.cons.injEq,
        true_and] at h
      obtain ⟨h1, h2⟩ := ih a (by simp) (ha a (by simp)) b _ _ (hb b (by simp)) (hend _ _) (hend _ _) h
      obtain ⟨h3, h4⟩ := ih2 (fun p hp => ih p (by simp [hp])) bs r r' (fun p hp => ha p (by simp [hp]))
        (fun p hp => hb p (by simp [hp])) h2
      exact ⟨by simp [h1, h3], h4⟩

theorem notation_inj (N : Names) (p : Prog) : p.Clean N → ∀ (q : Prog) r r', q.Clean N → EndsProg r → EndsProg r' →
    p.notation' N ++ r = q.notation' N ++ r' → p.skel N = q.skel N ∧ r = r' := by
  have hw : ∀ {r}, EndsProg r → EndsWord r := fun h c hc => by
    have := h c hc
    simp at this
    simp [this]
  induction p using Prog.ind with
  | hterm v ty =>
    intro hp q r r' hq hr hr' h
    have hv := hp.2 (v, ty) (by simp [Prog.terms])
    cases q with
    | term w ty' =>
      have hw' := hq.2 (w, ty') (by simp [Prog.terms])
      simp only [Prog.notation'] at h
      obtain ⟨h1, h2⟩ := split_word (word_chars hv) (word_chars hw') (hw hr) (hw hr') h
      exact ⟨by simp [Prog.skel, toList_inj h1], h2⟩
    | app g bs =>
      have hg := hq.1 g (by simp [Prog.fns])
      simp only [Prog.notation', List.append_assoc, List.cons_append] at h
      obtain ⟨h1, h2⟩ := split_word (word_chars hv) (word_chars hg) (hw hr) (by simp [EndsWord]) h
      have := hr '(' (by rw [h2]; rfl)
      simp at this
  | happ f as ih =>
    intro hp q r r' hq hr hr' h
    have hf := hp.1 f (by simp [Prog.fns])
    cases q with
    | term w ty' =>
      have hw' := hq.2 (w, ty') (by simp [Prog.terms])
      simp only [Prog.notation', List.append_assoc, List.cons_append] at h
      obtain ⟨h1, h2⟩ := split_word (word_chars hf) (word_chars hw') (by simp [EndsWord]) (hw hr') h
      have := hr' '(' (by rw [← h2]; rfl)
      simp at this
    | app g bs =>
      have hg := hq.1 g (by simp [Prog.fns])
      simp only [Prog.notation', List.append_assoc, List.cons_append, notations_eq] at h
      obtain ⟨h1, h2⟩ := split_word (word_chars hf) (word_chars hg) (by simp [EndsWord]) (by simp [EndsWord]) h
      simp only [List.cons.injEq, true_and, List.nil_append] at h2
      have key : as.map (Prog.skel N) = bs.map (Prog.skel N) ∧ r = r' := by
        cases as with
        | nil =>
          cases bs with
          | nil => simpa using h2
          | cons b bs =>
            exfalso
            obtain ⟨c, l, e, hc⟩ := notation_head N (clean_arg hq (List.mem_cons_self ..))
            simp only [List.map_nil, List.map_cons, intercalate_cons, e] at h2
            simp [List.intercalate] at h2
            simp [← h2.1] at hc
        | cons a as =>
          cases bs with
          | nil =>
            exfalso
            obtain ⟨c, l, e, hc⟩ := notation_head N (clean_arg hp (List.mem_cons_self ..))
            simp only [List.map_nil, List.map_cons, intercalate_cons, e] at h2
            simp [List.intercalate] at h2
            simp [h2.1] at hc
          | cons b bs =>
            refine rest_inj N (a :: as) ih (b :: bs) r r' (fun q h => clean_arg hp h)
              (fun q h => clean_arg hq h) ?_
            simp only [List.map_cons, intercalate_cons, List.append_assoc] at h2
            simpa using h2
      exact ⟨by simp [Prog.skel, skelAll_eq, key.1, toList_inj h1], key.2⟩

end Verif.GP
