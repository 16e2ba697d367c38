import Verif.Model.SymbolicRegression
import Verif.Props.NotANumber
import Verif.Props.FloatFit

/-!
# C164: the symbolic regression example

A run of the example that ends before its last generation is meant to have found a program that is close to
`x + 2 * y + 3 * z` on the data.
-/

namespace Verif.SymReg
open Verif.Prim Verif.Score

variable {rnd : ℝ → Num} {lit : GP.Val → Num} {D : List Point}

/-! ## What the words mean -/

/-- The absolute error of the output `v` at the point `p`. -/
noncomputable def errorAt (rnd : ℝ → Num) (p : Point) (v : Num) : Num := Prim.abs (Prim.sub rnd v (target rnd p))

/-- `r` holds the outputs of a program: a scalar for all rows, or one number for each. -/
noncomputable def outputAt (r : Arr Num) (k : Nat) : Num :=
  match r with
  | .scalar x => x
  | .vec xs => xs.getD k .nan

/-- The error in a row is a number that is at most `b`. -/
def Within (b : ℝ) (e : Num) : Prop := ∃ a, e = .fin a ∧ 0 ≤ a ∧ a ≤ b

/-- The mean of the errors is at most `b`: they are all numbers, whose sum is at most `b` times their number. -/
def MeanWithin (b : ℝ) (es : List Num) : Prop :=
  ∃ as : List ℝ, es = as.map Num.fin ∧ as.sum ≤ b * as.length

/-! ## The evaluator -/

theorem item_output {r : Arr Num} {n k : Nat} (h : Of n r) (hk : k < n) : r.item k = outputAt r k := by
  cases r with
  | scalar x => rfl
  | vec xs =>
    have hl : xs.length = n := by
      rcases h with h | h
      · cases h
      · exact Option.some.inj h
    unfold Arr.item outputAt
    dsimp only
    split
    · have : k = 0 := by omega
      subst this
      rfl
    · rfl

theorem errors_spec {r : Arr Num} (h : Of D.length r) :
    ∃ es, errors rnd D r = .ok es ∧ es.length = D.length ∧
      ∀ k (hk : k < D.length), es[k]? = some (errorAt rnd D[k] (outputAt r k)) := by
  have ht : Of D.length (.vec (D.map (target rnd)) : Arr Num) := .inr (by simp [Arr.shape])
  obtain ⟨d, hd, gd⟩ := map2_gives (Prim.sub rnd) h ht
  have hs : d.shape = some D.length := by
    rw [gd.shape]
    simp only [List.foldr_cons, List.foldr_nil]
    rcases h with h | h <;> rw [h] <;> simp [Arr.shape]
  have ga := map1_gives Prim.abs d
  have hsa : (map1 Prim.abs d).shape = some D.length := by rw [ga.shape]; simp [hs]
  unfold errors
  rw [hd]
  dsimp only
  cases hm : map1 Prim.abs d with
  | scalar x => rw [hm] at hsa; cases hsa
  | vec xs =>
    rw [hm] at hsa ga
    have hl : xs.length = D.length := Option.some.inj hsa
    refine ⟨xs, rfl, hl, fun k hk => ?_⟩
    have e1 := ga.item k (by rintro m ⟨⟩; rw [hl]; exact hk)
    have e2 := gd.item k (by rintro m hm'; rw [hs] at hm'; obtain rfl := Option.some.inj hm'; exact hk)
    rw [item_output (.inr hsa) hk] at e1
    rw [item_output h hk, item_output ht hk] at e2
    have e3 : outputAt (.vec (D.map (target rnd))) k = target rnd D[k] := by
      simp [outputAt, List.getD, hk]
    rw [e3] at e2
    have hk' : k < xs.length := by rw [hl]; exact hk
    rw [List.getElem?_eq_getElem hk']
    have e4 : outputAt (.vec xs) k = xs[k] := by simp [outputAt, List.getD, hk']
    rw [e4] at e1
    rw [e1, e2]
    rfl

theorem abs_fin {e : Num} {v : Num} (h : e = Prim.abs v) : e = .nan ∨ e = .posInf ∨ ∃ a, e = .fin a ∧ 0 ≤ a := by
  subst h
  cases v
  · exact .inr (.inr ⟨_, rfl, abs_nonneg _⟩)
  · exact .inr (.inl rfl)
  · exact .inr (.inl rfl)
  · exact .inl rfl

/-- What the mean says about the errors. -/
theorem seriesMean_spec {es : List Num} (hes : ∀ e ∈ es, e = .nan ∨ e = .posInf ∨ ∃ a, e = .fin a ∧ 0 ≤ a) :
    (seriesMean es = .nan ↔ ∀ e ∈ es, e = .nan) ∧
      (seriesMean es = .posInf ↔ .posInf ∈ es) ∧ seriesMean es ≠ .negInf ∧
      ∀ m, seriesMean es = .fin m ↔ es.filter (fun x => !isNaN x) ≠ [] ∧
        ∃ as : List ℝ, es.filter (fun x => !isNaN x) = as.map Num.fin ∧ m = as.sum / as.length := by
  have hnan : es.filter (fun x => !isNaN x) = [] ↔ ∀ e ∈ es, e = .nan := by
    rw [List.filter_eq_nil_iff]
    refine forall₂_congr fun e _ => ?_
    cases e <;> simp [isNaN]
  by_cases h0 : es.filter (fun x => !isNaN x) = []
  · have : seriesMean es = .nan := by unfold seriesMean; simp only [h0, if_true]
    rw [this]
    refine ⟨⟨fun _ => hnan.1 h0, fun _ => rfl⟩, ⟨nofun, fun h => ?_⟩, nofun, fun m => ⟨nofun, fun h => (h.1 h0).elim⟩⟩
    cases hnan.1 h0 _ h
  · by_cases ha : (es.filter (fun x => !isNaN x)).all isFin = true
    · have hv : seriesMean es = .fin (((es.filter fun x => !isNaN x).map realOf).sum / (es.filter fun x => !isNaN x).length) := by
        unfold seriesMean; simp only [h0, if_false, ha, if_true]
      have hmap : ∀ l : List Num, l.all isFin = true → l = (l.map realOf).map Num.fin := by
        intro l
        induction l with
        | nil => intro _; rfl
        | cons x l ih =>
          intro h
          simp only [List.all_cons, Bool.and_eq_true] at h
          have := ih h.2
          cases x with
          | fin a => exact congrArg (Num.fin a :: ·) this
          | posInf => exact absurd h.1 (by simp [isFin])
          | negInf => exact absurd h.1 (by simp [isFin])
          | nan => exact absurd h.1 (by simp [isFin])
      rw [hv]
      refine ⟨⟨nofun, fun h => (h0 (hnan.2 h)).elim⟩, ⟨nofun, fun h => ?_⟩, nofun, fun m => ⟨fun h => ⟨h0, _, hmap _ ha, ?_⟩, ?_⟩⟩
      · have : Num.posInf ∈ es.filter (fun x => !isNaN x) := List.mem_filter.2 ⟨h, rfl⟩
        exact absurd (List.all_eq_true.1 ha _ this) (by simp [isFin])
      · rw [List.length_map]; exact (Num.fin.inj h).symm
      · rintro ⟨-, as, has, rfl⟩
        have : (as.map Num.fin).map realOf = as := by rw [List.map_map]; exact List.map_id as
        rw [has, this, List.length_map]
    · have hv : seriesMean es = .posInf := by
        unfold seriesMean; simp only [h0, if_false, ha, Bool.false_eq_true]
      rw [hv]
      have hin : Num.posInf ∈ es := by
        by_contra hn
        refine ha (List.all_eq_true.2 fun x hx => ?_)
        obtain ⟨hx, hx'⟩ := List.mem_filter.1 hx
        rcases hes x hx with rfl | rfl | ⟨a, rfl, -⟩
        · simp [isNaN] at hx'
        · exact (hn hx).elim
        · rfl
      refine ⟨⟨nofun, fun h => (h0 (hnan.2 h)).elim⟩, ⟨fun _ => hin, fun _ => rfl⟩, nofun, fun m => ⟨nofun, ?_⟩⟩
      rintro ⟨-, as, has, -⟩
      have : Num.posInf ∈ es.filter (fun x => !isNaN x) := List.mem_filter.2 ⟨hin, rfl⟩
      rw [has] at this
      obtain ⟨_, _, h⟩ := List.mem_map.1 this
      cases h

theorem le_sum {as : List ℝ} (h : ∀ a ∈ as, 0 ≤ a) {a : ℝ} (ha : a ∈ as) : a ≤ as.sum := List.single_le_sum h a ha

theorem mem_three {α : Type} {a b c x : α} (h : x ∈ [a, b, c]) : x = a ∨ x = b ∨ x = c := by simpa using h

/-- The configuration of one of the two examples, without and with types. -/
def Example (c : GP.Cfg) : Prop := c = gpCfg ∨ c = typedCfg

/-- Programs of the examples run on every data frame: one output for all rows or one for each. -/
theorem run_ok {c : GP.Cfg} (hex : Example c) {i : GP.Ind} (hi : GP.Legal c i) :
    ∃ r, run rnd lit D i = .ok r ∧ Of D.length r := by
  obtain ⟨hc, p, hp, hok, hf⟩ := hi
  rw [hc] at hf
  have hfs : ∀ f ∈ p.fns, f.params.length = (opOf f).arity ∧ (opOf f).Numeric := by
    intro f hf'
    rcases hex with rfl | rfl
    · obtain ⟨k, hk, rfl⟩ := List.mem_map.1 (hf f hf')
      have key : ∀ k < 11, (fn k).params.length = (opOf (fn k)).arity ∧ (opOf (fn k)).Numeric := by decide
      exact key k (by simpa [ops] using hk)
    · obtain ⟨k, hk, rfl⟩ := List.mem_map.1 (hf f hf')
      have key : ∀ k < 11, (typedFn k).params.length = (opOf (typedFn k)).arity ∧ (opOf (typedFn k)).Numeric := by decide
      exact key k (by simpa [ops] using hk)
  have hts : ∃ t, c.terminalSet = [(varX, t), (varY, t), (varZ, t)] := by
    rcases hex with rfl | rfl
    · exact ⟨_, rfl⟩
    · exact ⟨_, rfl⟩
  obtain ⟨t, hts⟩ := hts
  unfold run
  rw [hc, hp]
  refine C73_numeric_partial rnd opOf lit c p (kwargs D) D.length hok (fun f h => (hfs f h).1) (fun f h => (hfs f h).2) ?_ ?_ ?_
  · intro kx hkx
    rcases mem_three hkx with rfl | rfl | rfl <;> exact .inr (by simp [Arr.shape])
  · intro kx hkx
    rw [hts]
    rcases mem_three hkx with rfl | rfl | rfl
    · exact ⟨(varX, t), by simp, rfl⟩
    · exact ⟨(varY, t), by simp, rfl⟩
    · exact ⟨(varZ, t), by simp, rfl⟩
  · intro kv hkv
    rw [hts] at hkv
    rcases mem_three hkv with rfl | rfl | rfl
    · exact ⟨_, .head _, rfl⟩
    · exact ⟨_, .tail _ (.head _), rfl⟩
    · exact ⟨_, .tail _ (.tail _ (.head _)), rfl⟩

/-- **C164**, the setup: the typed example is accepted. -/
theorem C164_setup : GP.handleInputTypes (some ((List.range 11).map typedFn))
    (some (.dict [(varX, some .float), (varY, some .float), (varZ, some .float)])) (some .float) (some ⟨-1, 1, true⟩) = .ok typedCfg := by
  rfl

/-! ## The property -/

/-- The errors of a program with the outputs `r`, row by row. -/
noncomputable def rowErrors (rnd : ℝ → Num) (D : List Point) (r : Arr Num) : List Num :=
  D.zipIdx.map fun pk => errorAt rnd pk.1 (outputAt r pk.2)

theorem errors_eq {r : Arr Num} (h : Of D.length r) : errors rnd D r = .ok (rowErrors rnd D r) := by
  obtain ⟨es, he, hl, hs⟩ := errors_spec (rnd := rnd) h
  rw [he]
  congr 1
  refine List.ext_getElem? fun k => ?_
  by_cases hk : k < D.length
  · rw [hs k hk]
    simp [rowErrors, hk]
  · rw [List.getElem?_eq_none (by omega), List.getElem?_eq_none (by simp [rowErrors]; omega)]

/-- **C164**, the score: evaluating a program never raises.  The score is NaN exactly if the error is NaN in all rows.  If it
is a number, then the rows whose error is NaN are *left out*: it is the mean of the others, and each of the others is at
most the score times their number. -/
theorem C164_score_partial {c : GP.Cfg} (hex : Example c) {i : GP.Ind} (hi : GP.Legal c i) : ∃ r s, run rnd lit D i = .ok r ∧ evaluate rnd lit D i = .ok s ∧
    (s = .nan ↔ ∀ e ∈ rowErrors rnd D r, e = .nan) ∧
    ∀ m b, s = .fin m → m ≤ b →
      MeanWithin b ((rowErrors rnd D r).filter fun e => !isNaN e) ∧
      (∀ e ∈ rowErrors rnd D r, e = .nan ∨ Within (b * D.length) e) ∧
      ((∀ e ∈ rowErrors rnd D r, e ≠ .nan) → MeanWithin b (rowErrors rnd D r)) := by
  obtain ⟨r, hr, ho⟩ := run_ok (rnd := rnd) (lit := lit) (D := D) hex hi
  have hev : evaluate rnd lit D i = .ok (seriesMean (rowErrors rnd D r)) := by
    unfold evaluate
    rw [hr]
    dsimp only
    rw [errors_eq ho]
  have hes : ∀ e ∈ rowErrors rnd D r, e = .nan ∨ e = .posInf ∨ ∃ a, e = .fin a ∧ 0 ≤ a := fun e he => by
    obtain ⟨pk, -, rfl⟩ := List.mem_map.1 he
    exact abs_fin rfl
  obtain ⟨s1, -, -, s4⟩ := seriesMean_spec hes
  refine ⟨r, _, hr, hev, s1, fun m b hm hb => ?_⟩
  obtain ⟨h0, as, has, rfl⟩ := (s4 m).1 hm
  have hne : as ≠ [] := by rintro rfl; exact h0 has
  have hlen : (0 : ℝ) < as.length := by exact_mod_cast List.length_pos_iff.2 hne
  have hsum : as.sum ≤ b * as.length := (div_le_iff₀ hlen).1 hb
  have hpos : ∀ a ∈ as, 0 ≤ a := fun a ha => by
    have : Num.fin a ∈ (rowErrors rnd D r).filter fun x => !isNaN x := has ▸ List.mem_map_of_mem ha
    rcases hes _ (List.mem_filter.1 this).1 with h | h | ⟨c, h, hc⟩
    · cases h
    · cases h
    · exact (Num.fin.inj h) ▸ hc
  have hb0 : 0 ≤ b := (div_nonneg (List.sum_nonneg hpos) hlen.le).trans hb
  have hll : as.length ≤ D.length := by
    have h1 := congrArg List.length has
    rw [List.length_map] at h1
    rw [← h1]
    refine (List.length_filter_le _ _).trans ?_
    simp [rowErrors]
  refine ⟨⟨as, has, hsum⟩, fun e he => ?_, fun hno => ⟨as, ?_, hsum⟩⟩
  · by_cases hn : e = .nan
    · exact .inl hn
    · have : e ∈ (rowErrors rnd D r).filter fun x => !isNaN x :=
        List.mem_filter.2 ⟨he, by cases e <;> simp_all [isNaN]⟩
      rw [has] at this
      obtain ⟨a, ha, rfl⟩ := List.mem_map.1 this
      refine .inr ⟨a, rfl, hpos a ha, (le_sum hpos ha).trans (hsum.trans ?_)⟩
      exact mul_le_mul_of_nonneg_left (by exact_mod_cast hll) hb0
  · rw [← has, List.filter_eq_self.2]
    intro e he
    have := hno e he
    cases e <;> simp_all [isNaN]

/-- **C164**, the run: whatever the breeder makes of the programs, if the run ends before its last generation then in every
row the output of the best program is within `threshold` times the number of rows of the target, or gives NaN; if it never gives
NaN, then its mean absolute error is at most the threshold. -/
theorem C164_run_partial {c : GP.Cfg} (hex : Example c) {R : Rule} {maxGen : Nat} {pop : Nat → List Scored} {prog : Nat → GP.Ind} {thr : ℚ} {o : Outcome}
    (hl : ∀ k, GP.Legal c (prog k))
    (hs : ∀ g, ∀ i ∈ pop g, ∃ s, evaluate rnd lit D (prog i.name) = .ok s ∧ Same i.score s)
    (h : R.evolve maxGen pop (met 0 thr) = .ok o) (hf : o.final ≠ none) :
    ∃ r, run rnd lit D (prog o.best.name) = .ok r ∧
      (∀ e ∈ rowErrors rnd D r, e = .nan ∨ Within (thr * D.length) e) ∧
      ((∀ e ∈ rowErrors rnd D r, e ≠ .nan) → MeanWithin thr (rowErrors rnd D r)) := by
  obtain ⟨-, x, hx, hle⟩ := C162_found h hf
  obtain ⟨⟨g, -, hg⟩, -⟩ := C162_partial h
  obtain ⟨s, he, hsame⟩ := hs g _ hg
  obtain ⟨r, s', hr, he', -, key⟩ := C164_score_partial (rnd := rnd) (lit := lit) (D := D) hex (hl o.best.name)
  obtain rfl : s = s' := Except.ok.inj (he.symm.trans he')
  rw [hx] at hsame
  cases s with
  | fin m =>
    have hm : (x : ℝ) = m := hsame
    have : m ≤ (thr : ℝ) := by
      rw [← hm]
      have : x ≤ thr := by rw [sub_zero] at hle; exact (le_abs_self x).trans hle
      exact_mod_cast this
    exact ⟨r, hr, (key m _ rfl this).2⟩
  | posInf => exact hsame.elim
  | negInf => exact hsame.elim
  | nan => exact hsame.elim

/-! ## A program that is right in one row of two hundred -/

/-- Floats that do not round, but overflow at `2 ^ 1024`. -/
noncomputable def overflow (x : ℝ) : Num :=
  if x < 2 ^ 1024 then (if -2 ^ 1024 < x then .fin x else .negInf) else .posInf

/-- `x` to the power of `2 ^ k`, with `f_mul`. -/
def power : Nat → GP.Prog
  | 0 => .term varX none
  | k + 1 => .app (fn 1) [power k, power k]

/-- `f_sub(power, power)` -/
def useless (k : Nat) : GP.Prog := .app (fn 2) [power k, power k]

theorem power_ok : ∀ k, (power k).Ok
  | 0 => by simp [power, GP.Prog.Ok]
  | k + 1 => by
    have := power_ok k
    simp [power, GP.Prog.Ok, GP.Prog.OkAll, this, fn, ops, Op.arity]

theorem power_fns : ∀ k, ∀ f ∈ (power k).fns, f = fn 1
  | 0, f, h => by simp [power, GP.Prog.fns] at h
  | k + 1, f, h => by
    have := power_fns k
    simp only [power, GP.Prog.fns, GP.Prog.fnsAll, List.mem_cons, List.mem_append] at h
    rcases h with h | h | h | h
    · exact h
    · exact this f h
    · exact this f h
    · cases h

/-- The individual with the program. -/
def individual (p : GP.Prog) : GP.Ind := ⟨gpCfg, p.flatten⟩

theorem useless_legal (k : Nat) : GP.Legal gpCfg (individual (useless k)) := by
  refine ⟨rfl, useless k, rfl, ?_, fun f hf => ?_⟩
  · simp [useless, GP.Prog.Ok, GP.Prog.OkAll, power_ok, fn, ops, Op.arity]
  · simp only [useless, GP.Prog.fns, GP.Prog.fnsAll, List.mem_cons, List.mem_append] at hf
    have h1 : fn 1 ∈ gpCfg.functionSet := List.mem_map.2 ⟨1, by decide, rfl⟩
    have h2 : fn 2 ∈ gpCfg.functionSet := List.mem_map.2 ⟨2, by decide, rfl⟩
    rcases hf with h | h | h | h
    · exact h ▸ h2
    · exact power_fns k f h ▸ h1
    · exact power_fns k f h ▸ h1
    · cases h

/-- What a program of the example computes at one point, when it is made of variables and functions of two arguments. -/
theorem map2_points (f : Num → Num → Num) (u v : Point → Num) :
    map2 f (.vec (D.map u)) (.vec (D.map v)) = .ok (.vec (D.map fun p => f (u p) (v p))) := by
  have hu : Of D.length (.vec (D.map u) : Arr Num) := .inr (by simp [Arr.shape])
  have hv : Of D.length (.vec (D.map v) : Arr Num) := .inr (by simp [Arr.shape])
  obtain ⟨d, hd, gd⟩ := map2_gives f hu hv
  rw [hd]
  have hs : d.shape = some D.length := by rw [gd.shape]; simp [Arr.shape]
  cases d with
  | scalar x => cases hs
  | vec xs =>
    have hl : xs.length = D.length := Option.some.inj hs
    congr 2
    refine List.ext_getElem (by simpa using hl) fun k hk hk' => ?_
    have hkD : k < D.length := by omega
    have e := gd.item k (by rintro m ⟨⟩; exact hk)
    rw [item_output (.inr hs) hkD, item_output hu hkD, item_output hv hkD] at e
    simp only [outputAt, List.getD, List.getElem?_map, List.getElem?_eq_getElem hk, List.getElem?_eq_getElem hkD,
      Option.getD_some, Option.map_some] at e
    rw [e, List.getElem_map]

theorem run_denote {p : GP.Prog} (hok : p.Ok) : run rnd lit D (individual p) =
    p.denote (fun f => (opOf f).call rnd) (GP.leafVal (fun v => .scalar (lit v)) (GP.kwFun (kwargs D))) := by
  unfold run individual
  refine (GP.C14_execute_kwargs_partial _ _ gpCfg p hok (kwargs D)).1 ⟨?_, ?_⟩
  · intro kx hkx
    rcases mem_three hkx with rfl | rfl | rfl
    · exact ⟨(varX, none), by simp [gpCfg], rfl⟩
    · exact ⟨(varY, none), by simp [gpCfg], rfl⟩
    · exact ⟨(varZ, none), by simp [gpCfg], rfl⟩
  · intro kv hkv
    rcases mem_three hkv with rfl | rfl | rfl
    · exact ⟨_, .head _, rfl⟩
    · exact ⟨_, .tail _ (.head _), rfl⟩
    · exact ⟨_, .tail _ (.tail _ (.head _)), rfl⟩

/-- Repeated squaring of a number. -/
noncomputable def squared (rnd : ℝ → Num) (x : ℝ) : Nat → Num
  | 0 => .fin x
  | k + 1 => Prim.mul rnd (squared rnd x k) (squared rnd x k)

theorem power_denote : ∀ k, (power k).denote (fun f => (opOf f).call rnd)
    (GP.leafVal (fun v => .scalar (lit v)) (GP.kwFun (kwargs D))) = .ok (.vec (D.map fun p => squared rnd p.x k))
  | 0 => rfl
  | k + 1 => by
    simp only [power, GP.Prog.denote, GP.Prog.denoteAll, power_denote k]
    exact map2_points _ _ _

theorem useless_run (k : Nat) : run rnd lit D (individual (useless k)) =
    .ok (.vec (D.map fun p => Prim.sub rnd (squared rnd p.x k) (squared rnd p.x k))) := by
  obtain ⟨-, q, hq, hok, -⟩ := useless_legal k
  rw [run_denote (by simp [useless, GP.Prog.Ok, GP.Prog.OkAll, power_ok, fn, ops, Op.arity])]
  simp only [useless, GP.Prog.denote, GP.Prog.denoteAll, power_denote k]
  exact map2_points _ _ _

theorem squared_zero : ∀ k, squared overflow 0 k = .fin 0
  | 0 => rfl
  | k + 1 => by
    rw [squared, squared_zero k]
    simp [Prim.mul, overflow]

theorem squared_big : ∀ k, squared overflow 99 k = if (99 : ℝ) ^ 2 ^ k < 2 ^ 1024 then .fin (99 ^ 2 ^ k) else .posInf
  | 0 => by
    have : (99 : ℝ) ^ 2 ^ 0 < 2 ^ 1024 := by
      rw [pow_zero, pow_one]
      exact lt_of_lt_of_le (by norm_num : (99 : ℝ) < 2 ^ 7) (pow_le_pow_right₀ (by norm_num) (by norm_num))
    rw [if_pos this, squared, pow_zero, pow_one]
  | k + 1 => by
    have e : (99 : ℝ) ^ 2 ^ (k + 1) = 99 ^ 2 ^ k * 99 ^ 2 ^ k := by rw [← pow_add, pow_succ, mul_two]
    have h1 : (1 : ℝ) ≤ 99 ^ 2 ^ k := one_le_pow₀ (by norm_num)
    rw [squared, squared_big k]
    by_cases h : (99 : ℝ) ^ 2 ^ k < 2 ^ 1024
    · rw [if_pos h, e]
      simp only [Prim.mul, overflow]
      have hneg : (-2 ^ 1024 : ℝ) < 99 ^ 2 ^ k * 99 ^ 2 ^ k := by
        have : (0 : ℝ) < 99 ^ 2 ^ k * 99 ^ 2 ^ k := by positivity
        have h' : (-2 ^ 1024 : ℝ) < 0 := by norm_num
        exact h'.trans this
      simp only [hneg, if_true]
    · rw [if_neg h, e, if_neg]
      · rfl
      · rw [not_lt] at h ⊢
        exact h.trans (le_mul_of_one_le_left (by positivity) h1)

theorem useless_zero : Prim.sub overflow (squared overflow 0 8) (squared overflow 0 8) = .fin 0 := by
  rw [squared_zero]
  simp [Prim.sub, Prim.neg, Prim.add, overflow]

theorem useless_big : Prim.sub overflow (squared overflow 99 8) (squared overflow 99 8) = .nan := by
  have h : (2 : ℝ) ^ 1024 ≤ 99 ^ 2 ^ 8 := by
    have e : (2 : ℝ) ^ 1024 = (2 ^ 4) ^ 256 := by rw [← pow_mul]
    rw [e]
    exact pow_le_pow_left₀ (by norm_num) (by norm_num) 256
  rw [squared_big, if_neg (not_lt.2 h)]
  rfl

/-- A row at the origin and `n` rows at (99, 0, 0). -/
def rows (n : Nat) : List Point := ⟨0, 0, 0⟩ :: List.replicate n ⟨99, 0, 0⟩

theorem target_zero : target overflow ⟨0, 0, 0⟩ = .fin 0 := by simp [target, Prim.add, Prim.mul, overflow]

theorem useless_errors (n : Nat) : rowErrors overflow (rows n) (.vec ((rows n).map fun p =>
    Prim.sub overflow (squared overflow p.x 8) (squared overflow p.x 8))) = .fin 0 :: List.replicate n .nan := by
  refine List.ext_getElem (by simp [rowErrors, rows]) fun k hk hk' => ?_
  have hk2 : k < n + 1 := by simpa [rowErrors, rows] using hk
  have hkD : k < (rows n).length := by simpa [rows] using hk2
  simp only [rowErrors, List.getElem_map, List.getElem_zipIdx, Nat.zero_add, outputAt, List.getD, List.getElem?_map,
    List.getElem?_eq_getElem hkD, Option.map_some, Option.getD_some]
  cases k with
  | zero =>
    have e : (rows n)[0] = ⟨0, 0, 0⟩ := rfl
    rw [e, List.getElem_cons_zero]
    show errorAt overflow _ (Prim.sub overflow (squared overflow 0 8) (squared overflow 0 8)) = _
    rw [useless_zero, errorAt, target_zero]
    simp [Prim.sub, Prim.neg, Prim.add, overflow, Prim.abs]
  | succ k =>
    have e : (rows n)[k + 1] = ⟨99, 0, 0⟩ := by simp [rows]
    rw [e, List.getElem_cons_succ, List.getElem_replicate]
    show errorAt overflow _ (Prim.sub overflow (squared overflow 99 8) (squared overflow 99 8)) = _
    rw [useless_big]
    rfl

/-- It has the best possible score. -/
theorem useless_score (n : Nat) : evaluate overflow lit (rows n) (individual (useless 8)) = .ok (.fin 0) := by
  have ho : Of (rows n).length (.vec ((rows n).map fun p => Prim.sub overflow (squared overflow p.x 8) (squared overflow p.x 8)) : Arr Num) :=
    .inr (by simp [Arr.shape])
  unfold evaluate
  rw [useless_run]
  dsimp only
  rw [errors_eq ho, useless_errors]
  have e : (Num.fin 0 :: List.replicate n .nan).filter (fun x => !isNaN x) = [Num.fin 0] := by
    simp [isNaN]
  have : seriesMean (.fin 0 :: List.replicate n .nan) = .fin 0 := by
    unfold seriesMean
    simp only [e]
    simp [isFin, realOf]
  show Except.ok (seriesMean _) = _
  rw [this]

/-- What users rely on: a run that ends early ends with a program whose mean absolute error on the data is at most the
threshold. -/
def FindsTarget : Prop :=
  ∀ (rnd : ℝ → Num) (lit : GP.Val → Num) (D : List Point) (R : Rule) (maxGen : Nat) (pop : Nat → List Scored)
    (prog : Nat → GP.Ind) (thr : ℚ) (o : Outcome), (∀ k, GP.Legal gpCfg (prog k)) →
    (∀ g, ∀ i ∈ pop g, ∃ s, evaluate rnd lit D (prog i.name) = .ok s ∧ Same i.score s) →
    R.evolve maxGen pop (met 0 thr) = .ok o → o.final ≠ none →
    ∃ r, run rnd lit D (prog o.best.name) = .ok r ∧ MeanWithin thr (rowErrors rnd D r)

/-- **C164** is false of the code: a program with NaN in 199 of 200 rows and the right output in the other has the best
possible score and ends the run. -/
theorem C164_refuted : ¬ FindsTarget := by
  intro h
  have e : (⟨false, 1 / 10000⟩ : Rule).evolve 40 (fun _ => [⟨0, .num 0, 1023⟩]) (met 0 (1 / 1000)) = .ok ⟨⟨0, .num 0, 1023⟩, 0, some 0⟩ := by
    decide +kernel
  obtain ⟨r, hr, as, has, -⟩ := h overflow (fun _ => .fin 0) (rows 199) ⟨false, 1 / 10000⟩ 40 (fun _ => [⟨0, .num 0, 1023⟩])
    (fun _ => individual (useless 8)) (1 / 1000) _ (fun _ => useless_legal 8)
    (fun g i hi => ⟨.fin 0, useless_score 199, by rw [List.mem_singleton.1 hi]; exact Rat.cast_zero⟩) e (by simp)
  obtain rfl := Except.ok.inj ((useless_run (rnd := overflow) 8).symm.trans hr)
  rw [useless_errors] at has
  have : Num.nan ∈ as.map Num.fin := has ▸ .tail _ (List.mem_replicate.2 ⟨by decide, rfl⟩)
  obtain ⟨_, _, h⟩ := List.mem_map.1 this
  cases h

/-! ## The program in the documentation -/

/-- The optimal tree of the documentation of the example — symbolic_regression.py:90-101. -/
def best : GP.Prog :=
  .app (fn 0) [.app (fn 0) [.app (fn 0) [.app (fn 0) [.term varY none, .term varZ none], .term varX none], .term varZ none],
    .app (fn 0) [.term varY none, .term varZ none]]

theorem best_ok : best.Ok := by simp [best, GP.Prog.Ok, GP.Prog.OkAll, fn, ops, Op.arity]

theorem best_legal : GP.Legal gpCfg (individual best) := by
  refine ⟨rfl, best, rfl, best_ok, fun f hf => ?_⟩
  have : f = fn 0 := by simpa [best, GP.Prog.fns, GP.Prog.fnsAll] using hf
  exact this ▸ List.mem_map.2 ⟨0, by decide, rfl⟩

theorem best_run : run .fin lit D (individual best) = .ok (.vec (D.map fun p => .fin (p.x + 2 * p.y + 3 * p.z))) := by
  rw [run_denote best_ok]
  have hx : GP.leafVal (fun v => .scalar (lit v)) (GP.kwFun (kwargs D)) varX = .vec (D.map fun p => .fin p.x) := rfl
  have hy : GP.leafVal (fun v => .scalar (lit v)) (GP.kwFun (kwargs D)) varY = .vec (D.map fun p => .fin p.y) := rfl
  have hz : GP.leafVal (fun v => .scalar (lit v)) (GP.kwFun (kwargs D)) varZ = .vec (D.map fun p => .fin p.z) := rfl
  have ha : ∀ u v : Point → ℝ, (opOf (fn 0)).call .fin [.vec (D.map fun p => .fin (u p)), .vec (D.map fun p => .fin (v p))] =
      .ok (.vec (D.map fun p => .fin (u p + v p))) := fun u v => map2_points _ _ _
  simp only [best, GP.Prog.denote, GP.Prog.denoteAll, hx, hy, hz, bind, Except.bind, ha]
  congr 3
  funext p
  congr 1
  ring

/-- Its score is 0 as long as nothing is rounded, on every data frame with a row. -/
theorem C164_optimum (hD : D ≠ []) : evaluate .fin lit D (individual best) = .ok (.fin 0) := by
  have ho : Of D.length (.vec (D.map fun p => .fin (p.x + 2 * p.y + 3 * p.z)) : Arr Num) := .inr (by simp [Arr.shape])
  unfold evaluate
  rw [best_run]
  dsimp only
  rw [errors_eq ho]
  have he : rowErrors .fin D (.vec (D.map fun p => .fin (p.x + 2 * p.y + 3 * p.z))) = (D.map fun _ => (0 : ℝ)).map Num.fin := by
    refine List.ext_getElem (by simp [rowErrors]) fun k hk hk' => ?_
    have hkD : k < D.length := by simpa [rowErrors] using hk
    simp only [rowErrors, List.getElem_map, List.getElem_zipIdx, Nat.zero_add, outputAt, List.getD, List.getElem?_map,
      List.getElem?_eq_getElem hkD, Option.map_some, Option.getD_some, errorAt, target, Prim.add, Prim.mul, Prim.sub, Prim.neg,
      Prim.abs]
    congr 1
    rw [abs_eq_zero]
    ring
  rw [he]
  show Except.ok (seriesMean _) = _
  congr 1
  refine ((seriesMean_spec fun e he => ?_).2.2.2 0).2 ⟨?_, D.map fun _ => 0, ?_, by simp⟩
  · obtain ⟨a, ha, rfl⟩ := List.mem_map.1 he
    obtain ⟨_, _, rfl⟩ := List.mem_map.1 ha
    exact .inr (.inr ⟨0, rfl, le_rfl⟩)
  · rw [List.filter_eq_self.2 (fun e he => by obtain ⟨a, _, rfl⟩ := List.mem_map.1 he; rfl)]
    simpa using hD
  · exact List.filter_eq_self.2 (fun e he => by obtain ⟨a, _, rfl⟩ := List.mem_map.1 he; rfl)

/-! ## Examples -/

example := C164_score_partial (rnd := overflow) (lit := fun _ => .fin 0) (D := rows 199) (.inl rfl) (useless_legal 8)

/-- `sub2floats(max2floats(x, y), inv_float(z))`, a tree of the typed example. -/
def typedTree : GP.Prog :=
  .app (typedFn 2) [.app (typedFn 7) [.term varX (some .float), .term varY (some .float)], .app (typedFn 9) [.term varZ (some .float)]]

theorem typedTree_legal : GP.Legal typedCfg ⟨typedCfg, typedTree.flatten⟩ := by
  refine ⟨rfl, typedTree, rfl, by simp [typedTree, GP.Prog.Ok, GP.Prog.OkAll, typedFn, ops, Op.arity], fun f hf => ?_⟩
  have : f = typedFn 2 ∨ f = typedFn 7 ∨ f = typedFn 9 := by simpa [typedTree, GP.Prog.fns, GP.Prog.fnsAll] using hf
  rcases this with rfl | rfl | rfl
  · exact List.mem_map.2 ⟨2, by decide, rfl⟩
  · exact List.mem_map.2 ⟨7, by decide, rfl⟩
  · exact List.mem_map.2 ⟨9, by decide, rfl⟩

example := C164_score_partial (rnd := overflow) (lit := fun _ => .fin 0) (D := rows 199) (.inr rfl) typedTree_legal

/-- A run that ends in generation 0 with the program of the documentation. -/
example : ∃ r, run .fin (fun _ => .fin 0) (rows 199) (individual best) = .ok r ∧
    (∀ e ∈ rowErrors .fin (rows 199) r, e = .nan ∨ Within ((1 / 1000 : ℚ) * (rows 199).length) e) := by
  have e : (⟨false, 1 / 10000⟩ : Rule).evolve 40 (fun _ => [⟨0, .num 0, 11⟩]) (met 0 (1 / 1000)) = .ok ⟨⟨0, .num 0, 11⟩, 0, some 0⟩ := by
    decide +kernel
  obtain ⟨r, h1, h2, -⟩ := C164_run_partial (rnd := .fin) (lit := fun _ => .fin 0) (D := rows 199) (prog := fun _ => individual best)
    (.inl rfl) (fun _ => best_legal)
    (fun g i hi => ⟨.fin 0, C164_optimum (by simp [rows]), by rw [List.mem_singleton.1 hi]; exact Rat.cast_zero⟩) e (by simp)
  exact ⟨r, h1, h2⟩

end Verif.SymReg
