import Verif.Props.Recombination
import Verif.Props.Positions
import Verif.Props.GPTree
import Verif.Spec.Deepening
import Verif.Lemmas.Stages

/-! # C110: the maximal depth given to the creator bounds the trees of a run -/

namespace Verif.GP
open PyM Verif.Evo
variable {κ : Type} {cfg : GP.Cfg}

theorem Prog.leafDepths_ne (p : Prog) : p.leafDepths ≠ [] := by
  induction p using Prog.ind with
  | hterm v ty => simp [Prog.leafDepths]
  | happ f args ih =>
    cases args with
    | nil => simp [Prog.leafDepths]
    | cons a as =>
      have := ih a (by simp)
      simp [Prog.leafDepths, Prog.leafDepthsAll, this]

/-- Putting a program of depth `B` into a program of depth `A` makes a program of depth at most `A + B`. -/
theorem Ctx.fill_depth (c : Ctx) {q r : Prog} {A B : Nat} (hq : ∀ d ∈ (c.fill q).leafDepths, d ≤ A)
    (hr : ∀ d ∈ r.leafDepths, d ≤ B) : ∀ d ∈ (c.fill r).leafDepths, d ≤ A + B := by
  induction c generalizing A with
  | hole => exact fun d hd => (hr d hd).trans (by omega)
  | app f l c rt ih =>
    intro d hd
    have hne : ∀ x, l ++ [x] ++ rt ≠ [] := by simp
    simp only [Ctx.fill, Prog.leafDepths, if_neg (hne _), List.mem_map, Prog.mem_leafDepthsAll] at hq hd
    obtain ⟨e, ⟨p, hp, he⟩, rfl⟩ := hd
    simp only [List.append_assoc, List.cons_append, List.nil_append, List.mem_append, List.mem_cons] at hp
    rcases hp with hp | rfl | hp
    · have := hq (e + 1) ⟨e, ⟨p, by simp [hp], he⟩, rfl⟩
      omega
    · have hle : ∀ x ∈ (c.fill q).leafDepths, x + 1 ≤ A := fun x hx => hq (x + 1) ⟨x, ⟨c.fill q, by simp, hx⟩, rfl⟩
      obtain ⟨x, hx⟩ := List.exists_mem_of_ne_nil _ (c.fill q).leafDepths_ne
      have h0 := hle x hx
      have := ih (A := A - 1) (fun x hx => by have := hle x hx; omega) e he
      omega
    · have := hq (e + 1) ⟨e, ⟨p, by simp [hp], he⟩, rfl⟩
      omega

/-- What is cut out of a program is no deeper than the program. -/
theorem Ctx.cut_depth (c : Ctx) {q : Prog} {A : Nat} (hq : ∀ d ∈ (c.fill q).leafDepths, d ≤ A) :
    ∀ d ∈ q.leafDepths, d ≤ A := by
  induction c generalizing A with
  | hole => exact hq
  | app f l c rt ih =>
    have hne : ∀ x, l ++ [x] ++ rt ≠ [] := by simp
    simp only [Ctx.fill, Prog.leafDepths, if_neg (hne _), List.mem_map, Prog.mem_leafDepthsAll] at hq
    refine ih fun x hx => ?_
    have := hq (x + 1) ⟨x, ⟨c.fill q, by simp, hx⟩, rfl⟩
    omega

theorem Within.mono {A B : Nat} (h : A ≤ B) {i : GP.Ind} (hi : Within cfg A i) : Within cfg B i :=
  ⟨hi.1, fun p hp e d hd => (hi.2 p hp e d hd).trans h⟩

theorem within_of {B : Nat} {i : GP.Ind} (hl : Legal cfg i) {p : Prog} (hp : p.Ok) (e : i.tree = p.flatten)
    (hd : ∀ d ∈ p.leafDepths, d ≤ B) : Within cfg B i :=
  ⟨hl, fun q hq e' => by rw [Prog.flatten_injective hq hp (e'.symm.trans e)]; exact hd⟩

/-- The programs of the individuals, with their depths. -/
theorem within_programs {B : Nat} {inds : List GP.Ind} (h : ∀ i ∈ inds, Within cfg B i) :
    ∃ ps, List.Forall₂ Represents inds ps ∧ ∀ p ∈ ps, p.Ok ∧ ∀ d ∈ p.leafDepths, d ≤ B := by
  obtain ⟨ps, hps⟩ := legal_programs fun i hi => (h i hi).1
  refine ⟨ps, hps, fun p hp => ?_⟩
  obtain ⟨k, hk, rfl⟩ := List.getElem_of_mem hp
  have hk' : k < inds.length := by rw [hps.length_eq]; exact hk
  have := hps.get hk' hk
  simp only [List.get_eq_getElem] at this
  exact ⟨this.2.1, (h _ (List.getElem_mem hk')).2 _ this.2.1 this.1⟩

theorem crossover_deepens {B : Nat} (arity attempts : Nat) {inds : List GP.Ind} (h : ∀ i ∈ inds, Within cfg B i) :
    Post (subtreeCrossover arity attempts inds) fun out => ∀ i ∈ out, Within cfg (2 * B) i := by
  obtain ⟨ps, hps, hd⟩ := within_programs h
  refine ((crossover_keeps_legal arity attempts fun i hi => (h i hi).1).and (crossover_post hps arity attempts)).mono ?_
  rintro out ⟨hl, rfl | ⟨tr, x0, tl, ps', hex, -, rfl, -⟩⟩ i hi
  · exact (h i hi).mono (by omega)
  · have := hl i hi
    obtain ⟨k, hk, rfl⟩ := List.getElem_of_mem hi
    simp only [List.length_zipWith] at hk
    have hk' : k < ps'.length := by omega
    obtain ⟨x, hx, y, hy, hxy⟩ := exchange_mem hex ps'[k] (List.getElem_mem hk')
    obtain ⟨h1, h2⟩ := hd (x.1.fill x.2) (by rw [hex.1]; exact List.mem_map.2 ⟨x, hx, rfl⟩)
    obtain ⟨h3, h4⟩ := hd (y.1.fill y.2) (by rw [hex.1]; exact List.mem_map.2 ⟨y, hy, rfl⟩)
    refine within_of this (p := ps'[k]) ?_ (by simp) ?_
    · rw [hxy]; exact Ctx.fill_ok h1 (Ctx.ok_of_fill h3)
    · rw [hxy, Nat.two_mul]; exact x.1.fill_depth h2 (y.1.cut_depth h4)

theorem mutation_deepens {B : Nat} (lo hi attempts : Nat) {inds : List GP.Ind} (h : ∀ i ∈ inds, Within cfg B i) :
    Post (subtreeMutation lo hi attempts inds) fun out => ∀ i ∈ out, Within cfg (B + max lo hi) i := by
  obtain ⟨ps, hps, hd⟩ := within_programs h
  refine ((mutation_keeps_legal lo hi attempts fun i hi => (h i hi).1).and (mutation_legal_post hps lo hi attempts)).mono ?_
  rintro out ⟨hl, rfl | hm, -⟩ i hi
  · exact (h i hi).mono (by omega)
  · have hleg := hl i hi
    obtain ⟨k, hk, rfl⟩ := List.getElem_of_mem hi
    have hk' := hm.length_eq ▸ hk
    obtain ⟨C, q, r, e, e', hok, -, hw, -⟩ := hm.get hk' hk
    simp only [List.get_eq_getElem, List.getElem_zip] at e e'
    have hkp : k < ps.length := by simp at hk'; omega
    obtain ⟨h1, h2⟩ := hd ps[k] (List.getElem_mem hkp)
    rw [e] at h1 h2
    exact within_of hleg (Ctx.fill_ok h1 hok) (by rw [e']) (C.fill_depth h2 fun d hd => (hw d hd).2)

theorem erc_keeps_depth {B : Nat} (mu sigma : ℚ) {inds : List GP.Ind} (h : ∀ i ∈ inds, Within cfg B i) :
    Post (ercMutation mu sigma inds) fun out => ∀ i ∈ out, Within cfg B i := by
  obtain ⟨ps, hps, hd⟩ := within_programs h
  refine ((erc_keeps_legal mu sigma fun i hi => (h i hi).1).and (erc_post hps mu sigma)).mono ?_
  rintro out ⟨hl, rfl | hm⟩ i hi
  · exact h i hi
  · have hleg := hl i hi
    obtain ⟨k, hk, rfl⟩ := List.getElem_of_mem hi
    have hk' := hm.length_eq ▸ hk
    have h1 := hm.get hk' hk
    have hkp : k < ps.length := by simp at hk'; omega
    have hki : k < inds.length := by simp at hk'; omega
    simp only [List.get_eq_getElem, List.getElem_zip] at h1
    have hrep := hps.get hki hkp
    simp only [List.get_eq_getElem] at hrep
    obtain ⟨p', -, -, hr', e, -⟩ := C09_shape _ _ _ hrep h1
    exact within_of hleg hr'.2.1 hr'.1 (e ▸ (hd ps[k] (List.getElem_mem hkp)).2)

/-- The operators lead from one depth to the next. -/
theorem Deepen.leads {os : List (Op GP.Ind)} {f : Nat → Nat} (h : Deepen os f) (B : Nat) :
    Leads os (Within cfg B) (Within cfg (f B)) := by
  have aux : ∀ {A C : Nat} (g : List GP.Ind → Rand (List GP.Ind)),
      (∀ gs, (∀ i ∈ gs, Within cfg A i) → Post (g gs) fun out => ∀ i ∈ out, Within cfg C i) →
      ∀ gs, (∀ i ∈ gs, Within cfg A i) → Post (do let out ← g gs; pure (some out)) fun res =>
        ∀ gs', res = some gs' → ∀ i ∈ gs', Within cfg C i := by
    intro A C g hg gs hgs
    exact Post.bind (hg gs hgs) fun out ho => Post.pure (by rintro _ ⟨⟩; exact ho)
  induction h generalizing B with
  | nil => exact .nil
  | crossover p a n _ ih =>
    have hm : ∀ i, Within cfg B i → Within cfg (2 * B) i := fun i h => h.mono (by omega)
    exact .cons (Op.inPlace_takes _ _ _ hm (aux _ fun _ => crossover_deepens a n)) hm (ih (2 * B))
  | mutation p lo hi n _ ih =>
    have hm : ∀ i, Within cfg B i → Within cfg (B + max lo hi) i := fun i h => h.mono (by omega)
    exact .cons (Op.inPlace_takes _ _ _ hm (aux _ fun _ => mutation_deepens lo hi n)) hm (ih (B + max lo hi))
  | erc p a mu sigma _ ih =>
    exact .cons (Op.inPlace_takes _ _ _ (fun _ h => h) (aux _ fun _ => erc_keeps_depth mu sigma)) (fun _ h => h) (ih B)

theorem Deepen.good {os : List (Op GP.Ind)} {f : Nat → Nat} (h : Deepen os f) : ∀ o ∈ os, LibOp o := by
  induction h with
  | nil => simp
  | crossover p a n _ ih => simpa using ⟨.crossover p a n, ih⟩
  | mutation p lo hi n _ ih => simpa using ⟨.mutation p lo hi n, ih⟩
  | erc p a mu sigma _ ih => simpa using ⟨.erc p a mu sigma, ih⟩

theorem CreatesTo.lib {m : Mode} {D : Nat} {create : Nat → Bool → WM GP.Ind (List Nat)} (h : CreatesTo cfg m D create) :
    LibCreator cfg m create := by
  cases h with
  | full d fit up hf => exact .full d fit up hf
  | grow q lo hi fit up hf => exact .grow q lo hi fit up hf
  | half q lo hi fit up hf => exact .half q lo hi fit up hf

theorem within_creates {D lo hi : Nat} (hD : hi ≤ D) {create : Option Ty → Rand (List Node)} {τ : Option Ty}
    (h : Post (create τ) fun l => ∃ p : Prog, l = p.flatten ∧ Created cfg (fun _ => False) lo hi p τ) :
    Post (do let t ← create τ; pure (⟨cfg, t⟩ : GP.Ind)) (Within cfg D) :=
  Post.bind h fun _ ⟨p, hp, hc⟩ => Post.pure (within_of ⟨rfl, p, hp, hc.ok, fun f hf => (hc.built.1 f hf).1⟩ hc.ok hp
    fun d hd => (hc.upper d hd).trans hD)

theorem CreatesTo.makes {m : Mode} {D : Nat} {create : Nat → Bool → WM GP.Ind (List Nat)} (h : CreatesTo cfg m D create) :
    Makes (Within cfg D) create := by
  have hfull : ∀ d fit up, d ≤ D → Makes (Within cfg D) (fullCreator cfg d fit up) := fun d fit up hd =>
    createIndividuals_makes' _ _ _ (within_creates hd (fullTree_post cfg _ d _))
  have hgrow : ∀ q lo hi fit up, lo ≤ D → hi ≤ D → Makes (Within cfg D) (growCreator cfg q lo hi fit up) :=
    fun q lo hi fit up h1 h2 =>
      createIndividuals_makes' _ _ _ (within_creates (max_le h1 h2) (growTree_post cfg _ q _ lo hi _ rfl))
  cases h with
  | full d fit up _ hd => exact hfull d fit up hd
  | grow q lo hi fit up _ hle hd => exact hgrow q lo hi fit up (hle.trans hd) hd
  | half q lo hi fit up _ hle hd =>
    exact halfCreate_makes_range _ _ (fun d hd' => hgrow q lo d fit up (hle.trans hd) (by omega))
      fun d hd' => hfull d fit up (by omega)

/-- **C110 (partial).** In a run put together from the library's tree creators, with maximal initial depth at most `D`,
and its tree operators, which together turn depth `B` into at most `f B`: in generation `n` no tree that can be seen —
in the population, as best of the run or of the generation — has a leaf deeper than `f (f (… D))`, `n` times; whatever
the evaluator, selection, checkers and schedule, and however the run ends.  Missing: the bound `D` itself, which fails
as soon as crossover or subtree mutation takes part (`C110_refuted`). -/
theorem C110_depth_partial {c : Evo.Cfg GP.Ind κ} {sub : SubCfg GP.Ind} {m : Mode} {D : Nat} {f : Nat → Nat}
    (h : c.BuiltWith sub m (CreatesTo cfg m D) LibOp) (hd : Deepen sub.ops f) {s : Run GP.Ind κ} (hg : s.genNum = 0)
    (hr : s.Ready m) (hf : s.Starts (Within cfg D)) (r : Except Err Unit) (s' : Run GP.Ind κ)
    (hrun : evolve c s = (r, s')) : ∀ e ∈ s'.log, e.AllHave (Within cfg (f^[e.snap.genNum] D)) := by
  refine evolve_staged (S := fun n => Within cfg (f^[n] D)) (h.ordinary (fun _ h => h.lib.good) fun _ h => h.good)
    (fun create hcr n hib w => ((h.creators create hcr).makes n hib w).mono fun _ _ h => h.2) (fun n => ?_) hg hr hf hrun
  show Leads sub.ops (Within cfg (f^[n] D)) (Within cfg (f^[n + 1] D))
  rw [Function.iterate_succ_apply']
  exact hd.leads _

theorem Within.depth (hn : cfg.NonNullary) {B : Nat} {i : GP.Ind} (h : Within cfg B i) : DepthAtMost B i := by
  obtain ⟨⟨rfl, p, hp⟩, hd⟩ := h
  obtain ⟨d, h1, h2, -⟩ := C02_depth p hp.2.1 fun g hg => hn g (hp.2.2 g hg)
  exact ⟨d, by rw [hp.1]; exact h1, hd p hp.2.1 hp.1 d h2⟩

theorem AllHave.imp {G : Type} {P Q : G → Prop} {e : Event G} (h : e.AllHave P) (hi : ∀ g, P g → Q g) : e.AllHave Q :=
  ⟨fun is his => (h.1 is his).imp hi, fun b hb => (h.2.1 b hb).imp hi, fun b hb => (h.2.2 b hb).imp hi⟩

/-- **C110 (partial), `depth()`.** If no function is nullary, `depth()` of every tree seen in generation `n` returns, and
returns at most the bound of `C110_depth_partial`. -/
theorem C110_depth_method_partial {c : Evo.Cfg GP.Ind κ} {sub : SubCfg GP.Ind} {m : Mode} {D : Nat} {f : Nat → Nat}
    (hn : cfg.NonNullary)
    (h : c.BuiltWith sub m (CreatesTo cfg m D) LibOp) (hd : Deepen sub.ops f) {s : Run GP.Ind κ} (hg : s.genNum = 0)
    (hr : s.Ready m) (hf : s.Starts (Within cfg D)) (r : Except Err Unit) (s' : Run GP.Ind κ)
    (hrun : evolve c s = (r, s')) : ∀ e ∈ s'.log, e.AllHave (DepthAtMost (f^[e.snap.genNum] D)) := fun e he =>
  AllHave.imp (C110_depth_partial h hd hg hr hf r s' hrun e he) fun _ h => h.depth hn

/-- **C110, ERC mutation only.** Without crossover and subtree mutation the maximal initial depth bounds all trees of
the run. -/
theorem C110_erc_only {c : Evo.Cfg GP.Ind κ} {sub : SubCfg GP.Ind} {m : Mode} {D : Nat}
    (h : c.BuiltWith sub m (CreatesTo cfg m D) fun o => ∃ p arity mu sigma, o = ercOp p arity mu sigma)
    {s : Run GP.Ind κ} (hg : s.genNum = 0)
    (hr : s.Ready m) (hf : s.Starts (Within cfg D)) (r : Except Err Unit) (s' : Run GP.Ind κ)
    (hrun : evolve c s = (r, s')) : ∀ e ∈ s'.log, e.AllHave (Within cfg D) := by
  have key : ∀ os : List (Op GP.Ind), (∀ o ∈ os, ∃ p arity mu sigma, o = ercOp p arity mu sigma) → Deepen os id := by
    intro os
    induction os with
    | nil => exact fun _ => .nil
    | cons o os ih =>
      intro ho
      obtain ⟨p, a, mu, sigma, rfl⟩ := ho o (by simp)
      exact .erc p a mu sigma (ih fun o h => ho o (by simp [h]))
  have := C110_depth_partial (c := c) (f := id) ⟨h.subs, h.dir, h.creators, h.sels, fun o ho => by
    obtain ⟨p, a, mu, sigma, rfl⟩ := h.ops o ho
    exact .erc p a mu sigma, h.sched, h.map⟩ (key _ h.ops) hg hr hf r s' hrun
  simpa using this

/-- **C110, crossover only.** With `k` crossover operators, the depth in generation `n` is at most `2 ^ (k * n)` times the
maximal initial depth; so trees that start as single nodes stay single nodes. -/
theorem C110_crossover_partial {c : Evo.Cfg GP.Ind κ} {sub : SubCfg GP.Ind} {m : Mode} {D : Nat}
    (h : c.BuiltWith sub m (CreatesTo cfg m D) fun o => ∃ p arity attempts, o = crossoverOp p arity attempts)
    {s : Run GP.Ind κ} (hg : s.genNum = 0)
    (hr : s.Ready m) (hf : s.Starts (Within cfg D)) (r : Except Err Unit) (s' : Run GP.Ind κ)
    (hrun : evolve c s = (r, s')) :
    ∀ e ∈ s'.log, e.AllHave (Within cfg (2 ^ (sub.ops.length * e.snap.genNum) * D)) := by
  have key : ∀ os : List (Op GP.Ind), (∀ o ∈ os, ∃ p arity attempts, o = crossoverOp p arity attempts) →
      ∃ f, Deepen os f ∧ ∀ B, f B = 2 ^ os.length * B := by
    intro os
    induction os with
    | nil => exact fun _ => ⟨id, .nil, by simp⟩
    | cons o os ih =>
      intro ho
      obtain ⟨p, a, n, rfl⟩ := ho o (by simp)
      obtain ⟨f, hf, e⟩ := ih fun o h => ho o (by simp [h])
      exact ⟨_, .crossover p a n hf, fun B => by rw [e, List.length_cons, Nat.pow_succ, Nat.mul_assoc]⟩
  obtain ⟨f, hd, e⟩ := key _ h.ops
  have hit : ∀ n, f^[n] D = 2 ^ (sub.ops.length * n) * D := by
    intro n
    induction n with
    | zero => simp
    | succ n ih => rw [Function.iterate_succ_apply', ih, e, ← Nat.mul_assoc, ← Nat.pow_add, Nat.mul_succ, Nat.add_comm]
  have := C110_depth_partial (c := c) (f := f) ⟨h.subs, h.dir, h.creators, h.sels, fun o ho => by
    obtain ⟨p, a, n, rfl⟩ := h.ops o ho
    exact .crossover p a n, h.sched, h.map⟩ hd hg hr hf r s' hrun
  intro ev hev
  rw [← hit]
  exact this ev hev

/-! ## The bound for one crossover is attained -/

/-- The function `g` applied `n` times to the terminal. -/
def tower (g : Fn) (v : Val) : Nat → Prog
  | 0 => .term v none
  | n + 1 => .app g [tower g v n]

/-- The context of the terminal in the tower. -/
def towerCtx (g : Fn) : Nat → Ctx
  | 0 => .hole
  | n + 1 => .app g [] (towerCtx g n) []

theorem towerCtx_fill (g : Fn) (v : Val) (n k : Nat) : (towerCtx g n).fill (tower g v k) = tower g v (n + k) := by
  induction n with
  | zero => simp [towerCtx, Ctx.fill]
  | succ n ih => rw [Nat.succ_add]; simp [towerCtx, Ctx.fill, ih, tower]

theorem tower_represents {g : Fn} (hg : g.params = [none]) (hm : g ∈ cfg.functionSet) (v : Val) (n : Nat) :
    Represents ⟨cfg, (tower g v n).flatten⟩ (tower g v n) := by
  refine ⟨rfl, ?_, ?_⟩
  · induction n with
    | zero => exact trivial
    | succ n ih => simpa [tower, Prog.Ok, Prog.OkAll, hg] using ih
  · induction n with
    | zero => simp [tower, Prog.fns]
    | succ n ih => simpa [tower, Prog.fns, Prog.fnsAll, hm] using ih

theorem tower_leaf (g : Fn) (v : Val) (n : Nat) : (tower g v n).leafDepths = [n] := by
  induction n with
  | zero => rfl
  | succ n ih => simp [tower, Prog.leafDepths, Prog.leafDepthsAll, ih]

theorem towerCtx_before (g : Fn) (n : Nat) : ∀ x ∈ (towerCtx g n).before, x = .func g := by
  induction n with
  | zero => simp [towerCtx, Ctx.before]
  | succ n ih => simpa [towerCtx, Ctx.before, Prog.flattenAll] using ih

/-- **C110, the bound is sharp.** Over any function set with an untyped unary function, for every `B`: subtree crossover of
two trees of depth `B` can return a tree of depth `2 * B`. -/
theorem C110_doubling {g : Fn} (hg : g.params = [none]) (hret : g.ret = none) (hm : g ∈ cfg.functionSet) (v : Val) (B : Nat) :
    ∃ tape tape', subtreeCrossover 2 1 [⟨cfg, (tower g v B).flatten⟩, ⟨cfg, (tower g v B).flatten⟩] tape =
      (.ok [⟨cfg, (tower g v 0).flatten⟩, ⟨cfg, (tower g v (2 * B)).flatten⟩], tape') ∧
      (tower g v (2 * B)).leafDepths = [2 * B] := by
  have hrep := tower_represents (cfg := cfg) hg hm v B
  have hfill : (towerCtx g B).fill (tower g v 0) = tower g v B := towerCtx_fill g v B 0
  have hhead : ∀ n, ∃ r, (tower g v n).flatten.head? = some r ∧ r.type = none := by
    intro n
    cases n with
    | zero => exact ⟨_, rfl, rfl⟩
    | succ n => exact ⟨.func g, rfl, by simp [Node.type, getFuncTypes_legal (f := g) (.inr ⟨by simp [hg], hret⟩), hret]⟩
  obtain ⟨r, hr, hrt⟩ := hhead B
  have := (C87_crossover_partial [⟨cfg, (tower g v B).flatten⟩, ⟨cfg, (tower g v B).flatten⟩] [tower g v B, tower g v B]
    (by simp) (.cons hrep (.cons hrep .nil)) 1 (by omega)
    [⟨cfg, (tower g v 0).flatten⟩, ⟨cfg, (tower g v (2 * B)).flatten⟩]).2 (.inl
      ⟨[(.hole, tower g v B), (towerCtx g B, tower g v 0)], [tower g v 0, tower g v (2 * B)], ⟨?_, ?_⟩, ⟨?_, r, hr, ?_⟩, ?_⟩)
  · obtain ⟨t, t', h⟩ := this
    exact ⟨t, t', h, tower_leaf _ _ _⟩
  · simp [hfill, Ctx.fill]
  · simp [turn, Ctx.fill, towerCtx_fill, Nat.two_mul]
  · exact ⟨r, r, hr, hr, .inl hrt, by simp [Ctx.before]⟩
  · intro y hy
    simp only [List.mem_singleton] at hy
    subst hy
    refine ⟨.term v none, r, rfl, by rw [hfill]; exact hr, .inl rfl, fun h => ?_⟩
    have := towerCtx_before g B _ h
    simp at this
  · simp

example := C110_doubling (cfg := Sample.cfg) (g := Sample.neg) rfl rfl (by simp [Sample.cfg]) Sample.x 3

/-! ## Examples -/

/-- A sub-population of four full trees of depth one; the larger a tree the better. -/
def deepSub (ops : List (Op GP.Ind)) : SubCfg GP.Ind where
  creators := [fullCreator Sample.cfg 1 (fun h => ⟨.none, false, h, false, true, none⟩) true]
  pick := pure 0
  ops := ops
  sels := [tournament (fun i => i.tree.length) 2 false]
  popSize := 4
  nElite := 0
  hib := true
  evaluate := fun i => pure i.tree.length

def deepCfg (ops : List (Op GP.Ind)) : Evo.Cfg GP.Ind Unit where
  size := fun i => i.tree.length
  subs := [deepSub ops]
  stream := fun seed n => seed + n * n
  maxGen := 2
  checker := .none
  sched := fun _ n => List.range n
  submit := false

theorem deepCfg_built {Ops : Op GP.Ind → Prop} {ops : List (Op GP.Ind)} (h : ∀ o ∈ ops, Ops o) :
    (deepCfg ops).BuiltWith (deepSub ops) ⟨true, none⟩ (CreatesTo Sample.cfg ⟨true, none⟩ 1) Ops where
  subs := rfl
  dir := rfl
  creators := by
    intro create hc
    simp only [deepSub, List.mem_singleton] at hc
    subst hc
    exact .full _ _ _ ⟨rfl, rfl⟩ (Nat.le_refl _)
  sels := ⟨_, _, rfl, tournament_good _ _, tournament_fills _ _⟩
  ops := h
  sched := fun _ _ => List.Perm.refl _
  map := rfl

/-- Does the event show a population with a tree whose `depth()` is more than `B`? -/
def showsDeeper (B : Nat) (e : Event GP.Ind) : Bool :=
  e.snap.inds.any fun o => (o.getD []).any fun r =>
    match e.snap.heap[r]? with
    | some i => match GP.depth i.genome.tree with
      | .ok d => decide (B < d)
      | .error _ => false
    | none => false

theorem showsDeeper_spec {B : Nat} {e : Event GP.Ind} (h : showsDeeper B e = true) : ¬ e.AllHave (DepthAtMost B) := by
  rintro ⟨hp, -⟩
  unfold showsDeeper at h
  simp only [List.any_eq_true] at h
  obtain ⟨o, ho, r, hr, h⟩ := h
  cases o with
  | none => simp at hr
  | some is =>
    obtain ⟨i, hi, d, hd, hle⟩ := hp is ho r hr
    rw [hi] at h
    simp only [hd, decide_eq_true_eq] at h
    omega

/-- The runs with crossover only, with all three operators and with ERC mutation only all return after two
generations; in the first two, trees deeper than the maximal initial depth `1` turn up — with crossover only of depth
`2`, with all three operators of depth `5`. -/
theorem deepRuns :
    (evolve (deepCfg [crossoverOp 1 2 1]) exLibRun).1 = .ok () ∧
    (evolve (deepCfg [crossoverOp 1 2 1]) exLibRun).2.log.any (showsDeeper 1) = true ∧
    (evolve (deepCfg [crossoverOp 1 2 1, mutationOp 1 0 1 1, ercOp 1 1 0 1]) exLibRun).1 = .ok () ∧
    (evolve (deepCfg [crossoverOp 1 2 1, mutationOp 1 0 1 1, ercOp 1 1 0 1]) exLibRun).2.log.any (showsDeeper 4) = true ∧
    (evolve (deepCfg [ercOp 1 1 0 1]) exLibRun).1 = .ok () ∧
    (evolve (deepCfg [ercOp 1 1 0 1]) exLibRun).2.log.length = 14 := by decide +kernel

/-- **C110 is false** of the code: the trees are created with depth one, and crossover alone makes one of depth two. -/
theorem C110_refuted : ∃ (c : Evo.Cfg GP.Ind Unit) (sub : SubCfg GP.Ind) (s s' : Run GP.Ind Unit),
    c.BuiltWith sub ⟨true, none⟩ (CreatesTo Sample.cfg ⟨true, none⟩ 1) LibOp ∧ Sample.cfg.NonNullary ∧ s.genNum = 0 ∧
    s.Ready ⟨true, none⟩ ∧ s.Starts (Within Sample.cfg 1) ∧ evolve c s = (.ok (), s') ∧
    ∃ e ∈ s'.log, ¬ e.AllHave (DepthAtMost 1) := by
  refine ⟨_, _, exLibRun, _, deepCfg_built (ops := [crossoverOp 1 2 1]) ?_, ?_, rfl, .inl rfl,
    ⟨by simp [exLibRun], rfl, rfl, rfl⟩, ran deepRuns.1, ?_⟩
  · intro o ho
    simp only [List.mem_singleton] at ho
    exact ho ▸ .crossover _ _ _
  · intro f hf
    simp only [Sample.cfg, List.mem_cons, List.not_mem_nil, or_false] at hf
    rcases hf with rfl | rfl | rfl <;> simp [Sample.add, Sample.mul, Sample.neg]
  · obtain ⟨e, he, h⟩ := List.any_eq_true.1 deepRuns.2.1
    exact ⟨e, he, showsDeeper_spec h⟩

example := C110_depth_partial (deepCfg_built (ops := [crossoverOp 1 2 1, mutationOp 1 0 1 1, ercOp 1 1 0 1])
    fun o ho => by
      simp only [List.mem_cons, List.not_mem_nil, or_false] at ho
      rcases ho with rfl | rfl | rfl
      · exact .crossover _ _ _
      · exact .mutation _ _ _ _
      · exact .erc _ _ _ _)
  (.crossover _ _ _ (.mutation _ _ _ _ (.erc _ _ _ _ .nil))) (s := exLibRun) rfl (.inl rfl)
  ⟨by simp [exLibRun], rfl, rfl, rfl⟩ (.ok ()) _ (ran deepRuns.2.2.1)

example := C110_depth_method_partial (cfg := Sample.cfg) (fun f hf => by
      simp only [Sample.cfg, List.mem_cons, List.not_mem_nil, or_false] at hf
      rcases hf with rfl | rfl | rfl <;> simp [Sample.add, Sample.mul, Sample.neg])
  (deepCfg_built (ops := [crossoverOp 1 2 1]) fun o ho => by
      simp only [List.mem_singleton] at ho
      exact ho ▸ .crossover _ _ _)
  (.crossover _ _ _ .nil) (s := exLibRun) rfl (.inl rfl)
  ⟨by simp [exLibRun], rfl, rfl, rfl⟩ (.ok ()) _ (ran deepRuns.1)

example := C110_erc_only (deepCfg_built (ops := [ercOp 1 1 0 1]) fun o ho => by
      simp only [List.mem_singleton] at ho
      exact ⟨_, _, _, _, ho⟩) (s := exLibRun) rfl (.inl rfl)
  ⟨by simp [exLibRun], rfl, rfl, rfl⟩ (.ok ()) _ (ran deepRuns.2.2.2.2.1)

example := C110_crossover_partial (deepCfg_built (ops := [crossoverOp 1 2 1]) fun o ho => by
      simp only [List.mem_singleton] at ho
      exact ⟨_, _, _, ho⟩) (s := exLibRun) rfl (.inl rfl)
  ⟨by simp [exLibRun], rfl, rfl, rfl⟩ (.ok ()) _ (ran deepRuns.1)

end Verif.GP
