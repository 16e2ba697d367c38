import Verif.Props.MooShorter

/-! # C166 — who becomes a parent in NSGA-II

`NSGA2Breeder` applies the operators to the whole population and asks the selection method afterwards, to fill a list
that is already twice as long as the population: no tournament is ever held. -/

namespace Verif.Moo
open PyM
variable {G : Type} {c : MCfg G} {s s' : MRun G} {n m : Nat} {ds : List Bool}

/-- The configuration with other selection methods. -/
def MSub.selecting (c : MSub G) (sels : List (MSel G)) : MSub G := { c with sels := sels }

/-- The configuration with other selection methods. -/
def MCfg.selecting (c : MCfg G) (sels : List (MSel G)) : MCfg G := { c with sub := c.sub.selecting sels }

/-- The method adds nothing to a list that is at least as long as the source, if the source has `n` individuals. -/
def MSel.Idle (sel : MSel G) (n : Nat) : Prop :=
  ∀ source dest w, source.length = n → n ≤ dest.length → sel.select source dest w = (.ok dest, w)

/-- A tournament adds nothing to such a list, unless it cannot be held at all. -/
theorem MSel.Idle.tournament (a : Nat) {k n : Nat} {r : Bool} (h : r = true ∨ k ≤ n) : (⟨a, tournamentM k r⟩ : MSel G).Idle n := by
  intro source dest w hs hd
  subst hs
  show tournamentM k r source dest w = _
  have h1 : (!r && decide (source.length < k)) = false := by
    rcases h with rfl | h
    · rfl
    · simp [Nat.not_lt.2 h]
  have h2 : source.length - dest.length = 0 := by omega
  unfold tournamentM
  rw [h1, h2]
  show (_ : Except Err (List Nat) × MWorld G) = _
  simp only [Bool.false_eq_true, if_false]
  show (Except.ok (dest ++ []), _) = _
  rw [List.append_nil]

/-- Two computations that go on alike from wherever the first part ends. -/
theorem bind_congr_wlp {σ α β : Type} {x : PyM σ α} {f g : α → PyM σ β} {t : σ} (h : wlp x (fun a t' => f a t' = g a t') t) :
    (x >>= f) t = (x >>= g) t := by
  show PyM.bind x f t = PyM.bind x g t
  unfold PyM.bind
  cases hx : x t with
  | mk r t' =>
    cases r with
    | error e => rfl
    | ok a => exact h a t' hx

theorem bind_congr_at {σ α β : Type} {x y : PyM σ α} (f : α → PyM σ β) {t : σ} (h : x t = y t) :
    (x >>= f) t = (y >>= f) t := by
  show PyM.bind x f t = PyM.bind y f t
  unfold PyM.bind
  rw [h]

/-- Everything an `NSGA2Breeder` does: (copy the elites, which nobody uses,) copy the population, apply the operators to the
population itself, and forget all fitness values. -/
def doubling (c : MSub G) (inds : List Nat) : MM G (List Nat) := do
  let _ ← eliteStageM c inds
  let old ← mapL cloneM inds
  let new ← applyOps c.ops inds
  forL resetFit (old ++ new)
  PyM.pure (old ++ new)

/-- **C166 (a)** Breeding: the operators are applied to the whole population, in order, and the next generation is the copies
followed by the results, whatever the selection method would have selected. -/
theorem C166_whole_partial {c : MSub G} {sel : MSel G} {rest : List (MSel G)} {inds : List Nat} {w : MWorld G}
    (hsel : c.sels = sel :: rest) (hidle : sel.Idle inds.length) (ho : ∀ o ∈ c.ops, o.Good)
    (hx : Exist w inds) (hn : inds.Nodup) (hd : AllDir m ds w) : nsga2Breed c inds w = doubling c inds w := by
  unfold nsga2Breed doubling
  refine bind_congr_wlp ((eliteStageM_wlp hx hd).mono ?_)
  rintro _ s₁ ⟨h1, h2, -, -, -⟩
  have hx1 : Exist s₁ inds := fun r hr => lt_of_lt_of_le (hx r hr) h1
  unfold createNextGen
  simp only [bind_assoc]
  refine bind_congr_wlp ((clones_wlp hx1 h2).mono ?_)
  rintro old s₂ ⟨c1, c2, c3, c4, c5, -⟩
  refine bind_congr_wlp ((applyOps_herd (inds0 := inds) (b₀ := s₂.next) (n := inds.length) c.ops ho
      ⟨rfl, hn, fun r hr => lt_of_lt_of_le (hx1 r hr) c3, c4, le_refl _, fun r hr => .inl hr⟩).mono ?_)
  rintro new s₃ hh
  refine bind_congr_wlp ((wlp_true _ _).mono ?_)
  rintro _ s₄ -
  rw [hsel]
  exact hidle new (old ++ new) s₄ hh.length (by rw [List.length_append]; omega)

/-! ## Runs -/

/-- Breeding does not depend on the selection methods. -/
theorem breed_selecting {c : MSub G} {sel sel' : MSel G} {rest rest' : List (MSel G)} {inds : List Nat} {w : MWorld G}
    (hsel : c.sels = sel :: rest) (hidle : sel.Idle inds.length) (hidle' : sel'.Idle inds.length) (ho : ∀ o ∈ c.ops, o.Good)
    (hx : Exist w inds) (hn : inds.Nodup) (hd : AllDir m ds w) :
    nsga2Breed (c.selecting (sel' :: rest')) inds w = nsga2Breed c inds w := by
  rw [C166_whole_partial hsel hidle ho hx hn hd,
    C166_whole_partial (c := c.selecting (sel' :: rest')) rfl hidle' ho hx hn hd]
  rfl

theorem mgeneration_selecting {sel sel' : MSel G} {rest rest' : List (MSel G)} (hsel : c.sub.sels = sel :: rest)
    (hidle : sel.Idle n) (hidle' : sel'.Idle n) (hc : c.Good n m ds) (hb : c.nsga2Breeder = true) {inds : List Nat}
    (hp : s.Pop n m ds inds) : mgeneration (c.selecting (sel' :: rest')) s = mgeneration c s := by
  have key : mbreed (c.selecting (sel' :: rest')) s = mbreed c s := by
    unfold mbreed mact
    refine bind_congr_wlp (wlp_mpublish.2 ?_)
    show (mbreedBody (c.selecting (sel' :: rest')) >>= _) _ = (mbreedBody c >>= _) _
    have e : ∀ t : MRun G, t.inds = s.inds → t.w = s.w →
        mbreedBody (c.selecting (sel' :: rest')) t = mbreedBody c t := by
      intro t h1 h2
      unfold mbreedBody
      refine bind_congr_wlp (wlp_individuals.2 ?_)
      intro is his
      obtain rfl : inds = is := by rw [h1, hp.inds] at his; exact Option.some.inj his
      have hb' : (c.selecting (sel' :: rest')).nsga2Breeder = true := hb
      rw [hb, hb', if_pos rfl, if_pos rfl]
      have hw : nsga2Breed (c.selecting (sel' :: rest')).sub inds t.w = nsga2Breed c.sub inds t.w := by
        rw [h2]
        exact breed_selecting hsel (by rw [hp.length]; exact hidle) (by rw [hp.length]; exact hidle') hc.ops
          hp.exist hp.nodup hp.dirs
      have : mworld (nsga2Breed (c.selecting (sel' :: rest')).sub inds) t = mworld (nsga2Breed c.sub inds) t := by
        unfold mworld zoom
        rw [hw]
      exact bind_congr_at _ this
    exact bind_congr_at _ (e _ rfl rfl)
  unfold mgeneration
  exact bind_congr_at _ key

theorem mloop_selecting {sel sel' : MSel G} {rest rest' : List (MSel G)} (hsel : c.sub.sels = sel :: rest)
    (hidle : sel.Idle n) (hidle' : sel'.Idle n) (hc : c.Good n m ds) (hb : c.nsga2Breeder = true) (N : Nat)
    (hi : s.Inv c n m ds) :
    mloop (c.selecting (sel' :: rest')) N (s.genNum + 1) s = mloop c N (s.genNum + 1) s := by
  have hsize : ∀ g, c.size n g = n := fun g => by unfold MCfg.size; rw [hb]; simp
  induction N generalizing s with
  | zero => rfl
  | succ N ih =>
    unfold mloop
    refine bind_congr_wlp (wlp_modify.2 ?_)
    refine bind_congr_wlp (wlp_individuals.2 ?_)
    intro is his
    refine bind_congr_wlp (wlp_get.2 ?_)
    refine bind_congr_wlp ?_
    unfold msetSeed
    refine wlp_modify.2 ?_
    refine bind_congr_wlp (wlp_modify.2 ?_)
    obtain ⟨inds, hp⟩ := hi.pop
    have hp' : s.Pop n m ds inds := by rw [hsize] at hp; exact hp
    set t : MRun G := { s with genNum := s.genNum + 1, genSeed := Evo.nextSeed s.genSeed, w := { s.w with tape := c.stream (Evo.nextSeed s.genSeed) } } with ht
    have hpt : t.Pop (c.size n s.genNum) m ds inds := ⟨hp.inds, hp.length, hp.nodup, hp.exist, hp.dirs⟩
    have hpt' : t.Pop n m ds inds := ⟨hp'.inds, hp'.length, hp'.nodup, hp'.exist, hp'.dirs⟩
    have e : mgeneration (c.selecting (sel' :: rest')) t = mgeneration c t :=
      mgeneration_selecting hsel hidle hidle' hc hb hpt'
    show (mgeneration (c.selecting (sel' :: rest')) >>= _) t = (mgeneration c >>= _) t
    have e2 : ∀ f : Unit → MRM G Unit, (mgeneration (c.selecting (sel' :: rest')) >>= f) t = (mgeneration c >>= f) t := by
      exact fun f => bind_congr_at f e
    rw [e2]
    refine bind_congr_wlp ((mgeneration_wlp (k := c.size n s.genNum) (inds := inds) (k' := c.bred n (s.genNum + 1)) hc
      hpt (by exact hi.log) (by exact hi.sizes) (bred_eq c n s.genNum).symm).mono ?_)
    rintro _ s₁ ⟨hp1, hg1, hl1, hs1, pre, e1, hlog1, hev⟩
    have hg1 : s₁.genNum = s.genNum + 1 := hg1
    rw [size_eq, ← hg1] at hp1 hev
    show (mstop c _ >>= _) s₁ = (mstop c _ >>= _) s₁
    refine bind_congr_wlp ((show wlp (mstop c (s.genNum + 1)) (fun _ t => t = s₁) s₁ from ?_).mono ?_)
    · unfold mstop
      rw [wlp_bind, wlp_get, wlp_ofExcept]
      intro _ _
      rfl
    · rintro stop u rfl
      cases stop with
      | true => rfl
      | false =>
        simp only [Bool.false_eq_true, if_false]
        refine bind_congr_wlp (wlp_mpublish.2 ?_)
        have hinv := MRun.Inv.after_generation (x := u.finalGen) hp1 hl1 hs1 hlog1 hev
        have := ih hinv
        dsimp only at this
        rw [← hg1]
        exact this

/-- **C166 (b)** Whole runs: exchange the tournament for another one — another size, with or without replacement, other methods
behind it — and the run is the same, in all its states and events. -/
theorem C166_run_partial {a a' k k' : Nat} {r r' : Bool} {rest rest' : List (MSel G)}
    (hsel : c.sub.sels = ⟨a, tournamentM k r⟩ :: rest) (hr : r = true ∨ k ≤ n) (hr' : r' = true ∨ k' ≤ n)
    (hc : c.Good n m ds) (hb : c.nsga2Breeder = true) (hf : s.Fresh m ds) :
    mevolve (c.selecting (⟨a', tournamentM k' r'⟩ :: rest')) s = mevolve c s := by
  unfold mevolve
  show (minit c >>= _) s = (minit c >>= _) s
  refine bind_congr_wlp ((minit_wlp hc hf.inds hf.dirs hf.log hf.genNum).mono ?_)
  rintro _ s₁ ⟨hi, hg, -⟩
  have e : mafterInit (c.selecting (⟨a', tournamentM k' r'⟩ :: rest')) s₁ = mafterInit c s₁ := by
    unfold mafterInit
    refine bind_congr_wlp (wlp_get.2 ?_)
    show (mstop c _ >>= _) s₁ = (mstop c _ >>= _) s₁
    refine bind_congr_wlp ((show wlp (mstop c s₁.genNum) (fun _ t => t = s₁) s₁ from ?_).mono ?_)
    · unfold mstop
      rw [wlp_bind, wlp_get, wlp_ofExcept]
      intro _ _
      rfl
    · rintro stop _ rfl
      cases stop with
      | true => rfl
      | false =>
        simp only [Bool.false_eq_true, if_false]
        have := mloop_selecting (rest' := rest') hsel (MSel.Idle.tournament a hr) (MSel.Idle.tournament a' hr') hc hb c.maxGen hi
        rw [hg] at this
        exact this
  exact bind_congr_at _ e

/-- **C166 (c)** The elites: they are copied and left behind.  Without them the breeder does the same thing, on a heap without
those copies. -/
theorem C166_elites_partial {c : MSub G} {inds elites : List Nat} {w w' : MWorld G}
    (h : eliteStageM c inds w = (.ok elites, w')) : nsga2Breed c inds w = nsga2Breed { c with nElite := 0 } inds w' := by
  unfold nsga2Breed
  rw [bind_of_ok h]
  rfl

/-- **C166 (d)** The tournament size still matters in one way: more than the population, without replacement, and breeding
raises. -/
theorem C166_too_large_partial {c : MSub G} {a k : Nat} {rest : List (MSel G)} {inds : List Nat} {w : MWorld G}
    (hsel : c.sels = ⟨a, tournamentM k false⟩ :: rest) (hk : inds.length < k) (ho : ∀ o ∈ c.ops, o.Good)
    (hx : Exist w inds) (hn : inds.Nodup) (hd : AllDir m ds w) : ∃ e, (nsga2Breed c inds w).1 = .error e := by
  have h : wlp (nsga2Breed c inds) (fun _ _ => False) w := by
    unfold nsga2Breed
    rw [wlp_bind]
    refine (eliteStageM_wlp hx hd).mono ?_
    rintro _ s₁ ⟨h1, h2, -, -, -⟩
    have hx1 : Exist s₁ inds := fun r hr => lt_of_lt_of_le (hx r hr) h1
    unfold createNextGen
    simp only [bind_assoc]
    rw [wlp_bind]
    refine (clones_wlp hx1 h2).mono ?_
    rintro old s₂ ⟨c1, c2, c3, c4, c5, -⟩
    rw [wlp_bind]
    refine (applyOps_herd (inds0 := inds) (b₀ := s₂.next) (n := inds.length) c.ops ho
        ⟨rfl, hn, fun r hr => lt_of_lt_of_le (hx1 r hr) c3, c4, le_refl _, fun r hr => .inl hr⟩).mono ?_
    rintro new s₃ hh
    rw [wlp_bind]
    refine (wlp_true _ _).mono ?_
    rintro _ s₄ -
    rw [hsel]
    intro x t hr
    have : tournamentM k false new (old ++ new) s₄ = (.error .valueError, s₄) := by
      have hlt : new.length < k := by rw [hh.length]; exact hk
      unfold tournamentM
      simp [hlt]
      rfl
    have hr : tournamentM k false new (old ++ new) s₄ = (.ok x, t) := hr
    rw [this] at hr
    simp at hr
  cases hr : nsga2Breed c inds w with
  | mk r t =>
    cases r with
    | ok a => exact (h a t hr).elim
    | error e => exact ⟨e, rfl⟩

/-! ## The property as one would expect it -/

/-- Offspring come from selected individuals: with no operators and a tournament among the whole population, all offspring of a
population in which one individual beats all others are copies of that individual. -/
def C166_statement : Prop :=
  ∀ (c : MSub ℚ) (inds next : List Nat) (b : Nat) (w w' : MWorld ℚ), c.ops = [] →
    c.sels = [⟨1, tournamentM inds.length false⟩] → Exist w inds → inds.Nodup → b ∈ inds →
    (∀ x ∈ inds, x ≠ b → ∀ t, ((w.fits b).betterThan (w.fits x) t).1 = .ok true ∧ ((w.fits x).betterThan (w.fits b) t).1 = .ok false) →
    nsga2Breed c inds w = (.ok next, w') → ∀ x ∈ next.drop inds.length, w'.genome x = w.genome b

/-- Two individuals, of fronts 2 and 1 (`better_than` prefers the larger number). -/
def exTwo : MWorld ℚ where
  fits := fun x => ⟨some [0, 0], .each [true, true], false, false, .fin 0, some (2 - x)⟩
  genome := fun x => (x : ℚ)
  next := 2
  tape := fun _ => 0

def exNoOps : MSub ℚ := { (exCfg true 1).sub with ops := [], sels := [⟨1, tournamentM 2 false⟩], nElite := 0 }

theorem C166_refuted : ¬ C166_statement := by
  intro h
  have hw : ∀ x ∈ [0, 1], x ≠ 0 → ∀ t, ((exTwo.fits 0).betterThan (exTwo.fits x) t).1 = .ok true ∧
      ((exTwo.fits x).betterThan (exTwo.fits 0) t).1 = .ok false := by
    intro x hx h0 t
    simp only [List.mem_cons, List.not_mem_nil, or_false] at hx
    rcases hx with rfl | rfl
    · exact absurd rfl h0
    · exact ⟨rfl, rfl⟩
  have hb : nsga2Breed exNoOps [0, 1] exTwo = (.ok [2, 3, 0, 1], (nsga2Breed exNoOps [0, 1] exTwo).2) :=
    Prod.ext (by decide +kernel) rfl
  have := h exNoOps [0, 1] [2, 3, 0, 1] 0 exTwo _ rfl rfl (by intro r hr; simp at hr; show r < 2; omega) (by decide)
    (by simp) hw hb 1 (by simp)
  exact absurd this (by decide +kernel)

/-! ## Examples -/

/-- Tournaments of size 2 or 4, with or without replacement: the same run of three generations. -/
example : mevolve ((exCfg true 3).selecting [⟨1, tournamentM 4 false⟩]) exRun = mevolve (exCfg true 3) exRun :=
  C166_run_partial rfl (.inl rfl) (.inr (by decide)) (exCfg_good true 3) rfl exRun_fresh

example : (mevolve (exCfg true 3) exRun).1 = .ok () := by decide +kernel

example : ∃ e, (nsga2Breed ({ exNoOps with sels := [⟨1, tournamentM 3 false⟩] } : MSub ℚ) [0, 1] exTwo).1 = .error e :=
  C166_too_large_partial (m := 2) (ds := [true, true]) rfl (by decide) (by simp [exNoOps]) (by intro r hr; simp at hr; show r < 2; omega)
    (by decide) (fun _ _ => rfl)

end Verif.Moo
