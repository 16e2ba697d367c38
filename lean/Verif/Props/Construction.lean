import Verif.Model.Construction
import Verif.Props.Again
import Verif.Props.Resume

/-! # C104: what the constructor of an algorithm accepts -/

namespace Verif.Construction
open Verif.Evo
variable {S T B E : Type}

/-- The sub-populations meant by the argument `population`. -/
inductive Means : PopArg S → List S → Prop
  | population (subs : List S) : Means (.population subs) subs
  | sub (s : S) : Means (.sub s) [s]
  | list (subs : List S) : subs ≠ [] → Means (.list (subs.map some)) subs

/-- The statistics meant by the argument `statistics`. -/
inductive MeansStats : StatArg T → List T → Prop
  | none : MeansStats .none []
  | stat (t : T) : MeansStats (.stat t) [t]
  | list (ts : List T) : MeansStats (.list (ts.map some)) ts

/-- The breeder or evaluator meant by an argument. -/
inductive MeansPart {P : Type} (new : P) : PartArg P → P → Prop
  | default : MeansPart new .none new
  | given (p : P) : MeansPart new (.simple p) p

/-- The algorithm object described by the arguments. -/
structure Describes (newB : B) (newE : E) (a : Args S T B E) (o : Alg S T B E) : Prop where
  population : Means a.population o.subs
  statistics : MeansStats a.statistics o.statistics
  breeder : MeansPart newB a.breeder o.breeder
  evaluator : MeansPart newE a.evaluator o.evaluator
  executor : o.executor = a.executor ∧ (a.executor = "thread" ∨ a.executor = "process")
  seed : ∀ r, a.randomSeed = some r → o.randomSeed = r
  defaultSeed : a.randomSeed = none → o.randomSeed = a.clock % 2 ^ 32
  generationSeed : ∀ g, a.generationSeed = some g → o.generationSeed = g
  defaultGenerationSeed : a.generationSeed = none → o.generationSeed = o.randomSeed

theorem instances_ok {X : Type} {xs : List (Option X)} {ys : List X} : instances xs = .ok ys ↔ xs = ys.map some := by
  induction xs generalizing ys with
  | nil => cases ys <;> simp [instances]
  | cons x xs ih =>
    cases x with
    | none => cases ys <;> simp [instances]
    | some x =>
      cases h : instances xs with
      | error e =>
        simp only [instances, h]
        constructor
        · intro h'; cases h'
        · intro h'
          cases ys with
          | nil => cases h'
          | cons y ys =>
            simp only [List.map_cons, List.cons.injEq] at h'
            rw [ih.2 h'.2] at h
            cases h
      | ok zs =>
        simp only [instances, h, Except.ok.injEq]
        have hz := ih.1 h
        constructor
        · rintro rfl; simp [hz]
        · intro h'
          cases ys with
          | nil => cases h'
          | cons y ys =>
            simp only [List.map_cons, List.cons.injEq, Option.some.injEq] at h'
            have := ih.2 h'.2
            rw [h] at this
            cases this
            rw [h'.1]

theorem instances_error {X : Type} {xs : List (Option X)} {e : Err} (h : instances xs = .error e) : e = .valueError := by
  induction xs with
  | nil => cases h
  | cons x xs ih =>
    cases x with
    | none => simp only [instances, Except.error.injEq] at h; exact h.symm
    | some x =>
      cases h' : instances xs with
      | error e' =>
        simp only [instances, h', Except.error.injEq] at h
        subst h
        exact ih h'
      | ok _ => simp [instances, h'] at h

theorem validatePopulation_ok {p : PopArg S} {subs : List S} : validatePopulation p = .ok subs ↔ Means p subs := by
  constructor
  · intro h
    cases p with
    | none => cases h
    | population l => cases h; exact .population _
    | sub s => cases h; exact .sub _
    | list xs =>
      simp only [validatePopulation] at h
      split at h
      · cases h
      · rename_i hx
        have := instances_ok.1 h
        subst this
        exact .list _ (by rintro rfl; simp at hx)
    | other => cases h
  · intro h
    cases h with
    | population => rfl
    | sub => rfl
    | list _ hne =>
      simp only [validatePopulation, List.length_map]
      rw [if_neg (by simpa using hne)]
      exact instances_ok.2 rfl

theorem validatePopulation_error {p : PopArg S} {e : Err} (h : validatePopulation p = .error e) : e = .valueError := by
  cases p with
  | none => cases h; rfl
  | population => cases h
  | sub => cases h
  | list xs =>
    simp only [validatePopulation] at h
    split at h
    · cases h; rfl
    · exact instances_error h
  | other => cases h; rfl

theorem validateStatistics_error {p : StatArg T} {e : Err} (h : validateStatistics p = .error e) : e = .valueError := by
  cases p with
  | none => cases h; rfl
  | stat => cases h
  | list xs => exact instances_error h
  | other => cases h; rfl

/-- **C104 (partial): what is accepted.** Constructing a `SimpleEvolution` succeeds exactly if the arguments describe an
algorithm object, and yields the one they describe. -/
theorem C104_accepted_partial (newB : B) (newE : E) (a : Args S T B E) (o : Alg S T B E) :
    simpleEvolutionInit newB newE a = .ok o ↔ Describes newB newE a o := by
  obtain ⟨pop, st, br, ev, ex, rs, gs, ck⟩ := a
  constructor
  · intro h
    obtain ⟨b, e, hb, he, h⟩ : ∃ b e, MeansPart newB br b ∧ MeansPart newE ev e ∧
        algorithmInit ⟨pop, st, br, ev, ex, rs, gs, ck⟩ st.orEmpty b e = .ok o := by
      cases br <;> cases ev <;> first | cases h | exact ⟨_, _, by constructor, by constructor, h⟩
    simp only [algorithmInit] at h
    cases hp : validatePopulation pop with
    | error x => rw [hp] at h; cases h
    | ok subs =>
      rw [hp] at h
      have hpop := validatePopulation_ok.1 hp
      dsimp only at h
      split at h
      · cases h
      · rename_i ss hs
        have hst : MeansStats st ss := by
          cases st with
          | none => cases hs; exact .none
          | stat t => cases hs; exact .stat _
          | list xs => have := instances_ok.1 hs; subst this; exact .list _
          | other => cases hs
        have fin : ex = "thread" ∨ ex = "process" → Describes newB newE ⟨pop, st, br, ev, ex, rs, gs, ck⟩
            ⟨subs, ss, b, e, ex, (seeds rs gs ck).1, (seeds rs gs ck).2⟩ := fun hex =>
          { population := hpop, statistics := hst, breeder := hb, evaluator := he, executor := ⟨rfl, hex⟩
            seed := by intro r hr; cases hr; rfl
            defaultSeed := by intro hr; cases hr; rfl
            generationSeed := by intro g hg; cases hg; rfl
            defaultGenerationSeed := by intro hg; cases hg; rfl }
        split at h
        · rename_i hex; cases h; exact fin (Or.inl hex)
        · split at h
          · rename_i hex; cases h; exact fin (Or.inr hex)
          · cases h
  · rintro ⟨hpop, hst, hb, he, ⟨hx, hex⟩, h1, h2, h3, h4⟩
    obtain ⟨subs, ss, b, e, x, r, g⟩ := o
    dsimp only at *
    subst hx
    have hs : validateStatistics st.orEmpty = .ok ss := by
      cases hst with
      | none => rfl
      | stat => rfl
      | list => exact instances_ok.2 rfl
    have hr : r = (seeds rs gs ck).1 := by
      cases rs with
      | none => exact h2 rfl
      | some r' => exact h1 _ rfl
    have hg : g = (seeds rs gs ck).2 := by
      cases gs with
      | none => rw [h4 rfl, hr]; rfl
      | some g' => exact h3 _ rfl
    have key : algorithmInit ⟨pop, st, br, ev, x, rs, gs, ck⟩ st.orEmpty b e =
        .ok ⟨subs, ss, b, e, x, r, g⟩ := by
      simp only [algorithmInit]
      rw [validatePopulation_ok.2 hpop]
      dsimp only
      rw [hs, hr, hg]
      dsimp only
      rcases hex with rfl | rfl <;> rfl
    cases hb <;> cases he <;> exact key

/-- **C104 (partial): what is rejected is rejected with a `ValueError`.** -/
theorem C104_rejected_partial (newB : B) (newE : E) (a : Args S T B E) (e : Err)
    (h : simpleEvolutionInit newB newE a = .error e) : e = .valueError := by
  obtain ⟨pop, st, br, ev, ex, rs, gs, ck⟩ := a
  have key : ∀ (sts : StatArg T) b e', algorithmInit ⟨pop, st, br, ev, ex, rs, gs, ck⟩ sts b e' = .error e → e = .valueError := by
    intro sts b e' h
    simp only [algorithmInit] at h
    cases hp : validatePopulation pop with
    | error x => rw [hp] at h; cases h; exact validatePopulation_error hp
    | ok subs =>
      rw [hp] at h
      dsimp only at h
      cases hs : validateStatistics sts with
      | error x => rw [hs] at h; cases h; exact validateStatistics_error hs
      | ok ss =>
        rw [hs] at h
        dsimp only at h
        split at h
        · cases h
        · split at h
          · cases h
          · cases h; rfl
  cases br <;> cases ev <;> first | (cases h; rfl) | exact key _ _ _ h

/-- **C104 (partial): the default seed.** Without a `random_seed`, the seed is one that numpy accepts, whatever the time. -/
theorem C104_seed_partial (newB : B) (newE : E) (a : Args S T B E) (o : Alg S T B E)
    (h : simpleEvolutionInit newB newE a = .ok o) (hr : a.randomSeed = none) :
    o.randomSeed < 2 ^ 32 ∧ (a.generationSeed = none → o.generationSeed = o.randomSeed) := by
  have hd := (C104_accepted_partial newB newE a o).1 h
  rw [hd.defaultSeed hr]
  exact ⟨Nat.mod_lt _ (by decide), fun hg => by rw [hd.defaultGenerationSeed hg, hd.defaultSeed hr]⟩

/-- The configuration of a run of the constructed object, and its first state. -/
def Alg.run {G : Type} (o : Alg (SubCfg G) T B E) (c : Cfg G Unit) : Cfg G Unit := { c with subs := o.subs }

/-- The state in which the object is constructed: no individuals yet. -/
def Alg.start {G : Type} (o : Alg (SubCfg G) T B E) : Run G Unit :=
  ⟨⟨[], 1, fun n => n⟩, o.subs.map fun _ => none, none, none, none, 0, o.randomSeed, o.generationSeed, none, [], false, []⟩

/-- **C104 (partial): what can be evolved.** An accepted object whose `evolve` returns has one sub-population. -/
theorem C104_evolves_partial {G : Type} (newB : B) (newE : E) (a : Args (SubCfg G) T B E) (o : Alg (SubCfg G) T B E)
    (_ : simpleEvolutionInit newB newE a = .ok o) (c : Cfg G Unit) (s : Run G Unit)
    (hev : evolve (o.run c) o.start = (.ok (), s)) : ∃ sub, o.subs = [sub] := by
  obtain ⟨⟨sub, is, h, _⟩, _⟩ := evolve_peopled (c := o.run c) o.start () s hev
  exact ⟨sub, h⟩

/-- C104, as the property says it: what is rejected is rejected when it is constructed; an object made from
sub-populations that can each be evolved alone can be evolved. -/
def C104_statement : Prop :=
  ∀ (a : Args (SubCfg Nat) Unit Unit Unit) (o : Alg (SubCfg Nat) Unit Unit Unit),
    simpleEvolutionInit () () a = .ok o → ∀ c : Cfg Nat Unit,
    (∀ sub ∈ o.subs, ∀ o' : Alg (SubCfg Nat) Unit Unit Unit, o' = { o with subs := [sub] } →
      (evolve (o'.run c) o'.start).1 = .ok ()) →
    (evolve (o.run c) o.start).1 = .ok ()

/-- Two sub-populations, as a list. -/
def exArgs : Args (SubCfg Nat) Unit Unit Unit :=
  ⟨.list [some exDown, some exDown], .none, .none, .simple (), "thread", some 42, none, 17⟩

def exAlg (l : List (SubCfg Nat)) : Alg (SubCfg Nat) Unit Unit Unit := ⟨l, [], (), (), "thread", 42, 42⟩

theorem exArgs_ok : simpleEvolutionInit () () exArgs = .ok (exAlg [exDown, exDown]) := rfl

theorem exAlg_ends : (evolve ((exAlg [exDown]).run exDownCfg) (exAlg [exDown]).start).1 = .ok () ∧
    (evolve ((exAlg [exDown, exDown]).run exDownCfg) (exAlg [exDown, exDown]).start).1 = .error .valueError := by
  decide +kernel

/-- C104 is false: a list of two sub-populations is accepted, but evolving it raises a `ValueError` — no population
evaluator of the library copes with more than one. -/
theorem C104_refuted : ¬ C104_statement := by
  intro h
  have := h exArgs _ exArgs_ok exDownCfg (by
    intro sub hsub o' ho'
    have : sub = exDown := by simpa [exAlg] using hsub
    subst this
    subst ho'
    exact exAlg_ends.1)
  rw [exAlg_ends.2] at this
  cases this

example := C104_evolves_partial () () { exArgs with population := .sub exDown } (exAlg [exDown]) rfl exDownCfg _
  (ran exAlg_ends.1)

/-- A list with something that is no sub-population is rejected. -/
example := C104_rejected_partial () () { exArgs with population := .list [some exDown, none] } .valueError rfl

example := C104_seed_partial () () { exArgs with randomSeed := none } ⟨[exDown, exDown], [], (), (), "thread", 17, 17⟩ rfl rfl

end Verif.Construction
