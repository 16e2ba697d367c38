import Verif.Props.Construction

/-! # C160: what the constructor of `NSGA2Evolution` accepts -/

namespace Verif.Construction
variable {S T B E : Type}

/-- The algorithm object described by the arguments of `NSGA2Evolution`. -/
structure DescribesMoo (a : Args S T B E) (o : Alg S T (PartArg B) (PartArg E)) : Prop where
  population : Means a.population o.subs
  statistics : MeansStats a.statistics o.statistics
  breeder : o.breeder = a.breeder
  evaluator : o.evaluator = a.evaluator
  executor : o.executor = a.executor ∧ (a.executor = "thread" ∨ a.executor = "process")
  seed : ∀ r, a.randomSeed = some r → o.randomSeed = r
  defaultSeed : a.randomSeed = none → o.randomSeed = a.clock % 2 ^ 32
  generationSeed : ∀ g, a.generationSeed = some g → o.generationSeed = g
  defaultGenerationSeed : a.generationSeed = none → o.generationSeed = o.randomSeed

theorem nsga2Init_eq (a : Args S T B E) : nsga2Init a = simpleEvolutionInit a.breeder a.evaluator
    ⟨a.population, a.statistics, .simple a.breeder, .simple a.evaluator, a.executor, a.randomSeed, a.generationSeed, a.clock⟩ := rfl

/-- **C160 (partial): what is accepted.** Constructing an `NSGA2Evolution` succeeds exactly if population, statistics and
executor are as required, whatever the breeder and the evaluator are, and yields the object described. -/
theorem C160_accepted_partial (a : Args S T B E) (o : Alg S T (PartArg B) (PartArg E)) :
    nsga2Init a = .ok o ↔ DescribesMoo a o := by
  rw [nsga2Init_eq, C104_accepted_partial]
  constructor
  · rintro ⟨h1, h2, h3, h4, h5, h6, h7, h8, h9⟩
    refine ⟨h1, h2, ?_, ?_, h5, h6, h7, h8, h9⟩
    · generalize ho : o.breeder = b at h3 ⊢
      cases h3
      rfl
    · generalize ho : o.evaluator = b at h4 ⊢
      cases h4
      rfl
  · rintro ⟨h1, h2, h3, h4, h5, h6, h7, h8, h9⟩
    exact ⟨h1, h2, by rw [h3]; exact .given _, by rw [h4]; exact .given _, h5, h6, h7, h8, h9⟩

/-- **C160 (partial): what is rejected is rejected with a `ValueError`.** -/
theorem C160_rejected_partial (a : Args S T B E) (e : Err) (h : nsga2Init a = .error e) : e = .valueError :=
  C104_rejected_partial _ _ _ e ((nsga2Init_eq a).symm.trans h)

/-- **C160 (partial): what `SimpleEvolution` accepts, `NSGA2Evolution` accepts.** The two objects have the same
sub-populations, statistics, executor and seeds; a breeder and an evaluator that are given are the same, too. -/
theorem C160_as_simple_partial (newB : B) (newE : E) (a : Args S T B E) (o : Alg S T B E)
    (h : simpleEvolutionInit newB newE a = .ok o) :
    nsga2Init a = .ok ⟨o.subs, o.statistics, a.breeder, a.evaluator, o.executor, o.randomSeed, o.generationSeed⟩ ∧
    (a.breeder = .simple o.breeder ∨ a.breeder = .none) ∧ (a.evaluator = .simple o.evaluator ∨ a.evaluator = .none) := by
  obtain ⟨h1, h2, h3, h4, h5, h6, h7, h8, h9⟩ := (C104_accepted_partial newB newE a o).1 h
  refine ⟨(C160_accepted_partial _ _).2 ⟨h1, h2, rfl, rfl, h5, h6, h7, h8, h9⟩, ?_, ?_⟩
  · generalize a.breeder = x at h3 ⊢
    cases h3 <;> simp
  · generalize a.evaluator = x at h4 ⊢
    cases h4 <;> simp

/-- C160, as the property says it: an object that is accepted has a breeder and an evaluator. -/
def C160_statement : Prop :=
  ∀ (a : Args Nat Nat Nat Nat) (o : Alg Nat Nat (PartArg Nat) (PartArg Nat)), nsga2Init a = .ok o →
    (∃ b, o.breeder = .simple b) ∧ ∃ e, o.evaluator = .simple e

/-- C160 is false: `NSGA2Evolution(population, breeder=None)` is accepted, and has no breeder. -/
theorem C160_refuted : ¬ C160_statement := by
  intro h
  obtain ⟨⟨b, hb⟩, -⟩ := h ⟨.sub 7, .none, .none, .simple 3, "thread", some 42, none, 17⟩
    ⟨[7], [], .none, .simple 3, "thread", 42, 42⟩ rfl
  cases hb

example := (C160_accepted_partial (⟨.list [some 7, some 8], .stat 2, .other, .simple 3, "process", none, some 5, 2 ^ 32 + 17⟩ : Args Nat Nat Nat Nat)
  ⟨[7, 8], [2], .other, .simple 3, "process", 17, 5⟩).1 rfl

example := C160_rejected_partial (⟨.sub 7, .none, .simple 1, .simple 3, "gpu", some 42, none, 17⟩ : Args Nat Nat Nat Nat) .valueError rfl

example := C160_as_simple_partial 1 2 (⟨.sub 7, .none, .none, .simple 3, "thread", some 42, none, 17⟩ : Args Nat Nat Nat Nat)
  ⟨[7], [], 1, 3, "thread", 42, 42⟩ rfl

end Verif.Construction
