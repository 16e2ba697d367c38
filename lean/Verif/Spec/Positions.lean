import Verif.Spec.Exchange

/-! # Specification: the positions that `random_subtree` can choose -/

namespace Verif.GP

/-- The nodes listed before the hole. -/
def Ctx.before : Ctx → List Node
  | .hole => []
  | .app f l c _ => .func f :: (Prog.flattenAll l ++ c.before)

/-- The sub-program `q` at the hole of `c` starts with a qualifying node, of which no copy is listed
before it. -/
def Choosable (τ : Option Ty) (c : Ctx) (q : Prog) : Prop :=
  ∃ n root, q.flatten.head? = some n ∧ (c.fill q).flatten.head? = some root ∧ Qualifies τ root n ∧
    n ∉ c.before

/-- The cuts of a crossover: the first one is free, the others have to qualify for the type of the
first. -/
def ChoosableAll : List (Ctx × Prog) → Prop
  | [] => False
  | x :: rest => Choosable none x.1 x.2 ∧ ∃ r, x.2.flatten.head? = some r ∧
      ∀ y ∈ rest, Choosable r.type y.1 y.2

/-- No cut of `p` is possible. -/
def Stuck (τ : Option Ty) (p : Prog) : Prop := ∀ c q, p = Ctx.fill c q → ¬ Choosable τ c q

/-- An attempt of a crossover can fail: the first program has no cut, or it has one to which one of the
others has none. -/
def Blocked : List Prog → Prop
  | [] => False
  | p :: rest => Stuck none p ∨ ∃ c q r, p = Ctx.fill c q ∧ Choosable none c q ∧
      q.flatten.head? = some r ∧ ∃ p' ∈ rest, Stuck r.type p'

end Verif.GP
