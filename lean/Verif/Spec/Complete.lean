import Verif.Spec.Creation

/-!
# Specification: what the creators may create

The programs in the range of a tree creator, described without the creators: which functions and
terminals they use, their type, and the depths of their nodes.
-/

namespace Verif.GP

/-- The number objects of an ERC range: floats from the lower end (included) to the upper end
(excluded, unless the range is a single point), integers with both ends. -/
def Erc.Draws (e : Erc) (d : Data) : Prop :=
  (e.isFloat = true ∧ ∃ q, d = .float q ∧ ((e.lo ≤ q ∧ q < e.hi) ∨ q = e.lo)) ∨
  (e.isFloat = false ∧ ∃ z : ℤ, d = .int z ∧ e.lo ≤ z ∧ z ≤ e.hi)

/-- The terminal `v`, used with type `ty`: an entry of the terminal set, or an ephemeral constant
(untyped, or of the type of the ERC range). -/
def Cfg.Leaf (c : Cfg) (v : Val) (ty : Option Ty) : Prop :=
  (v, ty) ∈ c.terminalSet ∨
  ∃ e, c.erc = some e ∧ e.Draws v.data ∧ (ty = none ∨ ty = c.ercType)

namespace Prog

/-- All functions come from the function set, all terminals are leaves of the configuration. -/
def DrawnFrom (c : Cfg) (p : Prog) : Prop :=
  (∀ f ∈ p.fns, f ∈ c.functionSet ∧ f.Legal) ∧ ∀ vt ∈ p.terms, c.Leaf vt.1 vt.2

mutual
/-- Depths of the terminals. -/
def termDepths : Prog → List Nat
  | .term _ _ => [0]
  | .app _ args => (termDepthsAll args).map (· + 1)
def termDepthsAll : List Prog → List Nat
  | [] => []
  | p :: ps => p.termDepths ++ termDepthsAll ps
end

mutual
/-- Depths of the function nodes. -/
def fnDepths : Prog → List Nat
  | .term _ _ => []
  | .app _ args => 0 :: (fnDepthsAll args).map (· + 1)
def fnDepthsAll : List Prog → List Nat
  | [] => []
  | p :: ps => p.fnDepths ++ fnDepthsAll ps
end

/-- The range of the grow method: a program of type `τ` over the configuration, terminals at the
depths `lo` to `hi` only, functions above depth `hi` only. -/
structure Growable (c : Cfg) (τ : Option Ty) (lo hi : Nat) (p : Prog) : Prop where
  typed : p.HasType τ
  drawn : p.DrawnFrom c
  terms : ∀ d ∈ p.termDepths, lo ≤ d ∧ d ≤ hi
  fns : ∀ d ∈ p.fnDepths, d < hi

end Prog

/-- The types a creator asks for: none in an untyped configuration; in a fully typed one with harmless
ephemeral constants, the root type and the parameter types. -/
def Cfg.Requests (c : Cfg) (τ : Option Ty) : Prop :=
  (c.Untyped ∧ τ = none) ∨
  ((∀ f ∈ c.functionSet, ∀ σ ∈ f.params, σ ≠ none) ∧ c.ErcSafe ∧ τ ≠ none ∧
    (τ = c.rootType ∨ ∃ f ∈ c.functionSet, τ ∈ f.params))

/-- The ERC range, if there is one, is a non-empty interval, with integral ends for integers. -/
def Cfg.ErcProper (c : Cfg) : Prop := ∀ e, c.erc = some e → e.lo ≤ e.hi ∧ e.Usable

end Verif.GP
