import Verif.Spec.Prog
import Verif.Model.GPOperators

/-! # Specification: programs built from a configuration -/

namespace Verif.GP

/-- The terminal `v` is a key of the terminal set or a number from the ERC range. -/
def Cfg.Offers (c : Cfg) (v : Val) : Prop :=
  (∃ kv ∈ c.terminalSet, kv.1 = v) ∨
  (∃ e, c.erc = some e ∧ ∃ q, v.data.num? = some q ∧ (e.lo ≤ e.hi → e.lo ≤ q ∧ q ≤ e.hi))

/-- The program uses only functions of the function set (annotated completely or not at all) and
offered terminals. -/
def Prog.BuiltFrom (c : Cfg) (p : Prog) : Prop :=
  (∀ f ∈ p.fns, f ∈ c.functionSet ∧ f.Legal) ∧ ∀ vt ∈ p.terms, c.Offers vt.1

/-- All dictionary keys are different (Python `==`), as in every Python dictionary. -/
def DistinctKeys (ts : List (Val × Option Ty)) : Prop :=
  ts.Pairwise fun a b => a.1.data.pyEq b.1.data = false

/-- An untyped configuration: no function is annotated, all terminals are untyped. -/
def Cfg.Untyped (c : Cfg) : Prop :=
  (∀ f ∈ c.functionSet, (∀ t ∈ f.params, t = none) ∧ f.ret = none) ∧ ∀ kv ∈ c.terminalSet, kv.2 = none

/-- The ephemeral constants do not interfere with the typing: there is no ERC range, or the type of
the ERC range is the only numeric type in use (as a parameter type or the root type) and the numeric
constants of the terminal set have it too. -/
def Cfg.ErcSafe (c : Cfg) : Prop :=
  c.erc = none ∨
  ((∀ t : Ty, t.isNumber = true →
      (some t = c.rootType ∨ ∃ f ∈ c.functionSet, some t ∈ f.params) → some t = c.ercType) ∧
   ∀ kv ∈ c.terminalSet, kv.1.data.num? ≠ none → kv.2 = c.ercType)

/-- A usable ERC range: for integers both ends are integers and the range is not empty. -/
def Erc.Usable (e : Erc) : Prop := e.isFloat = true ∨ (e.lo.den = 1 ∧ e.hi.den = 1 ∧ e.lo ≤ e.hi)

/-- There is a terminal to choose: a non-empty terminal set or an ERC range; an ERC range that is
present is usable. -/
def Cfg.HasTerminal (c : Cfg) : Prop :=
  (c.terminalSet ≠ [] ∨ c.erc ≠ none) ∧ ∀ e, c.erc = some e → e.Usable

/-- All leaves of the program lie at a depth between `lo` and `hi`. -/
def Prog.InWindow (lo hi : Nat) (p : Prog) : Prop := ∀ d ∈ p.leafDepths, lo ≤ d ∧ d ≤ hi

/-- The individual has configuration `c` and holds a legal program, built from `c`, all of whose
leaves lie in the depth window. -/
def Planted (c : Cfg) (lo hi : Nat) (ind : Ind) : Prop :=
  ind.cfg = c ∧ ∃ p : Prog, ind.tree = p.flatten ∧ p.Ok ∧ p.BuiltFrom c ∧ p.InWindow lo hi

/-- No function of the set is without parameters. -/
def Cfg.NonNullary (c : Cfg) : Prop := ∀ f ∈ c.functionSet, f.params ≠ []

end Verif.GP
