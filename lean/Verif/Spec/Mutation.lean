import Verif.Spec.Creation
import Verif.Spec.Exchange

/-! # Specification: mutations of programs -/

namespace Verif.GP

/-- `ind'` is `ind`, which holds the program `p`, with one sub-program of `p` replaced by a fresh
legal program built from the configuration.  No leaf of the fresh program is deeper than `hi`; if
all functions have parameters, its leaves lie in the window. -/
def Replaced (lo hi : Nat) (ind : Ind) (p : Prog) (ind' : Ind) : Prop :=
  ∃ (C : Ctx) (q r : Prog), p = C.fill q ∧ ind' = { ind with tree := (C.fill r).flatten } ∧
    r.Ok ∧ r.BuiltFrom ind.cfg ∧ r.InWindow 0 hi ∧ (ind.cfg.NonNullary → r.InWindow lo hi)

/-- `ind'` is `ind`, which holds the program `p`, with noise `g` added to one numeric terminal of
`p`; the type annotation of the terminal is unchanged. -/
def Perturbed (ind : Ind) (p : Prog) (ind' : Ind) : Prop :=
  ∃ (C : Ctx) (v v' : Val) (ty : Option Ty) (q g : ℚ), p = C.fill (.term v ty) ∧
    v.data.isNumber = true ∧ v.data.num? = some q ∧ v'.data = .float (q + g) ∧
    ind' = { ind with tree := (C.fill (.term v' ty)).flatten }

end Verif.GP
