import Verif.Model.Printing
import Verif.Spec.Total

/-! # Specification: what a printed tree looks like -/

namespace Verif.GP

/-- A text without blanks and line breaks. -/
def strip (s : String) : List Char := s.toList.filter fun c => !(c == ' ' || c == '\n')

/-- What is printed of a program: names only. -/
inductive Skel
  | leaf (name : String)
  | node (name : String) (args : List Skel)

namespace Prog
variable (N : Names)

mutual
/-- The names in a program, as a tree. -/
def skel : Prog → Skel
  | .term v _ => .leaf (N.val v)
  | .app f args => .node (N.fn f) (skelAll args)
def skelAll : List Prog → List Skel
  | [] => []
  | p :: ps => p.skel :: skelAll ps
end

mutual
/-- Functional notation: `f(a,b)`. -/
def notation' : Prog → List Char
  | .term v _ => (N.val v).toList
  | .app f args => (N.fn f).toList ++ '(' :: ([','].intercalate (notations args) ++ [')'])
def notations : List Prog → List (List Char)
  | [] => []
  | p :: ps => p.notation' :: notations ps
end

/-- A name that can be recognised in a text: it is not empty and contains no blanks, line breaks, brackets
or commas. -/
def Word (s : String) : Prop := s ≠ "" ∧ ∀ c ∈ s.toList, c ∉ [' ', '\n', '(', ')', ',']

/-- All names in the program are recognisable. -/
def Clean (p : Prog) : Prop := (∀ f ∈ p.fns, Word (N.fn f)) ∧ ∀ vt ∈ p.terms, Word (N.val vt.1)

end Prog

/-- All terminals of an untyped, non-empty terminal set are strings. -/
def Cfg.Variables (c : Cfg) : Prop :=
  c.terminalSet ≠ [] ∧ ∀ kv ∈ c.terminalSet, kv.2 = none ∧ ∃ s, kv.1.data = .str s

/-- The names of the variables. -/
def Cfg.variables (c : Cfg) : List String :=
  c.terminalSet.filterMap fun kv => match kv.1.data with
    | .str s => some s
    | _ => none

end Verif.GP
