import Verif.Model.Node

/-!
# Specification: programs

A program is a rose tree of functions applied to argument programs and terminals.  It is the
mathematical object that a node list stands for.  Nothing here uses the list-walking functions of
the model.
-/

namespace Verif.GP

/-- The value of a terminal under keyword bindings: a bound name stands for its binding, every other
terminal for itself. -/
def leafVal {V : Type} (lit : Val → V) (kw : String → Option V) (v : Val) : V :=
  match v.data with
  | .str s => (kw s).getD (lit v)
  | _ => lit v

/-- A program. -/
inductive Prog
  | term (v : Val) (ty : Option Ty)
  | app (f : Fn) (args : List Prog)

namespace Prog

mutual
/-- The depth-first (prefix) listing of a program. -/
def flatten : Prog → List Node
  | .term v ty => [.term v ty]
  | .app f args => .func f :: flattenAll args
/-- The listings of a list of programs, one after the other. -/
def flattenAll : List Prog → List Node
  | [] => []
  | p :: ps => p.flatten ++ flattenAll ps
end

mutual
/-- Every function is applied to as many arguments as it has parameters. -/
def Ok : Prog → Prop
  | .term _ _ => True
  | .app f args => args.length = f.params.length ∧ OkAll args
/-- `Ok` for each program of a list. -/
def OkAll : List Prog → Prop
  | [] => True
  | p :: ps => p.Ok ∧ OkAll ps
end

mutual
/-- `p.HasType τ`: the program has type `τ` and every argument has the declared type of the
parameter it is passed to (`none` = untyped). -/
def HasType : Prog → Option Ty → Prop
  | .term _ ty, τ => ty = τ
  | .app f args, τ => f.ret = τ ∧ HaveTypes args f.params
/-- The programs have the given types, one by one. -/
def HaveTypes : List Prog → List (Option Ty) → Prop
  | [], [] => True
  | p :: ps, τ :: τs => p.HasType τ ∧ HaveTypes ps τs
  | _, _ => False
end

mutual
/-- Number of nodes. -/
def size : Prog → Nat
  | .term _ _ => 1
  | .app _ args => 1 + sizeAll args
def sizeAll : List Prog → Nat
  | [] => 0
  | p :: ps => p.size + sizeAll ps
end

mutual
/-- Depths of all leaves (a leaf is a terminal or a function without arguments). -/
def leafDepths : Prog → List Nat
  | .term _ _ => [0]
  | .app _ args => if args = [] then [0] else (leafDepthsAll args).map (· + 1)
def leafDepthsAll : List Prog → List Nat
  | [] => []
  | p :: ps => p.leafDepths ++ leafDepthsAll ps
end

mutual
/-- The functions occurring in a program. -/
def fns : Prog → List Fn
  | .term _ _ => []
  | .app f args => f :: fnsAll args
def fnsAll : List Prog → List Fn
  | [] => []
  | p :: ps => p.fns ++ fnsAll ps
end

mutual
/-- The terminals occurring in a program, with their types. -/
def terms : Prog → List (Val × Option Ty)
  | .term v ty => [(v, ty)]
  | .app _ args => termsAll args
def termsAll : List Prog → List (Val × Option Ty)
  | [] => []
  | p :: ps => p.terms ++ termsAll ps
end

section denote
variable {V : Type} (sem : Fn → List V → Except Err V) (leaf : Val → V)
mutual
/-- The value of a program: arguments are evaluated left to right, then the function is applied;
exceptions propagate. -/
def denote : Prog → Except Err V
  | .term v _ => .ok (leaf v)
  | .app f args => do
    let vs ← denoteAll args
    sem f vs
def denoteAll : List Prog → Except Err (List V)
  | [] => .ok []
  | p :: ps => do
    let v ← p.denote
    let vs ← denoteAll ps
    .ok (v :: vs)
end
end denote

/-- `q.Sub p`: `q` is a sub-program of `p`. -/
inductive Sub : Prog → Prog → Prop
  | refl (p : Prog) : Sub p p
  | arg {q a : Prog} {f : Fn} {args : List Prog} : a ∈ args → Sub q a → Sub q (.app f args)

end Prog

/-- A function is annotated completely or not at all (other functions cannot become nodes). -/
def Fn.Legal (f : Fn) : Prop :=
  ((∀ t ∈ f.params, t ≠ none) ∧ f.ret ≠ none) ∨ ((∀ t ∈ f.params, t = none) ∧ f.ret = none)

/-- The type of the root of a program. -/
def Prog.rootType : Prog → Option Ty
  | .term _ ty => ty
  | .app f _ => f.ret

/-- A program with one hole. -/
inductive Ctx
  | hole
  | app (f : Fn) (left : List Prog) (c : Ctx) (right : List Prog)

/-- Put a program into the hole. -/
def Ctx.fill : Ctx → Prog → Prog
  | .hole, p => p
  | .app f l c r, p => .app f (l ++ [c.fill p] ++ r)

/-- Distance of the hole from the root. -/
def Ctx.depth : Ctx → Nat
  | .hole => 0
  | .app _ _ c _ => c.depth + 1

end Verif.GP
