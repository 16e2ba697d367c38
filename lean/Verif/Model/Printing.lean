import Verif.Model.Evolution
import Verif.Model.GPOperators

/-! # Printing trees, and the end of `SimpleEvolution.evolve`
Models `Tree.__str__`, `Tree._str_rec` and `Tree.show`
(eckity/genetic_encodings/gp/tree/tree_individual.py:473-547) and `SimpleEvolution.finish`. -/

namespace Verif.GP

/-- The names that are printed: `function.__name__` of a function, `str(value)` of a terminal,
`type.__name__` of a type. -/
structure Names where
  fn : Fn → String
  val : Val → String
  ty : Ty → String

/-- What `_str_rec` appends for the arguments of a function node and after each of them —
tree_individual.py:526-532; `i` is the index of the first argument of the list, `n` their number in all. -/
def printArgs (n : Nat) : Nat → List String → String
  | _, [] => ""
  | i, t :: ts =>
    t ++ (if i + 1 < n then ",\n" else if 0 < i ∧ i < n then "\n" else "") ++ printArgs n (i + 1) ts

/-- `Tree._str_rec` — tree_individual.py:516-537: the text appended and the position reached. -/
def strAt (N : Names) (tree : List Node) : (fuel : Nat) → (indent : String) → (pos : Nat) → Except Err (String × Nat)
  | 0, _, _ => .error .runtimeError
  | fuel + 1, indent, pos =>
    match tree[pos]? with
    | none => .error .indexError
    | some (.func f) => do
      let inner := if pos = 0 then indent ++ "  " else indent
      let (args, p) ← loopArgs (strAt N tree fuel (inner ++ "  ")) f.arity pos
      .ok (indent ++ N.fn f ++ "(\n" ++ printArgs f.arity 0 args ++ (inner ++ ")"), p)
    | some (.term v _) => .ok (indent ++ N.val v, pos)

/-- `', '.join(keys)`: `TypeError` unless all keys are strings. -/
def joinKeys : List Val → Except Err (List String)
  | [] => .ok []
  | v :: vs =>
    match v.data with
    | .str s => do
      let rest ← joinKeys vs
      .ok (s :: rest)
    | _ => .error .typeError

/-- The parameter list and the return annotation — tree_individual.py:500-513.  With `None` among the
types of the terminals (`untyped`) these are the keys of the terminal set; else (also for an empty terminal
set) `key: type` pairs and the type of the root, `AttributeError` if it has none. -/
def signature (N : Names) (c : Cfg) (tree : List Node) : Except Err (String × String) :=
  if c.terminalSet.any (fun kv => kv.2 == none) then do
    let args ← joinKeys (c.terminalSet.map (·.1))
    .ok (", ".intercalate args, "")
  else
    match tree[0]? with
    | none => .error .indexError
    | some n =>
      match n.type with
      | none => .error .attributeError
      | some ρ => .ok (", ".intercalate (c.terminalSet.map fun kv =>
          N.val kv.1 ++ ": " ++ (kv.2.map N.ty).getD ""), " -> " ++ N.ty ρ)

/-- `Tree.__str__` — tree_individual.py:473-514. -/
def treeStr (N : Names) (id : Nat) (ind : Ind) : Except Err String := do
  let (args, ret) ← signature N ind.cfg ind.tree
  let (body, _) ← strAt N ind.tree (ind.tree.length + 1) "" 0
  .ok ("def func_" ++ toString id ++ "(" ++ args ++ ")" ++ ret ++ ":\n  return " ++ body)

end Verif.GP

namespace Verif.Evo
open PyM
variable {G κ : Type}

/-- `SimpleEvolution.evolve` to its very end: after the run proper, `finish` shows the best individual —
simple_evolution.py:219-225; `show id genome` is what `Individual.show` does: `Tree.show`
(tree_individual.py:539-547) formats the tree, `Vector.show` (vector_individual.py) logs the vector. -/
def evolveAndShow (c : Cfg G κ) (shown : Nat → G → Except Err String) : RM G κ Unit := do
  evolve c
  let s ← get
  match s.bestOfRun with
  | none => raise .attributeError
  | some b =>
    match s.w.heap[b]? with
    | none => raise .attributeError
    | some i =>
      match shown i.id i.genome with
      | .ok _ => pure ()
      | .error e => raise e

end Verif.Evo
