import Verif.Model.Node

/-!
# The GP tree individual
Models `eckity/genetic_encodings/gp/tree/tree_individual.py`, function by function.

The Python code walks the node list with a cursor `pos` passed by reference.  Here the cursor is
returned together with the result.  The recursion is written with a fuel argument; the public
functions pass `size + 1`, which `Verif.Lemmas` shows to be always enough (the cursor moves forward
at every call).
-/

namespace Verif.GP
open PyM

/-- `erc_range`: lower end, upper end, and whether `type(erc_range[0]) is float`. -/
structure Erc where
  lo : ℚ
  hi : ℚ
  isFloat : Bool
deriving DecidableEq

/-- The configuration part of a `Tree` — tree_individual.py:72-89: function set, terminal set (a
dictionary in insertion order), ERC range and root type. -/
structure Cfg where
  functionSet : List Fn
  terminalSet : List (Val × Option Ty)
  erc : Option Erc
  rootType : Option Ty

/-- `erc_type` — tree_individual.py:95-97 -/
def Cfg.ercType (c : Cfg) : Option Ty :=
  c.erc.map fun e => if e.isFloat then .float else .int

/-- A dictionary lookup `terminal_set.get(v)` (by hash and `==`). -/
def tsGet (ts : List (Val × Option Ty)) (v : Val) : Option (Option Ty) :=
  (ts.find? fun kv => kv.1.data.pyEq v.data).map (·.2)

/-- A loop `for _ in range(n): pos[0] += 1; results.append(step(pos))`. -/
def loopArgs {α : Type} (step : Nat → Except Err (α × Nat)) : Nat → Nat → Except Err (List α × Nat)
  | 0, pos => .ok ([], pos)
  | n + 1, pos => do
    let (r, p) ← step (pos + 1)
    let (rs, p') ← loopArgs step n p
    .ok (r :: rs, p')

/-- `max(xs)`: `ValueError` on an empty list. -/
def pyMax : List Nat → Except Err Nat
  | [] => .error .valueError
  | x :: xs => .ok (xs.foldl max x)

/-- `Tree.size` — tree_individual.py:99-108 -/
def size (tree : List Node) : Nat := tree.length

/-- `Tree._depth` — tree_individual.py:157-172 (the parameter `d` is unused in the code). -/
def depthAt (tree : List Node) : (fuel pos : Nat) → Except Err (Nat × Nat)
  | 0, _ => .error .runtimeError
  | fuel + 1, pos =>
    match tree[pos]? with
    | none => .error .indexError
    | some (.func f) => do
      let (ds, p) ← loopArgs (fun q => do
        let (d, q') ← depthAt tree fuel q
        .ok (1 + d, q')) f.arity pos
      let m ← pyMax ds
      .ok (m, p)
    | some (.term _ _) => .ok (0, pos)

/-- `Tree.depth` — tree_individual.py:146-155 -/
def depth (tree : List Node) : Except Err Nat := do
  let (d, _) ← depthAt tree (tree.length + 1) 0
  .ok d

section exec
variable {V : Type} (sem : Fn → List V → Except Err V) (lit : Val → V)
  (kw : String → Option V) (tree : List Node)

/-- `Tree._execute` — tree_individual.py:285-306.  `sem` is the meaning of the Python functions
(which may raise), `lit` embeds a terminal object into the values of the computation, `kw` is the
keyword dictionary. -/
def executeAt : (fuel pos : Nat) → Except Err (V × Nat)
  | 0, _ => .error .runtimeError
  | fuel + 1, pos =>
    match tree[pos]? with
    | none => .error .indexError
    | some (.func f) => do
      let (args, p) ← loopArgs (executeAt fuel) f.arity pos
      let r ← sem f args
      .ok (r, p)
    | some (.term v _) =>
      match v.data with
      | .str s =>
        match kw s with
        | some x => .ok (x, pos)
        | none => .ok (lit v, pos)
      | _ => .ok (lit v, pos)

/-- The tail of `Tree.execute` for keyword arguments — tree_individual.py:249-250 and 278: the empty
tree check and the traversal. -/
def executeKw : Except Err V :=
  if tree = [] then .error .valueError
  else do
    let (r, _) ← executeAt sem lit kw tree (tree.length + 1) 0
    .ok r

end exec

/-- The argument checks of `Tree.execute` — tree_individual.py:264-276: `bad_vars` and
`missing_vars`. -/
def checkKwargs (ts : List (Val × Option Ty)) (kw : List String) : Except Err Unit :=
  if kw.any fun k => !(ts.any fun kv => kv.1.data.pyEq (.str k)) then .error .valueError
  else if ts.any fun kv => !(kw.any fun k => kv.1.data.pyEq (.str k)) then .error .valueError
  else .ok ()

/-- A keyword dictionary as a function. -/
def kwFun {V : Type} (kwargs : List (String × V)) (s : String) : Option V :=
  (kwargs.find? fun kv => kv.1 = s).map (·.2)

/-- `Tree.execute(**kwargs)` — tree_individual.py:227-283 (keyword form). -/
def execute {V : Type} (sem : Fn → List V → Except Err V) (lit : Val → V) (c : Cfg)
    (tree : List Node) (kwargs : List (String × V)) : Except Err V :=
  if tree = [] then .error .valueError
  else do
    checkKwargs c.terminalSet (kwargs.map (·.1))
    executeKw sem lit (kwFun kwargs) tree

/-- `Tree._find_subtree_end` — tree_individual.py:379-394.  A function node whose function is not in
the function set is treated as a leaf. -/
def findEndAt (fs : List Fn) (tree : List Node) : (fuel pos : Nat) → Except Err Nat
  | 0, _ => .error .runtimeError
  | fuel + 1, pos =>
    match tree[pos]? with
    | none => .error .indexError
    | some (.func f) =>
      if f ∈ fs then do
        let (_, p) ← loopArgs (fun q => do
          let q' ← findEndAt fs tree fuel q
          .ok ((), q')) f.arity pos
        .ok p
      else .ok pos
    | some (.term _ _) => .ok pos

/-- `Tree._get_subtree_by_root` — tree_individual.py:350-357: the block starting at the *first* node
equal to the given one. -/
def getSubtreeByRoot (fs : List Fn) (tree : List Node) (n : Node) : Except Err (List Node) :=
  let start := tree.idxOf n
  if start = tree.length then .error .valueError
  else if start = 0 then .ok tree
  else do
    let e ← findEndAt fs tree (tree.length + 1) start
    .ok ((tree.drop start).take (e + 1 - start))

/-- The filter of `Tree.random_subtree` — tree_individual.py:335-343. -/
def relevantNodes (tree : List Node) (nodeType : Option Ty) : List Node :=
  tree.filter fun n =>
    decide (n.type = none)
      || (decide (nodeType = none) && decide (some n ≠ tree.head?))
      || (decide (n.type = nodeType) && decide (some n ≠ tree.head?))

/-- `Tree.random_subtree` — tree_individual.py:331-348 -/
def randomSubtree (fs : List Fn) (tree : List Node) (nodeType : Option Ty) :
    Rand (Option (List Node)) := do
  let rel := relevantNodes tree nodeType
  if rel = [] then pure none
  else do
    let n ← Rand.choice rel
    let st ← ofExcept (getSubtreeByRoot fs tree n)
    pure (some st)

/-- `Tree.replace_subtree` — tree_individual.py:359-377.  `old_subtree[0]` raises `IndexError` on an
empty block, `list.index` raises `ValueError` if the node is absent. -/
def replaceSubtree (tree old new : List Node) : Except Err (List Node) :=
  match old with
  | [] => .error .indexError
  | r :: _ =>
    let start := tree.idxOf r
    if start = tree.length then .error .valueError
    else .ok (tree.take start ++ new ++ tree.drop (start + old.length))

/-- `Tree.random_function` — tree_individual.py:174-192.  `FunctionNode(func)` may raise. -/
def randomFunction (c : Cfg) (nodeType : Option Ty) : Rand (Option Node) := do
  let rel := c.functionSet.filter fun f => decide (getReturnType f = nodeType)
  if rel = [] then pure none
  else do
    let f ← Rand.choice rel
    let n ← ofExcept (mkFunctionNode f)
    pure (some n)

/-- The ERC draw of `Tree.random_terminal` — tree_individual.py:208-212.  The identity of the new
number object is unconstrained. -/
def drawErc (e : Erc) : Rand Val := do
  if e.isFloat then do
    let q ← Rand.uniform e.lo e.hi
    let r ← Rand.next
    pure ⟨r, .float q⟩
  else do
    let z ← Rand.randint e.lo e.hi
    let r ← Rand.next
    pure ⟨r, .int z⟩

/-- The condition `node_type is None or issubclass(node_type, Number)` — tree_individual.py:205-207 -/
def ercApplies (nodeType : Option Ty) : Bool :=
  match nodeType with
  | none => true
  | some t => t.isNumber

/-- The list `relevant_terminals` of `Tree.random_terminal` — tree_individual.py:199-212. -/
def relevantTerminals (c : Cfg) (nodeType : Option Ty) : Rand (List Val) := do
  let rel := (c.terminalSet.filter fun kv => decide (kv.2 = nodeType)).map (·.1)
  match c.erc with
  | some e =>
    if ercApplies nodeType then do
      let v ← drawErc e
      pure (rel ++ [v])
    else pure rel
  | none => pure rel

/-- The type given to the selected terminal — tree_individual.py:220-223. -/
def terminalType (c : Cfg) (nodeType : Option Ty) (v : Val) : Option Ty :=
  let default_ : Option Ty := match nodeType with
    | none => none
    | some _ => some v.data.type
  (tsGet c.terminalSet v).getD default_

/-- `Tree.random_terminal` — tree_individual.py:194-225 -/
def randomTerminal (c : Cfg) (nodeType : Option Ty) : Rand (Option Node) := do
  let rel ← relevantTerminals c nodeType
  if rel = [] then pure none
  else do
    let v ← Rand.choice rel
    pure (some (.term v (terminalType c nodeType v)))

/-- Positions of the nodes accepted by `filter_tree` in `get_random_numeric_node`. -/
def numericPositions (tree : List Node) : List Nat :=
  (List.range tree.length).filter fun i =>
    match tree[i]? with
    | some n => n.isNumericTerminal
    | none => false

/-- `Tree.get_random_numeric_node` — tree_individual.py:311-329.  The node object is identified by
its position. -/
def randomNumericNode (tree : List Node) : Rand (Option Nat) := do
  let ps := numericPositions tree
  if ps = [] then pure none
  else do
    let i ← Rand.choice ps
    pure (some i)

/-- `Tree._should_add` — tree_individual.py:119-141.  The result is `True`, `False` or `None`
(`Option Bool`); the recursive call passes `node` (line 136), not `new_node`. -/
def shouldAddLoop (step : Nat → Except Err (Option Bool × Nat)) (types : List (Option Ty))
    (newTy : Option Ty) : (n i pos : Nat) → Option Bool → Except Err (Option Bool × Nat)
  | 0, _, pos, res => .ok (res, pos)
  | n + 1, i, pos, _ => do
    let (res, p) ← step (pos + 1)
    match res with
    | some true =>
      match types[i]? with
      | some t => .ok (some (decide (t = newTy)), p)
      | none => .error .indexError
    | some false => .ok (some false, p)
    | none => shouldAddLoop step types newTy n (i + 1) p none

/-- See `shouldAddLoop`. -/
def shouldAdd (tree : List Node) : (fuel pos : Nat) → (newTy : Option Ty) →
    Except Err (Option Bool × Nat)
  | 0, _, _ => .error .runtimeError
  | fuel + 1, pos, newTy =>
    if pos = tree.length then .ok (some true, pos)
    else match tree[pos]? with
      | none => .error .indexError
      | some (.func f) =>
        shouldAddLoop (fun q => shouldAdd tree fuel q (Node.func f).type) (getFuncTypes f) newTy
          f.arity 0 pos none
      | some (.term _ _) => .ok (none, pos)

/-- `Tree.add_tree` — tree_individual.py:110-117 -/
def addTree (rootType : Option Ty) (tree : List Node) (n : Node) : Except Err (List Node) :=
  if tree.length = 0 ∧ n.type = rootType then .ok (tree ++ [n])
  else do
    let (r, _) ← shouldAdd tree (tree.length + 2) 0 n.type
    if r = some true then .ok (tree ++ [n]) else .error .valueError

/-- The `terminal_set` argument of the constructor: a list of terminals, or a dictionary from
terminals to types (`none` stands for a value that is not a type). -/
inductive TermInput
  | list (xs : List Val)
  | dict (kvs : List (Val × Option Ty))

/-- `{t: None for t in terminal_set}`: equal keys (Python `==`) collapse to the first one. -/
def dictOfList (xs : List Val) : List (Val × Option Ty) :=
  xs.foldl (fun acc v => if acc.any fun kv => kv.1.data.pyEq v.data then acc else acc ++ [(v, none)]) []

/-- `Tree._handle_input_types` together with the constructor — tree_individual.py:396-471, 72-89.
Every modelled function is callable, so that check is omitted. -/
def handleInputTypes (functionSet : Option (List Fn)) (terminalSet : Option TermInput)
    (rootType : Option Ty) (erc : Option Erc) : Except Err Cfg :=
  match functionSet, terminalSet with
  | none, _ => .error .valueError
  | _, none => .error .valueError
  | some fs, some (.list xs) =>
    if fs.any fun f => !f.hints.isEmpty then .error .valueError
    else .ok ⟨fs, dictOfList xs, erc, rootType⟩
  | some fs, some (.dict kvs) =>
    let c : Cfg := ⟨fs, kvs, erc, rootType⟩
    if kvs.any fun kv => decide (kv.2 = none) then .error .valueError
    else if rootType ∉ fs.map getReturnType then .error .valueError
    else if c.ercType ≠ none ∧ c.ercType ∉ fs.map getReturnType then .error .valueError
    else
      let argTypes := fs.flatMap fun f => (getFuncTypes f).dropLast
      let termTypes := kvs.map (·.2) ++ c.ercType.toList.map some
      if argTypes ⊆ termTypes ∧ termTypes ⊆ argTypes then .ok c else .error .valueError

end Verif.GP
