import Verif.Lemmas.Represent
import Verif.Spec.Library

/-! # Renaming variables and functions of tree programs -/

namespace Verif.GP
open PyM

/-- Other names for variables and other functions of the same signature, such that different ones stay different. -/
structure Renaming where
  var : String → String
  fn : Fn → Fn
  var_inj : ∀ a b, var a = var b → a = b
  fn_inj : ∀ f g, fn f = fn g → f = g
  params : ∀ f, (fn f).params = f.params
  ret : ∀ f, (fn f).ret = f.ret

def Data.renamed (R : Renaming) : Data → Data
  | .str s => .str (R.var s)
  | d => d

def Val.renamed (R : Renaming) (v : Val) : Val := ⟨v.ref, v.data.renamed R⟩

def Node.renamed (R : Renaming) : Node → Node
  | .func f => .func (R.fn f)
  | .term v ty => .term (v.renamed R) ty

def Cfg.renamed (R : Renaming) (c : Cfg) : Cfg :=
  { c with functionSet := c.functionSet.map R.fn, terminalSet := c.terminalSet.map fun kv => (kv.1.renamed R, kv.2) }

/-- The individual with all variables and functions renamed. -/
def Ind.renamed (R : Renaming) (i : Ind) : Ind := ⟨i.cfg.renamed R, i.tree.map (Node.renamed R)⟩

variable {R : Renaming}

theorem Data.renamed_inj {a b : Data} (h : a.renamed R = b.renamed R) : a = b := by
  cases a <;> cases b <;> simp_all [Data.renamed]
  exact R.var_inj _ _ h

theorem Val.renamed_inj {a b : Val} (h : a.renamed R = b.renamed R) : a = b := by
  obtain ⟨r, d⟩ := a
  obtain ⟨r', d'⟩ := b
  simp only [Val.renamed, Val.mk.injEq] at h
  rw [h.1, Data.renamed_inj h.2]

theorem Node.renamed_inj {a b : Node} (h : a.renamed R = b.renamed R) : a = b := by
  cases a <;> cases b <;> simp_all [Node.renamed]
  · exact R.fn_inj _ _ h
  · exact Val.renamed_inj h.1

theorem num_renamed (d : Data) : (d.renamed R).num? = d.num? := by cases d <;> rfl

theorem type_renamed (d : Data) : (d.renamed R).type = d.type := by cases d <;> rfl

theorem pyEq_renamed (a b : Data) : (a.renamed R).pyEq (b.renamed R) = a.pyEq b := by
  unfold Data.pyEq
  rw [num_renamed, num_renamed]
  have : decide (a.renamed R = b.renamed R) = decide (a = b) :=
    decide_eq_decide.2 ⟨fun h => Data.renamed_inj h, fun h => by rw [h]⟩
  rw [this]

theorem arity_renamed (f : Fn) : (R.fn f).arity = f.arity := by unfold Fn.arity; rw [R.params]

theorem types_renamed (f : Fn) : getFuncTypes (R.fn f) = getFuncTypes f := by
  unfold getFuncTypes Fn.hints
  rw [arity_renamed, R.params, R.ret]

theorem nodeType_renamed (n : Node) : (n.renamed R).type = n.type := by
  cases n with
  | func f => show (getFuncTypes (R.fn f)).getLast?.join = _; rw [types_renamed]; rfl
  | term v ty => rfl

theorem mem_renamed (f : Fn) (fs : List Fn) : R.fn f ∈ fs.map R.fn ↔ f ∈ fs :=
  ⟨fun h => by obtain ⟨g, hg, he⟩ := List.mem_map.1 h; rwa [← R.fn_inj _ _ he], List.mem_map_of_mem⟩

theorem idxOf_renamed (n : Node) (t : List Node) : (t.map (Node.renamed R)).idxOf (n.renamed R) = t.idxOf n := by
  induction t with
  | nil => rfl
  | cons a t ih =>
    rw [List.map_cons, List.idxOf_cons, List.idxOf_cons, ih]
    by_cases h : a = n
    · subst h; simp
    · have : a.renamed R ≠ n.renamed R := fun he => h (Node.renamed_inj he)
      rw [beq_false_of_ne this, beq_false_of_ne h]

theorem get_renamed (t : List Node) (i : Nat) : (t.map (Node.renamed R))[i]? = (t[i]?).map (Node.renamed R) := by simp

theorem findEnd_renamed (fs : List Fn) (t : List Node) (fuel pos : Nat) :
    findEndAt (fs.map R.fn) (t.map (Node.renamed R)) fuel pos = findEndAt fs t fuel pos := by
  induction fuel generalizing pos with
  | zero => rfl
  | succ fuel ih =>
    unfold findEndAt
    rw [get_renamed]
    cases t[pos]? with
    | none => rfl
    | some n =>
      cases n with
      | term v ty => rfl
      | func f =>
        simp only [Option.map, Node.renamed, mem_renamed, arity_renamed, ih]

theorem getSubtree_renamed (fs : List Fn) (t : List Node) (n : Node) :
    getSubtreeByRoot (fs.map R.fn) (t.map (Node.renamed R)) (n.renamed R) = (getSubtreeByRoot fs t n).map (List.map (Node.renamed R)) := by
  unfold getSubtreeByRoot
  simp only [idxOf_renamed, List.length_map, findEnd_renamed]
  split
  · rfl
  · split
    · rfl
    · cases findEndAt fs t (t.length + 1) (t.idxOf n) with
      | error e => rfl
      | ok e =>
        show Except.ok _ = Except.ok _
        rw [List.map_take, List.map_drop]

theorem head_renamed (n : Node) (t : List Node) : some (n.renamed R) ≠ (t.map (Node.renamed R)).head? ↔ some n ≠ t.head? := by
  cases t with
  | nil => simp
  | cons a t =>
    simp only [List.map_cons, List.head?_cons, ne_eq, Option.some.injEq]
    exact not_congr ⟨fun h => Node.renamed_inj h, fun h => by rw [h]⟩

theorem relevant_renamed (t : List Node) (ty : Option Ty) :
    relevantNodes (t.map (Node.renamed R)) ty = (relevantNodes t ty).map (Node.renamed R) := by
  unfold relevantNodes
  rw [List.filter_map]
  congr 1
  apply List.filter_congr
  intro n _
  simp only [Function.comp, nodeType_renamed, head_renamed]

theorem randomSubtree_sim (fs : List Fn) (t : List Node) (ty : Option Ty) :
    Sim id (Option.map (List.map (Node.renamed R))) (randomSubtree (fs.map R.fn) (t.map (Node.renamed R)) ty) (randomSubtree fs t ty) := by
  unfold randomSubtree
  dsimp only
  rw [relevant_renamed]
  refine Sim.ite (by simp) (fun _ => Sim.pure rfl) fun _ => Sim.bind (Rand.choice_sim _ _) fun n => ?_
  exact Sim.bind (Sim.ofExcept (getSubtree_renamed fs t n)) fun st => Sim.pure rfl

theorem replace_renamed (t old new : List Node) :
    replaceSubtree (t.map (Node.renamed R)) (old.map (Node.renamed R)) (new.map (Node.renamed R)) =
      (replaceSubtree t old new).map (List.map (Node.renamed R)) := by
  cases old with
  | nil => rfl
  | cons r tl =>
    simp only [replaceSubtree, List.map_cons, idxOf_renamed, List.length_map, List.length_cons]
    split
    · rfl
    · show Except.ok _ = Except.ok _
      simp [List.map_take, List.map_drop]

/-! ## Creators -/

theorem mkFunctionNode_renamed (f : Fn) : mkFunctionNode (R.fn f) = (mkFunctionNode f).map (Node.renamed R) := by
  unfold mkFunctionNode
  rw [types_renamed, arity_renamed]
  dsimp only
  split <;> rfl

theorem randomFunction_sim (c : Cfg) (ty : Option Ty) :
    Sim id (Option.map (Node.renamed R)) (randomFunction (c.renamed R) ty) (randomFunction c ty) := by
  unfold randomFunction
  have : (c.renamed R).functionSet.filter (fun f => decide (getReturnType f = ty)) =
      (c.functionSet.filter fun f => decide (getReturnType f = ty)).map R.fn := by
    show (c.functionSet.map R.fn).filter _ = _
    rw [List.filter_map]
    congr 1
    apply List.filter_congr
    intro f _
    exact decide_eq_decide.2 (by rw [getReturnType, getReturnType, R.ret])
  dsimp only
  rw [this]
  refine Sim.ite (by simp) (fun _ => Sim.pure rfl) fun _ => Sim.bind (Rand.choice_sim _ _) fun f => ?_
  exact Sim.bind (Sim.ofExcept (mkFunctionNode_renamed f)) fun n => Sim.pure rfl

theorem drawErc_sim (e : Erc) : Sim id (Val.renamed R) (drawErc e) (drawErc e) := by
  unfold drawErc
  refine Sim.ite Iff.rfl (fun _ => ?_) fun _ => ?_
  · exact Sim.bind (Sim.refl _) fun q => Sim.bind (Sim.refl _) fun r => Sim.pure rfl
  · exact Sim.bind (Sim.refl _) fun q => Sim.bind (Sim.refl _) fun r => Sim.pure rfl

theorem relevantTerminals_sim (c : Cfg) (ty : Option Ty) :
    Sim id (List.map (Val.renamed R)) (relevantTerminals (c.renamed R) ty) (relevantTerminals c ty) := by
  unfold relevantTerminals
  have : ((c.renamed R).terminalSet.filter fun kv => decide (kv.2 = ty)).map (·.1) =
      ((c.terminalSet.filter fun kv => decide (kv.2 = ty)).map (·.1)).map (Val.renamed R) := by
    show ((c.terminalSet.map _).filter _).map _ = _
    rw [List.filter_map, List.map_map, List.map_map]
    rfl
  dsimp only
  rw [this, show (c.renamed R).erc = c.erc from rfl]
  cases c.erc with
  | none => exact Sim.pure rfl
  | some e =>
    refine Sim.ite Iff.rfl (fun _ => ?_) fun _ => Sim.pure rfl
    exact Sim.bind (drawErc_sim (R := R) e) fun v => Sim.pure (by simp)

theorem tsGet_renamed (ts : List (Val × Option Ty)) (v : Val) :
    tsGet (ts.map fun kv => (kv.1.renamed R, kv.2)) (v.renamed R) = tsGet ts v := by
  unfold tsGet
  rw [List.find?_map, Option.map_map]
  have : ((fun kv : Val × Option Ty => kv.1.data.pyEq (v.renamed R).data) ∘ fun kv : Val × Option Ty => (kv.1.renamed R, kv.2)) =
      fun kv => kv.1.data.pyEq v.data := by
    funext kv
    exact pyEq_renamed kv.1.data v.data
  rw [this]
  rfl

theorem terminalType_renamed (c : Cfg) (ty : Option Ty) (v : Val) :
    terminalType (c.renamed R) ty (v.renamed R) = terminalType c ty v := by
  unfold terminalType
  have := tsGet_renamed (R := R) c.terminalSet v
  dsimp only [Cfg.renamed]
  rw [this]
  cases ty with
  | none => rfl
  | some t => show (tsGet _ v).getD (some (v.data.renamed R).type) = _; rw [type_renamed]

theorem randomTerminal_sim (c : Cfg) (ty : Option Ty) :
    Sim id (Option.map (Node.renamed R)) (randomTerminal (c.renamed R) ty) (randomTerminal c ty) := by
  unfold randomTerminal
  refine Sim.bind (relevantTerminals_sim c ty) fun rel => ?_
  refine Sim.ite (by simp) (fun _ => Sim.pure rfl) fun _ => Sim.bind (Rand.choice_sim _ _) fun v => Sim.pure ?_
  rw [terminalType_renamed]
  rfl

theorem assertNode_sim (n : Option Node) : Sim id (Node.renamed R) (assertNode (n.map (Node.renamed R))) (assertNode n) := by
  cases n with
  | none => exact Sim.raise
  | some n => exact Sim.pure rfl

theorem createArgs_sim {create' create : Option Ty → Rand (List Node)}
    (h : ∀ ty, Sim id (List.map (Node.renamed R)) (create' ty) (create ty)) (ts : List (Option Ty)) :
    Sim id (List.map (Node.renamed R)) (createArgs create' ts) (createArgs create ts) := by
  induction ts with
  | nil => exact Sim.pure rfl
  | cons t ts ih => exact Sim.bind (h t) fun a => Sim.bind ih fun as => Sim.pure (by simp)

theorem leaf_sim (c : Cfg) (ty : Option Ty) :
    Sim id (List.map (Node.renamed R)) (do let n ← randomTerminal (c.renamed R) ty; let n ← assertNode n; pure [n])
      (do let n ← randomTerminal c ty; let n ← assertNode n; pure [n]) :=
  Sim.bind (randomTerminal_sim c ty) fun n => Sim.bind (assertNode_sim n) fun _ => Sim.pure rfl

theorem fullTree_sim (c : Cfg) (rem : Nat) (ty : Option Ty) :
    Sim id (List.map (Node.renamed R)) (fullTree (c.renamed R) rem ty) (fullTree c rem ty) := by
  induction rem generalizing ty with
  | zero => exact leaf_sim c ty
  | succ rem ih =>
    unfold fullTree
    refine Sim.bind (randomFunction_sim c ty) fun n => Sim.bind (assertNode_sim n) fun m => ?_
    cases m with
    | term v ty => exact Sim.raise
    | func f =>
      simp only [Node.renamed]
      rw [types_renamed]
      exact Sim.bind (createArgs_sim ih _) fun as => Sim.pure rfl

theorem growTree_sim (c : Cfg) (pPrune : ℚ) (fuel need rem : Nat) (ty : Option Ty) :
    Sim id (List.map (Node.renamed R)) (growTree (c.renamed R) pPrune fuel need rem ty) (growTree c pPrune fuel need rem ty) := by
  induction fuel generalizing need rem ty with
  | zero => exact leaf_sim c ty
  | succ fuel ih =>
    unfold growTree
    refine Sim.bind (Sim.refl _) fun isFunc => Sim.ite Iff.rfl (fun _ => ?_) fun _ => leaf_sim c ty
    refine Sim.bind (randomFunction_sim c ty) fun n => Sim.bind (assertNode_sim n) fun m => ?_
    cases m with
    | term v ty => exact Sim.raise
    | func f =>
      simp only [Node.renamed, childTypes]
      rw [types_renamed, arity_renamed]
      exact Sim.bind (createArgs_sim (fun ty => ih _ _ ty) _) fun as => Sim.pure rfl

/-! ## Operators -/

theorem failableLoop_sim {α β : Type} {ρ : α → β} {attempt' : β → Nat → Rand (Bool × β)} {attempt : α → Nat → Rand (Bool × α)}
    (h : ∀ a i, Sim id (fun r => (r.1, ρ r.2)) (attempt' (ρ a) i) (attempt a i)) (n i : Nat) (a : α) :
    Sim id ρ (failableLoop attempt' pure n i (ρ a)) (failableLoop attempt pure n i a) := by
  induction n generalizing i a with
  | zero => exact Sim.pure rfl
  | succ n ih =>
    unfold failableLoop
    refine Sim.bind (h a i) fun r => ?_
    exact Sim.ite Iff.rfl (fun _ => Sim.pure rfl) fun _ => ih _ _

theorem pickSubtrees_sim (inds : List Ind) :
    Sim id (Option.map (List.map (List.map (Node.renamed R)))) (pickSubtrees (inds.map (Ind.renamed R))) (pickSubtrees inds) := by
  cases inds with
  | nil => exact Sim.raise
  | cons i rest =>
    unfold pickSubtrees
    refine Sim.bind (randomSubtree_sim _ _ _) fun first => ?_
    rcases first with _ | _ | ⟨r, tl⟩
    · exact Sim.pure rfl
    · exact Sim.raise
    · show Sim id _ (do
        let others ← mapL (fun ind => randomSubtree ind.cfg.functionSet ind.tree (r.renamed R).type) (rest.map (Ind.renamed R))
        if none ∈ others then pure none else pure (some ((r.renamed R :: tl.map (Node.renamed R)) :: others.filterMap id))) _
      rw [nodeType_renamed]
      refine Sim.bind (Sim.mapL rest fun ind _ => randomSubtree_sim ind.cfg.functionSet ind.tree r.type) fun others => ?_
      refine Sim.ite (by simp) (fun _ => Sim.pure rfl) fun _ => Sim.pure ?_
      simp only [Option.map, List.map_cons, Option.some.injEq, List.cons.injEq, true_and]
      rw [List.filterMap_map, List.map_filterMap]
      rfl

theorem pyGet_renamed {α β : Type} (g : α → β) (xs : List α) (i : Int) : Py.get (xs.map g) i = (Py.get xs i).map g := by
  unfold Py.get
  rw [List.length_map]
  cases Py.index? xs.length i with
  | none => rfl
  | some k =>
    simp only [List.getElem?_map]
    cases xs[k]? <;> rfl

theorem swap_renamed (sts : List (List Node)) (n : Nat) (inds : List Ind) :
    swapSubtrees (sts.map (List.map (Node.renamed R))) n (inds.map (Ind.renamed R)) = (swapSubtrees sts n inds).map (List.map (Ind.renamed R)) := by
  induction n generalizing inds with
  | zero => rfl
  | succ i ih =>
    unfold swapSubtrees
    rw [List.getElem?_map]
    cases inds[i]? with
    | none => rfl
    | some ind =>
      simp only [Option.map, pyGet_renamed]
      cases Py.get sts i with
      | error e => rfl
      | ok old =>
        cases Py.get sts ((i : Int) - 1) with
        | error e => rfl
        | ok new =>
          show (replaceSubtree (ind.tree.map (Node.renamed R)) (old.map (Node.renamed R)) (new.map (Node.renamed R))).bind _ =
            ((replaceSubtree ind.tree old new).bind _).map _
          rw [replace_renamed]
          cases replaceSubtree ind.tree old new with
          | error e => rfl
          | ok t =>
            show swapSubtrees _ i ((inds.map (Ind.renamed R)).set i (Ind.renamed R { ind with tree := t })) = _
            rw [← List.map_set, ih]
            rfl

theorem crossoverAttempt_sim (arity : Nat) (inds : List Ind) (k : Nat) :
    Sim id (fun r : Bool × List Ind => (r.1, r.2.map (Ind.renamed R))) (crossoverAttempt arity (inds.map (Ind.renamed R)) k)
      (crossoverAttempt arity inds k) := by
  unfold crossoverAttempt
  refine Sim.ite (by simp) (fun _ => Sim.raise) fun _ => Sim.bind (pickSubtrees_sim inds) fun sts => ?_
  cases sts with
  | none => exact Sim.pure rfl
  | some sts =>
    dsimp only [Option.map]
    rw [List.length_map]
    exact Sim.bind (Sim.ofExcept (swap_renamed sts inds.length inds)) fun out => Sim.pure rfl

theorem mutateSubtrees_sim (minDepth maxDepth : Nat) (l : List (Ind × List Node)) :
    Sim id (List.map (Ind.renamed R)) (mutateSubtrees minDepth maxDepth (l.map (Prod.map (Ind.renamed R) (List.map (Node.renamed R)))))
      (mutateSubtrees minDepth maxDepth l) := by
  induction l with
  | nil => exact Sim.pure rfl
  | cons p l ih =>
    obtain ⟨ind, old⟩ := p
    cases old with
    | nil => exact Sim.raise
    | cons r tl =>
      simp only [List.map_cons, Prod.map, mutateSubtrees]
      rw [nodeType_renamed]
      refine Sim.bind (growTree_sim ind.cfg _ _ _ _ r.type) fun new => ?_
      refine Sim.bind (Sim.ofExcept (replace_renamed ind.tree (r :: tl) new)) fun t => ?_
      exact Sim.bind ih fun rest => Sim.pure rfl

theorem mutationAttempt_sim (minDepth maxDepth : Nat) (inds : List Ind) (k : Nat) :
    Sim id (fun r : Bool × List Ind => (r.1, r.2.map (Ind.renamed R))) (mutationAttempt minDepth maxDepth (inds.map (Ind.renamed R)) k)
      (mutationAttempt minDepth maxDepth inds k) := by
  unfold mutationAttempt
  refine Sim.bind (Sim.mapL inds fun ind _ => randomSubtree_sim ind.cfg.functionSet ind.tree none) fun olds => ?_
  refine Sim.ite (by simp) (fun _ => Sim.pure rfl) fun _ => ?_
  have : (olds.map (Option.map (List.map (Node.renamed R)))).filterMap id = (olds.filterMap id).map (List.map (Node.renamed R)) := by
    rw [List.filterMap_map, List.map_filterMap]; rfl
  rw [this, List.zip_map]
  exact Sim.bind (mutateSubtrees_sim minDepth maxDepth _) fun out => Sim.pure rfl

theorem numericTerminal_renamed (n : Node) : (n.renamed R).isNumericTerminal = n.isNumericTerminal := by
  cases n with
  | func f => rfl
  | term v ty => show (v.data.renamed R).type.isNumber = _; rw [type_renamed]; rfl

theorem numericPositions_renamed (t : List Node) : numericPositions (t.map (Node.renamed R)) = numericPositions t := by
  unfold numericPositions
  rw [List.length_map]
  apply List.filter_congr
  intro i _
  rw [get_renamed]
  cases t[i]? with
  | none => rfl
  | some n => exact numericTerminal_renamed n

theorem addNoise_renamed (v : Val) (g : ℚ) (r : Nat) : addNoise (v.renamed R) g r = (addNoise v g r).map (Val.renamed R) := by
  unfold addNoise
  show (match (v.data.renamed R).num? with | some q => _ | none => _) = _
  rw [num_renamed]
  cases v.data.num? <;> rfl

theorem noiseLoop_sim (mu sigma : ℚ) (l : List (Ind × Nat)) :
    Sim id (List.map (Ind.renamed R)) (noiseLoop mu sigma (l.map (Prod.map (Ind.renamed R) id))) (noiseLoop mu sigma l) := by
  induction l with
  | nil => exact Sim.pure rfl
  | cons p l ih =>
    obtain ⟨ind, i⟩ := p
    simp only [List.map_cons, Prod.map, noiseLoop]
    show Sim id _ (match (ind.tree.map (Node.renamed R))[i]? with | some (.term v ty) => _ | _ => _) _
    rw [get_renamed]
    rcases ind.tree[i]? with _ | _ | ⟨v, ty⟩
    · exact Sim.raise
    · exact Sim.raise
    · refine Sim.bind (Sim.refl _) fun g => Sim.bind (Sim.refl _) fun r => ?_
      refine Sim.bind (Sim.ofExcept (addNoise_renamed v g r)) fun v' => Sim.bind ih fun rest => Sim.pure ?_
      simp [Ind.renamed, Node.renamed, List.map_set]

theorem ercAttempt_sim (mu sigma : ℚ) (inds : List Ind) (k : Nat) :
    Sim id (fun r : Bool × List Ind => (r.1, r.2.map (Ind.renamed R))) (ercAttempt mu sigma (inds.map (Ind.renamed R)) k)
      (ercAttempt mu sigma inds k) := by
  unfold ercAttempt
  refine Sim.bind (ρ := List.map id) (Sim.mapL inds fun ind _ => ?_) fun leaves => ?_
  · show Sim id id (randomNumericNode (ind.tree.map (Node.renamed R))) _
    unfold randomNumericNode
    rw [numericPositions_renamed]
    exact Sim.refl _
  · rw [List.map_id]
    refine Sim.ite Iff.rfl (fun _ => Sim.pure rfl) fun _ => ?_
    rw [List.zip_map_left]
    exact Sim.bind (noiseLoop_sim mu sigma _) fun out => Sim.pure rfl

theorem LibOp.maps {o : Evo.Op Ind} (h : LibOp o) : Evo.Op.Maps (Ind.renamed R) (fun _ => True) o o := by
  cases h with
  | crossover p arity attempts =>
    refine Evo.inPlace_maps (fun gs _ => ?_) fun _ _ _ _ _ _ _ => trivial
    exact Sim.bind (ρ := List.map (Ind.renamed R)) (failableLoop_sim (crossoverAttempt_sim arity) _ _ gs) fun out => Sim.pure rfl
  | mutation p minDepth maxDepth attempts =>
    refine Evo.inPlace_maps (fun gs _ => ?_) fun _ _ _ _ _ _ _ => trivial
    exact Sim.bind (ρ := List.map (Ind.renamed R)) (failableLoop_sim (mutationAttempt_sim minDepth maxDepth) _ _ gs) fun out => Sim.pure rfl
  | erc p arity mu sigma =>
    refine Evo.inPlace_maps (fun gs _ => ?_) fun _ _ _ _ _ _ _ => trivial
    exact Sim.bind (ρ := List.map (Ind.renamed R)) (failableLoop_sim (ercAttempt_sim mu sigma) _ _ gs) fun out => Sim.pure rfl

/-- The same creator for the renamed sets. -/
inductive CreatorRenamed (R : Renaming) : (Nat → Bool → Evo.WM Ind (List Nat)) → (Nat → Bool → Evo.WM Ind (List Nat)) → Prop
  | full (c : Cfg) (maxDepth : Nat) (fit : Bool → Evo.Fit) (up : Bool) :
      CreatorRenamed R (fullCreator (c.renamed R) maxDepth fit up) (fullCreator c maxDepth fit up)
  | grow (c : Cfg) (pPrune : ℚ) (minDepth maxDepth : Nat) (fit : Bool → Evo.Fit) (up : Bool) :
      CreatorRenamed R (growCreator (c.renamed R) pPrune minDepth maxDepth fit up) (growCreator c pPrune minDepth maxDepth fit up)
  | half (c : Cfg) (pPrune : ℚ) (minDepth maxDepth : Nat) (fit : Bool → Evo.Fit) (up : Bool) :
      CreatorRenamed R (halfCreator (c.renamed R) pPrune minDepth maxDepth fit up) (halfCreator c pPrune minDepth maxDepth fit up)

theorem treeCreator_maps (c : Cfg) {create' create : Option Ty → Rand (List Node)}
    (h : ∀ ty, Sim id (List.map (Node.renamed R)) (create' ty) (create ty)) (fit : Bool → Evo.Fit) (up : Bool) :
    Evo.CreatorMaps (Ind.renamed R) (fun _ => True) (treeCreator (c.renamed R) create' fit up) (treeCreator c create fit up) :=
  Evo.createIndividuals_maps fit up rfl trivial (Sim.bind (h _) fun _ => Sim.pure rfl) fun _ _ _ => trivial

theorem CreatorRenamed.maps {create' create : Nat → Bool → Evo.WM Ind (List Nat)} (h : CreatorRenamed R create' create) :
    Evo.CreatorMaps (Ind.renamed R) (fun _ => True) create' create := by
  cases h with
  | full c d fit up => exact treeCreator_maps c (fullTree_sim c d) fit up
  | grow c p a b fit up => exact treeCreator_maps c (growTree_sim c p _ a b) fit up
  | half c p a b fit up =>
    exact Evo.halfCreate_maps (fun d => treeCreator_maps c (growTree_sim c p _ a d) fit up)
      (fun d => treeCreator_maps c (fullTree_sim c d) fit up) _ _

/-! ## Execution -/

theorem loopArgs_congr {α : Type} {step' step : Nat → Except Err (α × Nat)} (h : ∀ p, step' p = step p) (n pos : Nat) :
    loopArgs step' n pos = loopArgs step n pos := by rw [funext h]

theorem executeAt_renamed {V : Type} {sem' sem : Fn → List V → Except Err V} {lit' lit : Val → V} {kw' kw : String → Option V}
    (hs : ∀ f, sem' (R.fn f) = sem f) (hl : ∀ v, lit' (v.renamed R) = lit v) (hk : ∀ s, kw' (R.var s) = kw s) (t : List Node)
    (fuel pos : Nat) : executeAt sem' lit' kw' (t.map (Node.renamed R)) fuel pos = executeAt sem lit kw t fuel pos := by
  induction fuel generalizing pos with
  | zero => rfl
  | succ fuel ih =>
    unfold executeAt
    rw [get_renamed]
    cases t[pos]? with
    | none => rfl
    | some n =>
      cases n with
      | func f => simp only [Option.map, Node.renamed, arity_renamed, hs, loopArgs_congr ih]
      | term v ty =>
        obtain ⟨r, d⟩ := v
        cases d with
        | str s =>
          have hl' : lit' ⟨r, .str (R.var s)⟩ = lit ⟨r, .str s⟩ := hl ⟨r, .str s⟩
          simp only [Option.map, Node.renamed, Val.renamed, Data.renamed, hk, hl']
        | int z => exact congrArg (fun x => Except.ok (x, pos)) (hl ⟨r, .int z⟩)
        | float q => exact congrArg (fun x => Except.ok (x, pos)) (hl ⟨r, .float q⟩)
        | bool b => exact congrArg (fun x => Except.ok (x, pos)) (hl ⟨r, .bool b⟩)
        | obj n ty => exact congrArg (fun x => Except.ok (x, pos)) (hl ⟨r, .obj n ty⟩)

theorem checkKwargs_renamed (ts : List (Val × Option Ty)) (kw : List String) :
    checkKwargs (ts.map fun kv => (kv.1.renamed R, kv.2)) (kw.map R.var) = checkKwargs ts kw := by
  have h : ∀ (kv : Val × Option Ty) (k : String), (kv.1.renamed R).data.pyEq (.str (R.var k)) = kv.1.data.pyEq (.str k) :=
    fun kv k => pyEq_renamed kv.1.data (.str k)
  unfold checkKwargs
  simp only [List.any_map, Function.comp_def, h]

theorem kwFun_renamed {V : Type} (kwargs : List (String × V)) (s : String) :
    kwFun (kwargs.map (Prod.map R.var id)) (R.var s) = kwFun kwargs s := by
  unfold kwFun
  rw [List.find?_map, Option.map_map]
  have : ((fun kv : String × V => decide (kv.1 = R.var s)) ∘ Prod.map R.var id) = fun kv => decide (kv.1 = s) := by
    funext kv
    exact decide_eq_decide.2 ⟨fun h => R.var_inj _ _ h, fun h => by simp [h]⟩
  rw [this]
  rfl

end Verif.GP
