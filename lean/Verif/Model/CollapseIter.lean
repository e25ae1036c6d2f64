import Verif.Model.Collapse
import Verif.Model.Convert
import Verif.Model.BlockOps
import Mathlib.Data.List.Sort
/-!
# `xii/linalg/collapse_iter.py`

Operators are Python objects and are nodes of the graph by identity, so they carry an `id` here.  Vectors are also
terminals of the code; every operation refuses them (`ValueError`, `AssertionError`) and they are not modelled.
-/
namespace Verif.CollapseIter
open Verif Collapse BlockOps

/-- cbc.block expressions with the identities of their operators.  `other` is any object which is neither a terminal nor
one of the four operators; `r` is what `ii_convert` makes of it. -/
inductive OExpr (K : Type) [Zero K] where
  | num : K → OExpr K
  | mat : Mat K → OExpr K
  | other (id : Nat) (r : Py (Mat K))
  | mul (id : Nat) (chain : List (OExpr K))
  | add (id : Nat) (a b : OExpr K)
  | sub (id : Nat) (a b : OExpr K)
  | tr (id : Nat) (a : OExpr K)

section
variable {K : Type} [CommRing K]

mutual
/-- The expression without identities. -/
def OExpr.expr : OExpr K → Expr K
  | .num c => .num c
  | .mat M => .mat M
  | .other _ r => .op r
  | .mul _ chain => .mul (exprAll chain)
  | .add _ a b => .add a.expr b.expr
  | .sub _ a b => .sub a.expr b.expr
  | .tr _ a => .tr a.expr
/-- The same for lists. -/
def exprAll : List (OExpr K) → List (Expr K)
  | [] => []
  | e :: es => e.expr :: exprAll es
end

/-- Values of terminals and `is_terminal`, xii/linalg/collapse_iter.py:31-34. -/
def OExpr.terminal : OExpr K → Option (Val K)
  | .num c => some (.num c)
  | .mat M => some (.mat M)
  | _ => none

/-- The identity of an operator (of terminals it is never asked). -/
def OExpr.id : OExpr K → Nat
  | .num _ => 0
  | .mat _ => 0
  | .other i _ => i
  | .mul i _ => i
  | .add i _ _ => i
  | .sub i _ _ => i
  | .tr i _ => i

/-- The factors of a product (cbc.block flattens products). -/
def OExpr.flat : OExpr K → List (OExpr K)
  | .mul _ chain => chain
  | e => [e]

/-- Children of an operator, at most two, xii/linalg/collapse_iter.py:57-67; `fresh` is the identity of the product made by
`reduce(block_mul, rest)` and the second result tells whether it was made. -/
def children (fresh : Nat) : OExpr K → List (OExpr K)
  | .add _ a b => [a, b]
  | .sub _ a b => [a, b]
  | .tr _ a => [a]
  | .mul _ (c :: d :: e :: rest) => [c, .mul fresh ((d :: e :: rest).flatMap OExpr.flat)]
  | .mul _ chain => chain
  | _ => []

/-- Names of nodes which are terminals: `A_k` of `expr2graph` and `str(mat)` of `collapse`. -/
inductive Name where
  | A (k : Nat)
  | str (s : Nat)
  deriving DecidableEq

/-- Nodes: operators and names. -/
inductive Node (K : Type) [Zero K] where
  | op (e : OExpr K)
  | name (n : Name)

/-- What tells nodes apart: the identity of an object or a string. -/
inductive Key where
  | op (id : Nat)
  | name (n : Name)
  deriving DecidableEq

/-- Nodes are the same if they are the same object or the same string. -/
def Node.key : Node K → Key
  | .op e => .op e.id
  | .name n => .name n

/-- An edge with its `index`. -/
structure Edge (K : Type) [Zero K] where
  src : Node K
  dst : Node K
  index : Nat

/-- `nx.DiGraph` given by its edges; isolated nodes do not matter.  The order of edges has no meaning. -/
abbrev Graph (K : Type) [Zero K] := List (Edge K)

/-- `terminals`: later entries first. -/
abbrev Terminals (K : Type) [Zero K] := List (Name × Val K)

/-- `add_edge`: an existing edge between these nodes gets the new index. -/
def addEdge (g : Graph K) (e : Edge K) : Graph K :=
  g.filter (fun d => ¬ (d.src.key = e.src.key ∧ d.dst.key = e.dst.key)) ++ [e]

/-- State of `expr2graph`. -/
structure Build (K : Type) [Zero K] where
  graph : Graph K := []
  terminals : Terminals K := []
  /-- `subexpr`, the end of the Python list first -/
  stack : List (OExpr K)
  counter : Nat := 0

/-- The loop over the children of `parent`, xii/linalg/collapse_iter.py:69-79. -/
def addChildren (parent : OExpr K) : Nat → List (OExpr K) → Build K → Build K
  | _, [], s => s
  | i, c :: cs, s =>
      match c.terminal with
      | some v =>
          addChildren parent (i + 1) cs
            { s with graph := addEdge s.graph ⟨.op parent, .name (.A s.counter), i⟩
                     terminals := (.A s.counter, v) :: s.terminals
                     counter := s.counter + 1 }
      | none =>
          addChildren parent (i + 1) cs
            { s with graph := addEdge s.graph ⟨.op parent, .op c, i⟩, stack := c :: s.stack }

/-- `expr2graph`, xii/linalg/collapse_iter.py:53-81, with the mapping of names to terminals of line 256.  `next` is an
identity not used so far. -/
def expr2graph : Nat → Nat → Build K → Py (Build K)
  | 0, _, _ => .error .outOfFuel
  | fuel + 1, next, s =>
      match s.stack with
      | [] => .ok s
      | parent :: stack =>
          expr2graph fuel (next + 1) (addChildren parent 0 (children next parent) { s with stack := stack })

/-- Edges leaving a node. -/
def outEdges (g : Graph K) (n : Node K) : List (Edge K) := g.filter (fun d => d.src.key = n.key)

/-- `out_degree(node) == 0`, xii/linalg/collapse_iter.py:84-88. -/
def isLeaf (g : Graph K) (n : Node K) : Bool := (outEdges g n).isEmpty

/-- A tree: its root and its children in the order of their indices. -/
structure Tree (K : Type) [Zero K] where
  root : Node K
  args : List (Node K)

/-- Successors in the order of indices. -/
def successors (g : Graph K) (n : Node K) : List (Node K) :=
  ((outEdges g n).insertionSort (fun d e => d.index ≤ e.index)).map Edge.dst

/-- Nodes with outgoing edges, each once. -/
def sources : List (Key) → Graph K → List (Node K)
  | _, [] => []
  | seen, d :: g => if seen.contains d.src.key then sources seen g else d.src :: sources (d.src.key :: seen) g

/-- `collapsable_trees`, xii/linalg/collapse_iter.py:99-118: operators all of whose successors have none. -/
def collapsableTrees (g : Graph K) : List (Tree K) :=
  ((sources [] g).filter (fun n => (outEdges g n).all (fun d => isLeaf g d.dst))).map (fun n => ⟨n, successors g n⟩)

/-- `terminals[arg]`; operators are not among the keys. -/
def lookup (T : Terminals K) : Node K → Py (Val K)
  | .op _ => .error .keyError
  | .name n => match T.lookup n with
      | some v => .ok v
      | none => .error .keyError

/-- `collapse_transpose`, xii/linalg/collapse_iter.py:171-180. -/
def opTr : Val K → Py (Val K)
  | .mat M => .ok (.mat M.tr)
  | .num c => .ok (.num c)

/-- `collapse_add`, xii/linalg/collapse_iter.py:183-199. -/
def opAdd (tiny : Tiny K) : Val K → Val K → Py (Val K)
  | .mat M, .num c => if tiny c then .ok (.mat M) else .error .valueError
  | .num c, .mat M => if tiny c then .ok (.mat M) else .error .valueError
  | .mat M, .mat N => matAxpy 1 M N
  | .num _, .num _ => .error .valueError

/-- `collapse_sub`, xii/linalg/collapse_iter.py:202-214. -/
def opSub : Val K → Val K → Py (Val K)
  | .mat M, .mat N => matAxpy (-1) M N
  | _, _ => .error .valueError

/-- `collapse_mul`, xii/linalg/collapse_iter.py:217-243. -/
def opMul : Val K → Val K → Py (Val K)
  | .mat M, .mat N => matMul M N
  | .mat M, .num c => .ok (.mat (M.scale c))
  | .num c, .mat M => .ok (.mat (M.scale c))
  | .num _, .num _ => .error .valueError

/-- `collapse_tree`, xii/linalg/collapse_iter.py:156-168: a wrong number of arguments is a `TypeError`. -/
def applyOp (tiny : Tiny K) : Node K → List (Val K) → Py (Val K)
  | .op (.add _ _ _), [a, b] => opAdd tiny a b
  | .op (.sub _ _ _), [a, b] => opSub a b
  | .op (.mul _ _), [a, b] => opMul a b
  | .op (.tr _ _), [a] => opTr a
  | .op (.add _ _ _), _ => .error .typeError
  | .op (.sub _ _ _), _ => .error .typeError
  | .op (.mul _ _), _ => .error .typeError
  | .op (.tr _ _), _ => .error .typeError
  | _, _ => .error .valueError

/-- `collapse_tree`, xii/linalg/collapse_iter.py:147-168. -/
def collapseTree (tiny : Tiny K) (T : Terminals K) (t : Tree K) : Py (Val K) := do
  let vals ← pyMap (lookup T) t.args
  applyOp tiny t.root vals

/-- Edges to a node. -/
def inEdges (g : Graph K) (n : Node K) : List (Edge K) := g.filter (fun d => d.dst.key = n.key)

/-- `remove_nodes_from(tree.nodes)`. -/
def removeTree (g : Graph K) (t : Tree K) : Graph K :=
  let gone := (t.root :: t.args).map Node.key
  g.filter (fun d => ¬ (gone.contains d.src.key ∨ gone.contains d.dst.key))

/-- `replace_tree`, xii/linalg/collapse_iter.py:127-144: the graph and whether nothing is left to do. -/
def replaceTree (g : Graph K) (t : Tree K) (n : Name) : Py (Graph K × Bool) :=
  match inEdges g t.root with
  | [] => .ok (g, true)
  | [d] => .ok (addEdge (removeTree g t) ⟨d.src, .name n, d.index⟩, false)
  | _ => .error .valueError

/-- State of the loop of `collapse`. -/
structure State (K : Type) [Zero K] where
  graph : Graph K
  terminals : Terminals K
  steps : Nat := 0
  done : Bool := false

/-- The inner loop, xii/linalg/collapse_iter.py:260-268.  `name k v` is `str(mat)` in step `k`. -/
def collapseTrees (tiny : Tiny K) (name : Nat → Val K → Nat) : List (Tree K) → State K → Py (State K)
  | [], s => .ok s
  | t :: ts, s => do
      let v ← collapseTree tiny s.terminals t
      let n := Name.str (name s.steps v)
      let r ← replaceTree s.graph t n
      collapseTrees tiny name ts ⟨r.1, (n, v) :: s.terminals, s.steps + 1, r.2⟩

/-- The outer loop, xii/linalg/collapse_iter.py:259-268.  `sched` is the order in which the trees are visited, which depends
on the iteration over a set; without trees the loop goes on for ever. -/
def collapseLoop (tiny : Tiny K) (name : Nat → Val K → Nat) (sched : Nat → List (Tree K) → List (Tree K)) :
    Nat → State K → Py (State K)
  | 0, _ => .error .outOfFuel
  | fuel + 1, s =>
      if s.done then .ok s
      else do
        let s ← collapseTrees tiny name (sched s.steps (collapsableTrees s.graph)) s
        collapseLoop tiny name sched fuel s

/-- `get_tree_root`, xii/linalg/collapse_iter.py:121-124. -/
def treeRoot (g : Graph K) : Py (Node K) :=
  match sources [] g with
  | [n] => .ok n
  | _ => .error .valueError

mutual
/-- Identities of all operators in an expression. -/
def OExpr.ids : OExpr K → List Nat
  | .num _ => []
  | .mat _ => []
  | .other i _ => [i]
  | .mul i chain => i :: idsAll chain
  | .add i a b => i :: (a.ids ++ b.ids)
  | .sub i a b => i :: (a.ids ++ b.ids)
  | .tr i a => i :: a.ids
/-- The same for lists. -/
def idsAll : List (OExpr K) → List Nat
  | [] => []
  | e :: es => e.ids ++ idsAll es
end

/-- `collapse` of an expression which is not a block matrix, xii/linalg/collapse_iter.py:246-270.  New products get identities
which do not occur in the expression. -/
def collapse (tiny : Tiny K) (name : Nat → Val K → Nat) (sched : Nat → List (Tree K) → List (Tree K)) (fuel : Nat)
    (e : OExpr K) : Py (Val K) :=
  match e.terminal with
  | some v => .ok v
  | none => do
      let b ← expr2graph fuel (e.ids.foldl (fun a b => max a (b + 1)) 0) { stack := [e] }
      let s ← collapseLoop tiny name sched fuel ⟨b.graph, b.terminals, 0, false⟩
      let root ← treeRoot s.graph
      collapseTree tiny s.terminals ⟨root, successors s.graph root⟩

/-- `collapse` of a `block_mat`, xii/linalg/collapse_iter.py:250-252: every block on its own. -/
def collapseBlocks (tiny : Tiny K) (name : Nat → Val K → Nat) (sched : Nat → List (Tree K) → List (Tree K)) (fuel : Nat)
    (blocks : List (List (OExpr K))) : Py (List (List (Val K))) :=
  pyMap (pyMap (collapse tiny name sched fuel)) blocks

/-- `monolithic` of a `block_mat`, xii/linalg/collapse_iter.py:282-288; `rs`, `cs` are the sizes given by `bmat_sizes` in
`convert`. -/
def monolithic (tiny : Tiny K) (name : Nat → Val K → Nat) (sched : Nat → List (Tree K) → List (Tree K)) (fuel : Nat)
    (rs cs : List Nat) (blocks : List (List (OExpr K))) : Py (Mat K) := do
  let vals ← collapseBlocks tiny name sched fuel blocks
  convertMat tiny fuel rs cs (vals.map (fun row => row.map Val.expr))

end
end Verif.CollapseIter
