import Verif.Model.Workflow
import Verif.Model.Reduced
import Verif.Model.ListUtils
import Mathlib.Algebra.Field.Defs
/-!
# Programs from block forms to the solution

demo/poisson_babuska_bc.py:145-151: `ii_assemble` of the block forms `a` and `L`, then the program of `Model/Workflow.lean`.
-/
namespace Verif.Program
open Verif Ufl BlockOps BlockForm Collapse ApplyBc IIFunction Workflow Reduced ListUtils

variable {S K D : Type} [DecidableEq S] [Field K] [AddCommGroup D] [Module K D]

/-- `assemble` of one block, xii/assembler/xii_assembly.py:46-60: a form or a number. -/
def assembleItem (sem : Sem S K D) (order : List (Term S) → List (Term S)) (mods : List (Assembler S K)) (fuel : Nat)
    (env : Env S K) : Entry S → Py (Tensor K)
  | .num c => .ok (.num c)
  | .form F => assemble sem order mods fuel env F

/-- A `block_form` of arity 1 as a list, xii/assembler/block_form.py:66-77. -/
def nested1 {α : Type} (l : List α) : NL α := .node (l.map .leaf)

/-- A `block_form` of arity 2 as a list of lists. -/
def nested2 {α : Type} (l : List (List α)) : NL α := .node (l.map nested1)

/-- A block of a `block_mat`: operator or number.  (A vector as a block is refused here; in the code it fails when the
    matrix is used.) -/
def toBlock : NL (Tensor K) → Py (Expr K)
  | .leaf (.mat M) => .ok (.mat M)
  | .leaf (.num c) => .ok (.num c)
  | _ => .error .typeError

/-- A block row. -/
def toRow : NL (Tensor K) → Py (List (Expr K))
  | .node xs => pyMap toBlock xs
  | _ => .error .typeError

/-- `block_mat(blocks)`, xii/assembler/xii_assembly.py:67. -/
def blockMat : NL (Tensor K) → Py (List (List (Expr K)))
  | .node xs => pyMap toRow xs
  | _ => .error .typeError

/-- A block of a `block_vec`: the entries of the vector.  (Matrices and numbers as blocks are refused here.) -/
def toEntries : NL (Tensor K) → Py (List K)
  | .leaf (.vec n b) => .ok ((List.range n).map b)
  | _ => .error .typeError

/-- `block_vec(blocks)`, xii/assembler/xii_assembly.py:67. -/
def blockVec : NL (Tensor K) → Py (List (List K))
  | .node xs => pyMap toEntries xs
  | _ => .error .typeError

/-- `A, b = map(ii_assemble, (a, L))`, demo/poisson_babuska_bc.py:145 and xii_assembly.py:62-67.  `fuel` bounds the
    recursion of the assembly of a form; the loops over lists have as many steps as they need. -/
def assembleSystem (sem : Sem S K D) (order : List (Term S) → List (Term S)) (mods : List (Assembler S K)) (fuel : Nat)
    (env : Env S K) (a : List (List (Entry S))) (L : List (Entry S)) : Py (List (List (Expr K)) × List (List K)) := do
  let A ← NL.assembleNested (a.length * a.length + 1) (assembleItem sem order mods fuel env) (nested2 a)
  let b ← NL.assembleNested (L.length + 1) (assembleItem sem order mods fuel env) (nested1 L)
  let A ← blockMat A
  let b ← blockVec b
  .ok (A, b)

/-- demo/poisson_babuska_bc.py:145-151.  `fuel` is for the assembly, `g` for the conversion to matrices. -/
def program (sem : Sem S K D) (order : List (Term S) → List (Term S)) (mods : List (Assembler S K)) (fuel : Nat)
    (env : Env S K) (a : List (List (Entry S))) (L : List (Entry S)) (tiny : Tiny K) (g : Nat) (solve : Solver K)
    (ns : List Nat) (bcs : BcArg K) (diag : K) (sym : Bool) (W : List IIFunction.Space) (h : Heap K) :
    Py (List Fn × Heap K) := do
  let s ← assembleSystem sem order mods fuel env a L
  run tiny g solve ns s.1 s.2 bcs diag sym W h

/-- Calls of `add` for one form after the other, xii/assembler/block_form.py:93-121; the first exception ends the
    program. -/
def addAll {σ : Type} (one : σ → Integral S → Py σ) : σ → List (List (Integral S)) → Py σ
  | s, [] => .ok s
  | s, f :: fs =>
      match add one s f with
      | (s', none) => addAll one s' fs
      | (_, some e) => .error e

/-- A program which makes block forms over `V` by `add`: `a = block_form(V, 2)`, `a.add(form)` for the forms `as`,
    `L = block_form(V, 1)`, `L.add(form)` for the forms `Ls` (xii/assembler/block_form.py:93-121, 138-152), then
    `program`. -/
def formProgram (sem : Sem S K D) (order : List (Term S) → List (Term S)) (mods : List (Assembler S K)) (fuel : Nat)
    (env : Env S K) (null : S → List (Integral S)) (V : List S) (as Ls : List (List (Integral S))) (tiny : Tiny K)
    (g : Nat) (solve : Solver K) (bcs : BcArg K) (diag : K) (sym : Bool) (W : List IIFunction.Space) (h : Heap K) :
    Py (List Fn × Heap K) := do
  let a ← addAll (addOne2 V) (start2 V) as
  let L ← addAll (addOne1 V) (start1 null V) Ls
  program sem order mods fuel env a L tiny g solve (V.map sem.dim) bcs diag sym W h

end Verif.Program
