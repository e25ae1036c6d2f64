import Verif.Model.BlockOps
import Mathlib.Analysis.Real.Sqrt
import Mathlib.Data.Matrix.Mul
/-!
# Nested matrices and field split preconditioners (xii/linalg/nest.py)

Arithmetic is exact.  PETSc objects are given by what is set in them.
-/
namespace Verif.Nest
open Verif Verif.BlockOps

/-! ### nest -/

/-- A block of a `block_mat`: a number, a matrix or an expression which `convert` turns into one, or a preconditioner. -/
inductive Block (m n : Nat) where
  | num (c : ℝ)
  | mat (M : Matrix (Fin m) (Fin n) ℝ)
  | pre

/-- `block.norm(2)`: the norm type with number 2 of PETSc is the Frobenius norm. -/
noncomputable def frobenius {m n : Nat} (M : Matrix (Fin m) (Fin n) ℝ) : ℝ := Real.sqrt (∑ i, ∑ j, M i j ^ 2)

/-- `isinstance(block, precond)`. -/
def Block.isPre {m n : Nat} : Block m n → Bool
  | .pre => true
  | _ => false

open Classical in
/-- The body of the loop, nest.py:144-154; `none` is `None`. -/
noncomputable def nestBlock (tol : ℝ) (diagonal : Bool) {m n : Nat} : Block m n → Option (Matrix (Fin m) (Fin n) ℝ)
  | .mat M => if diagonal = false ∧ frobenius M < tol then none else some M
  | _ => none

variable {p q : Nat} {rows : Fin p → Nat} {cols : Fin q → Nat}

/-- `nest` of block matrices, nest.py:134-158: the argument of `createNest`, or nothing if a block is a preconditioner. -/
noncomputable def nest (tol : ℝ) (tensor : ∀ i j, Block (rows i) (cols j)) : Option (∀ i j, Option (Matrix (Fin (rows i)) (Fin (cols j)) ℝ)) :=
  if ∃ i j, (tensor i j).isPre = true then none
  else some (fun i j => nestBlock tol (decide (i.val = j.val)) (tensor i j))

/-- The action of a block in `createNest`, where `None` stands for zero. -/
def optApply {m n : Nat} (M : Option (Matrix (Fin m) (Fin n) ℝ)) (x : Fin n → ℝ) : Fin m → ℝ :=
  match M with
  | none => 0
  | some M => M.mulVec x

/-- The action of the matrix of `createNest`. -/
def nestApply (A : ∀ i j, Option (Matrix (Fin (rows i)) (Fin (cols j)) ℝ)) (x : ∀ j, Fin (cols j) → ℝ) (i : Fin p) : Fin (rows i) → ℝ :=
  ∑ j, optApply (A i j) (x j)

/-- An entry of a `block_vec`; `nest` of block vectors, nest.py:127-132, raises on numbers (in `as_petsc`). -/
def nestVec (b : List (Option (List ℝ))) : Py (List (List ℝ)) :=
  pyMap (fun bi => match bi with
    | some v => .ok v
    | none => .error .valueError) b

/-! ### pc_nest -/

/-- The classes of cbc.block which `pc_mat` knows, and all others. -/
inductive Kind where
  | LU | SUPERLU_LU | AMG | Elasticity | other
  deriving DecidableEq

/-- A block of a preconditioner with matrices in `M`: a number, a `precond` with its matrix `A`, a sum, or another operator. -/
inductive PcBlock (M : Type) where
  | number (c : ℚ)
  | pre (k : Kind) (A : M)
  | add (a b : PcBlock M)
  | op (A : M)

/-- The type and the solver set in a `PC`. -/
structure PcType where
  type : String
  solver : Option String
  deriving DecidableEq

/-- What is set in a `PC`; the parts of a composite also have their operators. -/
inductive Setting (M : Type) where
  | simple (t : PcType)
  | composite (parts : List (PcType × M))

/-- The matrix returned by `pc_mat`. -/
inductive OpMat (M : Type) where
  | given (A : M)
  | identity (n : Nat)

/-- `pc_mat` of `precond`, nest.py:15-32 and 58. -/
def leaf : Kind → Py PcType
  | .LU => .ok ⟨"lu", none⟩
  | .SUPERLU_LU => .ok ⟨"lu", some "superlu"⟩
  | .AMG => .ok ⟨"hypre", none⟩
  | .Elasticity => .ok ⟨"gamg", none⟩
  | .other => .error .assertion

/-- The sum of two, nest.py:35-56. -/
def pcSum {M : Type} (size : M → Nat) (k : Kind) (A : M) (l : Kind) (B : M) : Py (Setting M × OpMat M) := do
  let s ← leaf k
  let t ← leaf l
  .ok (.composite [(s, A), (t, B)], .identity (size B))

/-- `pc_mat`, nest.py:13-58; `size` is `A.size(0)`. -/
def pcMat {M : Type} (size : M → Nat) : PcBlock M → Py (Setting M × OpMat M)
  | .pre k A => do
      let t ← leaf k
      .ok (.simple t, .given A)
  | .add (.pre k A) (.pre l B) => pcSum size k A l B
  | _ => .error .assertion

/-- The loop of nest.py:87-89, over the index sets with the given numbers. -/
def groupFrom (union : List Nat → List Nat → List Nat) (isets : List (List Nat)) : List Nat → List Nat → Py (List Nat)
  | g, [] => .ok g
  | g, i :: is => do
      let s ← pyGet isets i
      groupFrom union isets (union g s) is

/-- One group, nest.py:83-90. -/
def group (union : List Nat → List Nat → List Nat) (isets : List (List Nat)) (fl : Nat × Nat) : Py (List Nat) := do
  let g ← pyGet isets fl.1
  if fl.2 = fl.1 + 1 then .ok g
  else groupFrom union isets g (List.range' (fl.1 + 1) (fl.2 - (fl.1 + 1)))

/-- The argument `block_pc`: a `block_mat`, a product of three with a regrouping of the given offsets (without the leading
    zero; `same` is `Rt.A == R`) around a `block_mat`, or another product. -/
inductive BlockPc (M : Type) where
  | mat (blocks : List (List (PcBlock M)))
  | mul (same : Bool) (offsets : List Nat) (blocks : List (List (PcBlock M)))
  | chain

/-- The index sets of the fields, nest.py:73-92, and the matrix inside. -/
def fields {M : Type} (union : List Nat → List Nat → List Nat) (isets : List (List Nat)) : BlockPc M →
    Py (List (List Nat) × List (List (PcBlock M)))
  | .mat blocks => .ok (isets, blocks)
  | .mul same offsets blocks => do
      pyAssert same
      let g ← pyMap (group union isets) (offsetPairs 0 offsets)
      .ok (g, blocks)
  | .chain => .error .valueError

/-- `block_pc[i][j] == 0`. -/
def isZero {M : Type} : PcBlock M → Bool
  | .number c => decide (c = 0)
  | _ => false

/-- The assertion of nest.py:109. -/
def isDiagonal {M : Type} (blocks : List (List (PcBlock M))) : Bool :=
  blocks.zipIdx.all (fun r => r.1.zipIdx.all (fun b => decide (r.2 = b.2) || isZero b.1))

/-- `block_pc[i][i]` and the settings from it, nest.py:113-119. -/
def block {M : Type} (size : M → Nat) (blocks : List (List (PcBlock M))) (i : Nat) : Py (Setting M × OpMat M) := do
  let r ← pyGet blocks i
  let b ← pyGet r i
  pcMat size b

/-- The case of one index set, nest.py:69-71.  What `[0][0]` of a product gives is no preconditioner known to `pc_mat`; this is reported as `TypeError`. -/
def single {M : Type} (size : M → Nat) : BlockPc M → Py (Setting M × OpMat M)
  | .mat blocks => block size blocks 0
  | _ => .error .typeError

/-- What is set in a field split: each field with what is set in its `PC` and its operator. -/
structure Field (M : Type) where
  indices : List Nat
  setting : Setting M
  operator : OpMat M

/-- Lines 93-121 of nest.py for the fields (the type of `pc` is fieldsplit).  The blocks are as many in each row (they are in an array). -/
def split {M : Type} (size : M → Nat) (g : List (List Nat)) (blocks : List (List (PcBlock M))) : Py (List (Field M)) := do
  pyAssert (decide (blocks.length = g.length) && blocks.all (fun r => decide (r.length = g.length)))
  pyAssert (isDiagonal blocks)
  let s ← pyMap (block size blocks) (List.range g.length)
  .ok (List.zipWith (fun x (y : Setting M × OpMat M) => ⟨x, y.1, y.2⟩) g s)

/-- `pc_nest`, nest.py:61-121; with one index set the whole is one field. -/
def pcNest {M : Type} (size : M → Nat) (union : List Nat → List Nat → List Nat) (isets jsets : List (List Nat)) (pc : BlockPc M) :
    Py (List (Field M)) := do
  pyAssert (decide (isets.length = jsets.length))
  pyAssert (decide (isets = jsets))
  if isets.length = 1 then do
    let s ← single size pc
    .ok [⟨isets.getD 0 [], s.1, s.2⟩]
  else do
    let gb ← fields union isets pc
    split size gb.1 gb.2

end Verif.Nest
