import Verif.Model.BlockOps
import Mathlib.Data.Matrix.Mul
import Mathlib.Algebra.BigOperators.Group.List.Basic
/-!
# Grouping of blocks and special matrices (xii/linalg/matrix_utils.py:46-119, xii/linalg/block_utils.py:17-23)

Arithmetic is exact.  A `block_mat` is the list of its rows.
-/
namespace Verif.Reshape
open Verif Verif.BlockOps

/-! ### block_reshape -/

/-- A block of the result of `block_reshape`: a block of the argument or a `block_mat` of such. -/
inductive Entry (α : Type) where
  | one (a : α)
  | blk (rows : List (List α))

/-- `AA[i, j]`. -/
def item {α : Type} (AA : List (List α)) (i j : Nat) : Py α := do
  let r ← pyGet AA i
  pyGet r j

/-- `l[f:l]` of a sequence. -/
def slice {α : Type} (l : List α) (fl : Nat × Nat) : List α := (l.drop fl.1).take (fl.2 - fl.1)

/-- `AA[ri:rj, ci:cj]`. -/
def slices {α : Type} (AA : List (List α)) (r c : Nat × Nat) : List (List α) := (slice AA r).map (fun row => slice row c)

/-- The body of the loops, matrix_utils.py:82-85. -/
def reshapeEntry {α : Type} (AA : List (List α)) (r c : Nat × Nat) : Py (Entry α) :=
  if r.2 - r.1 = 1 ∧ c.2 - c.1 = 1 then do
    let a ← item AA r.1 c.1
    .ok (.one a)
  else .ok (.blk (slices AA r c))

/-- `block_reshape`, matrix_utils.py:73-87.  Offsets are not negative. -/
def blockReshape {α : Type} (AA : List (List α)) (offsets : List Nat) : Py (List (List (Entry α))) :=
  pyMap (fun r => pyMap (fun c => reshapeEntry AA r c) (offsetPairs 0 offsets)) (offsetPairs 0 offsets)

/-! ### block_diag_mat -/

/-- A block: the number 0 or an operator. -/
inductive Block (α : Type) where
  | zero
  | op (a : α)

/-- `block_diag_mat`, block_utils.py:17-23. -/
def blockDiag {α : Type} (diagonal : List α) : List (List (Block α)) :=
  diagonal.zipIdx.map (fun ai => ((List.replicate diagonal.length Block.zero).set ai.2 (.op ai.1)))

/-! ### identity_matrix -/

/-- The argument of `identity_matrix`: a function space or a number (by the dimension), or a list. -/
inductive Space where
  | dim (n : Nat)
  | list (n : Nat) (V : Fin n → Space)

/-- Operators between spaces: the number 0, a matrix, or a `block_mat`. -/
inductive Op (K : Type) : Space → Space → Type where
  | zero {s t : Space} : Op K s t
  | mat {m n : Nat} (A : Matrix (Fin m) (Fin n) K) : Op K (.dim m) (.dim n)
  | blk {m n : Nat} {V : Fin m → Space} {W : Fin n → Space} (A : ∀ i j, Op K (V i) (W j)) : Op K (.list m V) (.list n W)

/-- `diagonal_matrix(n, 1)`, matrix_utils.py:46-56. -/
def diagonalOne (K : Type) [Zero K] [One K] (n : Nat) : Matrix (Fin n) (Fin n) K := fun i j => if i = j then 1 else 0

/-- The assignment `mat[i][i] = ...` to a matrix of zeros, matrix_utils.py:67-69. -/
def setDiag {K : Type} {n : Nat} {V : Fin n → Space} (d : ∀ i, Op K (V i) (V i)) (i j : Fin n) : Op K (V i) (V j) :=
  if h : i = j then h ▸ d i else .zero

/-- `identity_matrix`, matrix_utils.py:59-70. -/
def identity (K : Type) [Zero K] [One K] : (V : Space) → Op K V V
  | .dim n => .mat (diagonalOne K n)
  | .list _ V => .blk (setDiag (fun i => identity K (V i)))

/-! ### row_matrix and zero_matrix -/

/-- A matrix in compressed form, `csr_matrix((data, indices, indptr), shape)`. -/
structure Csr (K : Type) where
  data : List K
  indices : List Nat
  indptr : List Nat
  rows : Nat
  cols : Nat

/-- `np.cumsum`. -/
def cumsum : Nat → List Nat → List Nat
  | _, [] => []
  | s, x :: xs => (s + x) :: cumsum (s + x) xs

/-- `set(row.size() for row in rows)`, without repetitions. -/
def sizes {K : Type} (rows : List (List K)) : List Nat := (rows.map List.length).dedup

/-- `row_matrix`, matrix_utils.py:104-119.  `ncols, = ...` raises unless the set has one element. -/
def rowMatrix {K : Type} (rows : List (List K)) : Py (Csr K) :=
  match sizes rows with
  | [ncols] => .ok ⟨rows.flatten, (List.replicate rows.length (List.range ncols)).flatten,
      cumsum 0 (0 :: List.replicate rows.length ncols), rows.length, ncols⟩
  | _ => .error .valueError

/-- `csr_matrix((data, (rows, cols)), shape)`: triples; scipy raises if an index is not in the shape. -/
def triples {K : Type} (data : List K) (I J : List Nat) (m n : Nat) : Py (List (K × Nat × Nat) × Nat × Nat) :=
  if (∀ i ∈ I, i < m) ∧ (∀ j ∈ J, j < n) then .ok (data.zip (I.zip J), m, n) else .error .valueError

/-- `zero_matrix`, matrix_utils.py:90-101. -/
def zeroMatrix (K : Type) [Zero K] (nrows ncols : Nat) : Py (List (K × Nat × Nat) × Nat × Nat) :=
  triples (List.replicate nrows 0) (List.range nrows) (List.replicate nrows 0) nrows ncols

end Verif.Reshape
