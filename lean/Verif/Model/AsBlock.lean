import Verif.Model.Convert
import Verif.Model.BlockOps
/-!
# Splitting monolithic objects: `as_block`, xii/linalg/bc_apply.py:153-200
-/
namespace Verif.Collapse
open Verif BlockOps

variable {K : Type} [CommRing K]

/-- Index sets of consecutive blocks of the given sizes: `cumsum` and `createStride`,
xii/linalg/bc_apply.py:160-164 and 95-97. -/
def strides : Nat → List Nat → List (List Nat)
  | _, [] => []
  | o, n :: ns => List.range' o n :: strides (o + n) ns

/-- `as_block` of a vector, xii/linalg/bc_apply.py:179-184: `getValues` of each index set. -/
def asBlockVec (v : List K) (idx : List (List Nat)) : Py (List (List K)) :=
  pyMap (gather v) idx

/-- The submatrix of given rows and columns, xii/linalg/bc_apply.py:189 (`getSubMatrix`) or
197 (scipy indexing).  Indices out of range raise. -/
def subMat (M : Mat K) (rs cs : List Nat) : Py (Mat K) :=
  if rs.all (· < M.rows) ∧ cs.all (· < M.cols) then
    .ok (Mat.of rs.length cs.length (fun i j => M.e (rs.getD i 0) (cs.getD j 0)))
  else .error .indexError

/-- `as_block` of a matrix, xii/linalg/bc_apply.py:186-200; the same index sets are used for
rows and columns. -/
def asBlockMat (M : Mat K) (idx : List (List Nat)) : Py (List (List (Mat K))) :=
  pyMap (fun rs => pyMap (fun cs => subMat M rs cs) idx) idx

end Verif.Collapse
