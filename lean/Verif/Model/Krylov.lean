import Verif.Model.BlockOps
/-! # `xii/linalg/krylov_api.py` -/
namespace Verif.Krylov
open Verif BlockOps

variable {K : Type}

/-- A block operator: sizes of the blocks of `create_vec(0)` and `create_vec(1)` and the product with a block
vector, which may raise. -/
structure BlockOp (K : Type) where
  rows : List Nat
  cols : List Nat
  apply : List (List K) → Py (List (List K))

/-- The loop filling the blocks of the preallocated vector, xii/linalg/krylov_api.py:23-27 and 59-63:
`set_local(xarr[first:first+size])` raises when the slice is too short. -/
def fill (arr : List K) : Nat → List Nat → Py (List (List K))
  | _, [] => .ok []
  | first, size :: sizes =>
      let slice := (arr.drop first).take size
      if slice.length = size then do
        let rest ← fill arr (first + size) sizes
        .ok (slice :: rest)
      else .error .runtimeError

/-- `ScipyLinOp.matvec`, xii/linalg/krylov_api.py:21-31; the preallocated vector has the row sizes (line 19).
scipy checks the length of the argument against the shape of line 18. -/
def matvec (A : BlockOp K) (arr : List K) : Py (List K) :=
  if arr.length = A.cols.sum then do
    let x ← fill arr 0 A.rows
    let y ← A.apply x
    .ok y.flatten
  else .error .valueError

/-- `pyamg_solve` and `scipy_solve`, xii/linalg/krylov_api.py:34-65 and 68-101.  `solver` is the Krylov method:
it gets the operator, the right hand side and the initial guess and returns an array or raises (nonzero status);
preconditioners are left out. -/
def solve (solver : (List K → Py (List K)) → List K → List K → Py (List K)) (A : BlockOp K)
    (bb x0 : List (List K)) : Py (List (List K)) := do
  let arr ← solver (matvec A) bb.flatten x0.flatten
  fill arr 0 (x0.map List.length)

end Verif.Krylov
