import Verif.Model.Krylov
/-! # The solvers of `xii/linalg/krylov_api.py` -/
namespace Verif.Krylov
open Verif BlockOps

variable {K : Type}

/-- What a Krylov method of pyamg or scipy returns, and the arguments of the calls of `callback` (scipy) or the
    entries appended to `residuals` (pyamg, as lists of length one). -/
structure Answer (K : Type) where
  arr : List K
  status : Int
  calls : List (List K)

/-- A Krylov method: operator, preconditioner, right hand side, initial guess. -/
abbrev Method (K : Type) :=
  (List K → Py (List K)) → Option (List K → Py (List K)) → List K → List K → Py (Answer K)

/-- The values of the blocks of `x0` after the call, and the result (or exception). -/
structure Result (K : Type) where
  x0 : List (List K)
  ret : Py (List (List K) × List K)

/-- The loop writing the array to the blocks of `x0`, krylov_api.py:58-63 and 94-99; blocks before the one whose
    slice is too short are overwritten. -/
def fillInto (arr : List K) : Nat → List (List K) → List (List K) × Option PyErr
  | _, [] => ([], none)
  | first, x :: xs =>
      let slice := (arr.drop first).take x.length
      if slice.length = x.length then
        let r := fillInto arr (first + x.length) xs
        (slice :: r.1, r.2)
      else (x :: xs, some .runtimeError)

/-- Lines 56-65 and 92-101 after the method has returned: `record` makes the entry of `residuals`. -/
def finish (record : List K → K) (x0 : List (List K)) (a : Answer K) : Result K :=
  if a.status = 0 then
    let r := fillInto a.arr 0 x0
    match r.2 with
    | none => ⟨r.1, .ok (r.1, a.calls.map record)⟩
    | some e => ⟨r.1, .error e⟩
  else ⟨x0, .error .assertion⟩

/-- `pyamg_solve`, krylov_api.py:34-65 (`record` reads the number) and `scipy_solve`, krylov_api.py:68-101 (`record`
    is `np.linalg.norm`, line 85). -/
def krylovSolve (record : List K → K) (method : Method K) (A : BlockOp K) (M : Option (BlockOp K))
    (bb x0 : List (List K)) : Result K :=
  match method (matvec A) (M.map matvec) bb.flatten x0.flatten with
  | .ok a => finish record x0 a
  | .error e => ⟨x0, .error e⟩

end Verif.Krylov
