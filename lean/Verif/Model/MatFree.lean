import Mathlib.LinearAlgebra.Matrix.ToLin
import Verif.Model.BlockOps
/-!
# Matrix representations of matrix-free operators

`xii/linalg/fe_space_op.py` and the last branch of `collapse` in `xii/linalg/convert.py`.  Vectors of
dimension `n` are functions `Fin n → K`.
-/
namespace Verif.MatFree
open Verif

variable {K : Type} [CommRing K] {m n : Nat}

/-- An operator as it is applied by `self*x`: it may raise. -/
abbrev Op (K : Type) (m n : Nat) := (Fin n → K) → Py (Fin m → K)

/-- The loop over columns of `FESpaceOperator.collapse`, xii/linalg/fe_space_op.py:33-42: the entry is set,
the operator applied and the entry is reset.  `x` is `x_values`. -/
def femColumns (op : Op K m n) : List (Fin n) → (Fin n → K) → Py (List (Fin m → K))
  | [], _ => .ok []
  | i :: is, x => do
      let x1 := Function.update x i 1
      let col ← op x1
      let rest ← femColumns op is (Function.update x1 i 0)
      .ok (col :: rest)

/-- `Rn_basis` with the loop of its caller, xii/linalg/convert.py:403-415 and 128-130: the values are
multiplied by zero after each step. -/
def basisColumns (op : Op K m n) : List (Fin n) → (Fin n → K) → Py (List (Fin m → K))
  | [], _ => .ok []
  | i :: is, x => do
      let x1 := Function.update x i 1
      let col ← op x1
      let rest ← basisColumns op is (fun j => x1 j * 0)
      .ok (col :: rest)

/-- `(vstack(columns).T).tocsr()`, xii/linalg/fe_space_op.py:44 and xii/linalg/convert.py:131: scipy refuses
to stack nothing. -/
def stackT (cols : List (Fin m → K)) : Py (Matrix (Fin m) (Fin n) K) :=
  if cols = [] then .error .valueError else .ok (fun i j => (cols.getD j 0) i)

/-- An object of class `FESpaceOperator`: the operator and the attribute `matrix_repr` if it is set. -/
structure FemOp (K : Type) [CommRing K] (m n : Nat) where
  op : Op K m n
  repr : Option (Matrix (Fin m) (Fin n) K) := none

/-- `FESpaceOperator.collapse`, xii/linalg/fe_space_op.py:22-54.  `x0` are the values of the vector returned
by `create_vec`. -/
def FemOp.collapse (o : FemOp K m n) (x0 : Fin n → K) : Py (Matrix (Fin m) (Fin n) K × FemOp K m n) :=
  match o.repr with
  | some A => .ok (A, o)
  | none => do
      let cols ← femColumns o.op (List.finRange n) x0
      let A ← stackT cols
      .ok (A, { o with repr := some A })

/-- Repeated calls of `collapse`, each with its own vector from `create_vec`. -/
def FemOp.calls (o : FemOp K m n) : List (Fin n → K) → Py (List (Matrix (Fin m) (Fin n) K))
  | [] => .ok []
  | x0 :: xs => do
      let r ← o.collapse x0
      let rest ← r.2.calls xs
      .ok (r.1 :: rest)

/-- The last branch of `collapse`, xii/linalg/convert.py:125-133. -/
def columnConvert (op : Op K m n) : Py (Matrix (Fin m) (Fin n) K) := do
  let cols ← basisColumns op (List.finRange n) (fun _ => 0)
  stackT cols

end Verif.MatFree
