import Mathlib.LinearAlgebra.Span.Defs
import Mathlib.LinearAlgebra.Pi
import Mathlib.Data.Real.Basic
import Verif.Model.BlockOps
/-! # `ii_PETScOperator` and `ii_PETScPreconditioner`, xii/linalg/block_utils.py -/
namespace Verif.PetscWrap
open Verif BlockOps

variable {K : Type}

/-- A vector of PETSc: nested or not. -/
inductive PVec (K : Type) where
  | nest : List (List K) → PVec K
  | plain : List K → PVec K
  deriving DecidableEq

/-- An operator of cbc.block: `create_vec` gives block vectors or vectors (`isBlock`), with the products by the
operator and by its transpose (`block_transpose`), which may raise.  An operator on vectors which are not block
vectors acts on the list of one block. -/
structure Op (K : Type) where
  isBlock : Bool
  apply : List (List K) → Py (List (List K))
  applyT : List (List K) → Py (List (List K))

/-- `y *= 0`, e.g. xii/linalg/block_utils.py:59. -/
def scaleZero [Mul K] [Zero K] : PVec K → PVec K
  | .nest bs => .nest (bs.map (fun b => b.map (fun v => v * 0)))
  | .plain b => .plain (b.map (fun v => v * 0))

/-- Sum of vectors of the same size; PETSc raises otherwise. -/
def addVec [Add K] (a b : List K) : Py (List K) :=
  if a.length = b.length then .ok (List.zipWith (· + ·) a b) else .error .runtimeError

/-- Sums of the parts of nested vectors with the same number of parts. -/
def addNest [Add K] : List (List K) → List (List K) → Py (List (List K))
  | [], [] => .ok []
  | a :: as, b :: bs => do
      let c ← addVec a b
      let cs ← addNest as bs
      .ok (c :: cs)
  | _, _ => .error .runtimeError

/-- `y.axpy(1., as_petsc_nest(y_bvec))`, xii/linalg/block_utils.py:67. -/
def axpyBlock [Add K] : PVec K → List (List K) → Py (PVec K)
  | .nest y, bs => do
      let r ← addNest y bs
      .ok (.nest r)
  | .plain _, _ => .error .runtimeError

/-- `y.axpy(1., as_petsc(y_bvec))`, xii/linalg/block_utils.py:88. -/
def axpyPlain [Add K] : PVec K → List (List K) → Py (PVec K)
  | .plain y, [b] => do
      let r ← addVec y b
      .ok (.plain r)
  | _, _ => .error .runtimeError

/-- `x.getNestSubVecs()`, xii/linalg/block_utils.py:62; PETSc raises for other vectors. -/
def subVecs : PVec K → Py (List (List K))
  | .nest bs => .ok bs
  | .plain _ => .error .runtimeError

/-- `PETScVector(x)`, xii/linalg/block_utils.py:86.  A nested vector is passed on as it is; products with it are not
defined. -/
def wholeVec : PVec K → Py (List (List K))
  | .plain b => .ok [b]
  | .nest _ => .error .runtimeError

/-- The methods `mult`, `multTranspose` (xii/linalg/block_utils.py:57-97), `apply` and `applyTranspose`
(xii/linalg/block_utils.py:131-174), which have the same bodies, with the product as an argument; returns the new
value of `y`.  `x` and `y` are different vectors. -/
def act [Mul K] [Zero K] [Add K] (isBlock : Bool) (prod : List (List K) → Py (List (List K))) (x y : PVec K) :
    Py (PVec K) :=
  if isBlock then do
    let xb ← subVecs x
    let yb ← prod xb
    axpyBlock (scaleZero y) yb
  else do
    let xb ← wholeVec x
    let yb ← prod xb
    axpyPlain (scaleZero y) yb

/-- `mult` and `apply`, xii/linalg/block_utils.py:57-67, 83-88, 131-142 and 160-165. -/
def mult [Mul K] [Zero K] [Add K] (A : Op K) (x y : PVec K) : Py (PVec K) := act A.isBlock A.apply x y

/-- `multTranspose` and `applyTranspose`, xii/linalg/block_utils.py:69-80, 90-97, 144-156 and 167-174. -/
def multTranspose [Mul K] [Zero K] [Add K] (A : Op K) (x y : PVec K) : Py (PVec K) := act A.isBlock A.applyT x y

/-- The null space attached to the matrix, xii/linalg/block_utils.py:102-106, if the arguments of `PETSc.NullSpace`
mean what they are called: constants and linear combinations of the vectors. -/
def attachedNullspace {n : Nat} : Option (List (Fin n → ℝ)) → Option (Submodule ℝ (Fin n → ℝ))
  | none => none
  | some vs => some (Submodule.span ℝ ({fun _ => 1} ∪ {v | v ∈ vs}))

end Verif.PetscWrap
