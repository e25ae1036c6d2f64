import Verif.Model.Py
import Verif.Model.Mat
/-!
# `ii_convert` of composites: `xii/linalg/convert.py`
-/
namespace Verif.Collapse
open Verif

/-- cbc.block expressions as seen by `collapse`, xii/linalg/convert.py:81-135.
* `num` - a Python number,
* `mat` - a dolfin/PETSc matrix,
* `op r` - any other object with `.v`, `.matrix`, `.collapse` or `create_vec`
  (lines 105-133), `r` is the matrix it gives or the exception it raises,
* `mul` - `block_mul` with its chain of factors, `add`, `sub`, `tr` - `block_add`,
  `block_sub`, `block_transpose`. -/
inductive Expr (K : Type) [Zero K] where
  | num : K → Expr K
  | mat : Mat K → Expr K
  | op : Py (Mat K) → Expr K
  | mul : List (Expr K) → Expr K
  | add : Expr K → Expr K → Expr K
  | sub : Expr K → Expr K → Expr K
  | tr : Expr K → Expr K

/-- What `collapse` returns: a number or a matrix. -/
inductive Val (K : Type) [Zero K] where
  | num : K → Val K
  | mat : Mat K → Val K

section
variable {K : Type} [CommRing K]

/-- A value is an expression. -/
def Val.expr : Val K → Expr K
  | .num c => .num c
  | .mat M => .mat M

/-- Factors contributed to a `block_mul` chain (cbc.block flattens products). -/
def Expr.flat : Expr K → List (Expr K)
  | .mul chain => chain
  | e => [e]

/-- Python `a * b`: numbers multiply at once, everything else builds a `block_mul`
(cbc.block). -/
def pyMul : Expr K → Expr K → Expr K
  | .num a, .num b => .num (a * b)
  | a, b => .mul (a.flat ++ b.flat)

/-- `reduce(operator.mul, B)`, xii/linalg/convert.py:221; `TypeError` for an empty list. -/
def reduceMul : List (Expr K) → Py (Expr K)
  | [] => .error .typeError
  | b :: bs => .ok (bs.foldl pyMul b)

/-- Product of two matrices, xii/linalg/convert.py:196-204. -/
def matMul (A B : Mat K) : Py (Val K) :=
  if A.cols = B.rows then .ok (.mat (A.mul B)) else .error .assertion

/-- `A + c*B` of two matrices, xii/linalg/convert.py:160-167 and 176-183. -/
def matAxpy (c : K) (A B : Mat K) : Py (Val K) :=
  if A.rows = B.rows ∧ A.cols = B.cols then .ok (.mat (Mat.axpy c A B)) else .error .assertion

/-- The number test in `collapse_add`: `abs(B) < 1E-14` is the parameter `tiny`. -/
abbrev Tiny (K : Type) := K → Bool

mutual
/-- `collapse`, xii/linalg/convert.py:81-135. -/
def collapse (tiny : Tiny K) : Nat → Expr K → Py (Val K)
  | 0, _ => .error .outOfFuel
  | _ + 1, .num c => .ok (.num c)
  | _ + 1, .mat M => .ok (.mat M)
  | _ + 1, .op r =>
      match r with
      | .ok M => .ok (.mat M)
      | .error e => .error e
  | fuel + 1, .mul chain => collapseMul tiny fuel chain
  | fuel + 1, .add A B => collapseAdd tiny fuel A B
  | fuel + 1, .sub A B => collapseSub tiny fuel A B
  | fuel + 1, .tr A => collapseTr tiny fuel A

/-- `collapse_tr`, xii/linalg/convert.py:138-149.  For anything but a matrix
`collapse(bmat)` of the transpose itself is called, i.e. `collapse_tr` again. -/
def collapseTr (tiny : Tiny K) : Nat → Expr K → Py (Val K)
  | 0, _ => .error .outOfFuel
  | fuel + 1, A =>
      match A with
      | .mat M => .ok (.mat M.tr)
      | A =>
        match collapse tiny fuel (.tr A) with
        | .ok _ => .error .attributeError
        | .error e => .error e

/-- `collapse_add`, xii/linalg/convert.py:152-169.  In the recursion the sum of two
numbers is a number, which has no attribute `A`. -/
def collapseAdd (tiny : Tiny K) : Nat → Expr K → Expr K → Py (Val K)
  | 0, _, _ => .error .outOfFuel
  | fuel + 1, A, B =>
      match A, B with
      | .mat M, .num c =>
          if tiny c then .ok (.mat M) else collapseAddRec tiny fuel (.mat M) (.num c)
      | .num c, .mat M =>
          if tiny c then .ok (.mat M) else collapseAddRec tiny fuel (.num c) (.mat M)
      | .mat M, .mat N => matAxpy 1 M N
      | A, B => collapseAddRec tiny fuel A B

/-- `collapse_add(collapse(A) + collapse(B))`, xii/linalg/convert.py:169. -/
def collapseAddRec (tiny : Tiny K) : Nat → Expr K → Expr K → Py (Val K)
  | 0, _, _ => .error .outOfFuel
  | fuel + 1, A, B => do
      let a ← collapse tiny fuel A
      let b ← collapse tiny fuel B
      match a, b with
      | .num _, .num _ => .error .attributeError
      | a, b => collapseAdd tiny fuel a.expr b.expr

/-- `collapse_sub`, xii/linalg/convert.py:172-185. -/
def collapseSub (tiny : Tiny K) : Nat → Expr K → Expr K → Py (Val K)
  | 0, _, _ => .error .outOfFuel
  | fuel + 1, A, B =>
      match A, B with
      | .mat M, .mat N => matAxpy (-1) M N
      | A, B => do
          let a ← collapse tiny fuel A
          let b ← collapse tiny fuel B
          match a, b with
          | .num _, .num _ => .error .attributeError
          | a, b => collapseSub tiny fuel a.expr b.expr

/-- `collapse_mul`, xii/linalg/convert.py:188-221. -/
def collapseMul (tiny : Tiny K) : Nat → List (Expr K) → Py (Val K)
  | 0, _ => .error .outOfFuel
  | _ + 1, [] => .error .indexError
  | fuel + 1, [A, B] =>
      match A, B with
      | .mat M, .mat N => matMul M N
      | .mat M, .num c => .ok (.mat (M.scale c))
      | .num c, .mat M => .ok (.mat (M.scale c))
      | A, B => do
          let a ← collapse tiny fuel A
          let b ← collapse tiny fuel B
          collapse tiny fuel (pyMul a.expr b.expr)
  | fuel + 1, A :: rest => do
      let a ← collapse tiny fuel A
      let r ← reduceMul rest
      let b ← collapse tiny fuel r
      match pyMul a.expr b.expr with
      | .mul chain => collapseMul tiny fuel chain
      | _ => .error .attributeError
end

end
end Verif.Collapse
