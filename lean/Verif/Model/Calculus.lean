import Verif.Model.BlockOps
/-!
# Gradients and divergences of symbolic expressions: sandbox/calculus.py

Expressions of sympy are elements of a ring `E`; `D x e` is `e.diff(x)`, `isZero e` says whether `e.is_zero` is
`True` (it may be `None` for a zero expression which sympy does not recognise).  Matrices are the numbers of rows and columns and the
entries by rows.
-/
namespace Verif.Calculus
open Verif Verif.BlockOps
variable {S E : Type}

/-- `sp.Matrix`. -/
structure SMat (E : Type) where
  rows : Nat
  cols : Nat
  entries : List E

/-- The arguments: scalars have no attribute `shape`. -/
inductive SExpr (E : Type) where
  | scalar (e : E)
  | mat (m : SMat E)

/-- `is_vector`, sandbox/calculus.py:6 (matrices of sympy have two extents). -/
def isVector (m : SMat E) : Bool := m.rows == 1 || m.cols == 1

/-- `Matrix.values()` of sympy: the entries which are not zero. -/
def values (isZero : E → Bool) (m : SMat E) : List E := m.entries.filter (fun e => !isZero e)

/-- `sp.Matrix` of a list of expressions: a column.  The matrix of the empty list is 0 × 0. -/
def column (l : List E) : SMat E := ⟨l.length, if l.isEmpty then 0 else 1, l⟩

/-- `sp.Matrix` of a list of rows of the same length. -/
def ofRows (l : List (List E)) : SMat E := ⟨l.length, (l.head?.getD []).length, l.flatten⟩

/-- `f.row(i)`. -/
def rowOf (m : SMat E) (i : Nat) : SMat E := ⟨1, m.cols, (m.entries.drop (i * m.cols)).take m.cols⟩

/-- `Grad`, sandbox/calculus.py:12-21. -/
def grad (isZero : E → Bool) (D : S → E → E) (X : List S) : SExpr E → Py (SMat E)
  | .scalar f => do
      let x0 ← pyGet X 0
      let x1 ← pyGet X 1
      .ok (column [D x0 f, D x1 f])
  | .mat f => do
      pyAssert (isVector f)
      .ok (ofRows ((values isZero f).map (fun fi => X.map (fun xj => D xj fi))))

/-- The sum in sandbox/calculus.py:27. -/
def divVector [Add E] [Zero E] (isZero : E → Bool) (D : S → E → E) (X : List S) (f : SMat E) : E :=
  (((values isZero f).zip X).map (fun p => D p.2 p.1)).foldl (· + ·) 0

/-- `Div`, sandbox/calculus.py:24-30.  The rows of a tensor are passed without `X`: their divergence is with respect to
    the default `X0`.  Neither test of line 25 and 29 applies to scalars, which have no `shape`. -/
def div [Add E] [Zero E] (isZero : E → Bool) (D : S → E → E) (X0 X : List S) : SExpr E → Py (SExpr E)
  | .scalar _ => .error .attributeError
  | .mat f =>
      if isVector f then .ok (.scalar (divVector isZero D X f))
      else .ok (.mat (column ((List.range f.rows).map (fun i => divVector isZero D X0 (rowOf f i)))))

/-- `np.array(l).reshape(shape)`. -/
def reshape {C : Type} (shape : List Nat) (l : List C) : Py (List Nat × List C) :=
  if l.length = shape.prod then .ok (shape, l) else .error .valueError

/-- `asExpr`, sandbox/calculus.py:33-45: the shape and the code given to `df.Expression`.  `code` is `ccode`. -/
def asExpr {C : Type} (isZero : E → Bool) (code : E → C) : SExpr E → Py (List Nat × List C)
  | .scalar f => .ok ([], [code f])
  | .mat f => reshape (if isVector f then [max f.rows f.cols] else [f.rows, f.cols]) ((values isZero f).map code)

end Verif.Calculus
