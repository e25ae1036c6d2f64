import Verif.Model.Embedded
import Mathlib.Algebra.Order.Field.Basic
import Mathlib.Algebra.Order.Group.Abs
/-!
# Refinement by inner points (xii/meshing/refinement.py)

Arithmetic is exact.  `area` is `simplex_area` of the points of a simplex, refinement.py:206-219, `newPts` gives one
new point for each cell and `hmin` is `mesh.hmin()`.
-/
namespace Verif.Refine
open Verif Verif.BlockOps

/-- Coordinates, cells, and what `parent_entity_map` has for the (only) parent mesh: the items of the dictionary of
    vertices and the values of `dict(enumerate(..))` of cells. -/
structure RMesh (P : Type) where
  coords : List P
  cells : List (List Nat)
  vmap : List (Nat × Nat)
  cmap : List Nat
  deriving DecidableEq

variable {P K : Type} [Field K] [LinearOrder K]

/-- `x[cell]`. -/
def cellPts (x : List P) (cell : List Nat) : Py (List P) := pyMap (pyGet x) cell

/-- `simplex_area` of two points on the line, refinement.py:208-209. -/
def intArea : List K → K
  | [a, b] => |b - a|
  | _ => 0

/-- `simplex_area` of three points in the plane, refinement.py:211-214; the determinant is expanded. -/
def triArea : List (K × K) → K
  | [a, b, c] => |((b.1 - a.1) * (c.2 - a.2) - (b.2 - a.2) * (c.1 - a.1)) / 2|
  | _ => 0

/-- The triple product. -/
def triple (u v w : K × K × K) : K :=
  u.1 * (v.2.1 * w.2.2 - v.2.2 * w.2.1) - u.2.1 * (v.1 * w.2.2 - v.2.2 * w.1) + u.2.2 * (v.1 * w.2.1 - v.2.1 * w.1)

/-- `simplex_area` of four points in the space, refinement.py:218-219; the determinant is expanded along its column of
    ones. -/
def tetArea : List (K × K × K) → K
  | [a, b, c, d] => |triple (b - a) (c - a) (d - a) / 6|
  | _ => 0

/-- `simplex_area` of two points, refinement.py:208-209, with `norm` for `np.linalg.norm`. -/
def segArea {E : Type} [AddCommGroup E] (norm : E → K) : List E → K
  | [a, b] => norm (b - a)
  | _ => 0

/-- `np.cross`. -/
def cross (u v : K × K × K) : K × K × K :=
  (u.2.1 * v.2.2 - u.2.2 * v.2.1, u.2.2 * v.1 - u.1 * v.2.2, u.1 * v.2.1 - u.2.1 * v.1)

/-- `simplex_area` of three points in the space, refinement.py:215-216, with `norm` for `np.linalg.norm`. -/
def surfArea (norm : K × K × K → K) : List (K × K × K) → K
  | [a, b, c] => norm (cross (b - a) (c - a)) / 2
  | _ => 0

/-- `combinations(range(n), n-1)` leave out the indices `n-1, .., 0`. -/
def omitted (n : Nat) : List Nat := (List.range n).reverse

/-- `simplices(x, cell)`, refinement.py:198-203. -/
def simplices (x : P) (cell : List P) : List (List P) := (omitted cell.length).map (fun i => x :: cell.eraseIdx i)

/-- `point_is_inside` for one point, refinement.py:192-195. -/
def pointIsInside (area : List P → K) (tol : K) (x : P) (cell : List P) : Bool :=
  decide (|area cell - ((simplices x cell).map area).sum| < tol)

/-- The body of the inner loop, refinement.py:87-94: the child of a cell without its vertex `i`. -/
def child (area : List P → K) (x : List P) (cell : List Nat) (center i : Nat) : Py (List Nat) := do
  let ps ← cellPts x (cell.eraseIdx i ++ [center])
  pyAssert (decide (1 / 10 ^ 15 < area ps))
  .ok (cell.eraseIdx i ++ [center])

/-- The loop over cells, refinement.py:85-95. -/
def children (area : List P → K) (x : List P) (n : Nat) : Nat → List (List Nat) → Py (List (List Nat))
  | _, [] => .ok []
  | center, cell :: cells => do
      let cs ← pyMap (child area x cell center) (omitted n)
      let rest ← children area x n (center + 1) cells
      .ok (cs ++ rest)

/-- `child2parent`. -/
def childToParent (n ncells : Nat) : List Nat := (List.range ncells).flatMap (fun c => List.replicate n c)

/-- One refinement, refinement.py:58-104, of a mesh whose cells have `n` vertices. -/
def refineOnce (area : List P → K) (newPts : List P → List (List Nat) → List P) (hmin : List P → List (List Nat) → K)
    (strict : K) (tdim n : Nat) (M : RMesh P) : Py (RMesh P) := do
  pyAssert (decide (n = 2) || decide (n = 3) || (decide (n = 4) && decide (tdim = 3)))
  let cellsPts ← pyMap (cellPts M.coords) M.cells
  pyAssert (!decide (0 < strict) ||
    ((newPts M.coords M.cells).zip cellsPts).all (fun p => pointIsInside area (hmin M.coords M.cells * strict) p.1 p.2))
  let cells ← children area (M.coords ++ newPts M.coords M.cells) n M.coords.length M.cells
  .ok ⟨M.coords ++ newPts M.coords M.cells, cells, (List.range M.coords.length).map (fun v => (v, v)),
    childToParent n M.cells.length⟩

/-- The loop `while nrefs > 0`, refinement.py:30-56: the mesh `M0`, the vertices of the root mesh in it, and their
    numbers in the root mesh. -/
def refineMore (area : List P → K) (newPts : List P → List (List Nat) → List P) (hmin : List P → List (List Nat) → K)
    (strict : K) (tdim n : Nat) : Nat → RMesh P → List Nat → List Nat → Py (RMesh P)
  | 0, M0, _, _ => .ok M0
  | k + 1, M0, refV, rootV => do
      let M1 ← refineOnce area newPts hmin strict tdim n M0
      let cmap ← pyMap (pyGet M0.cmap) M1.cmap
      let refV := (M1.vmap.filter (fun p => decide (p.2 ∈ refV))).map (fun p => p.1)
      pyAssert (decide (refV.length = rootV.length))
      refineMore area newPts hmin strict tdim n k ⟨M1.coords, M1.cells, refV.zip rootV, cmap⟩ refV rootV

/-- `inner_point_refine`, refinement.py:10-104. -/
def innerPointRefine (area : List P → K) (newPts : List P → List (List Nat) → List P)
    (hmin : List P → List (List Nat) → K) (strict : K) (tdim n : Nat) (M : RMesh P) (nrefs : Int) : Py (RMesh P) := do
  let M0 ← refineOnce area newPts hmin strict tdim n M
  if 1 < nrefs then
    refineMore area newPts hmin strict tdim n (nrefs - 1).toNat M0 (M0.vmap.map (fun p => p.1)) (M0.vmap.map (fun p => p.2))
  else .ok M0

end Verif.Refine
