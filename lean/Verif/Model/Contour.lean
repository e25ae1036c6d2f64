import Verif.Model.Patch
import Mathlib.Algebra.Module.Defs
import Mathlib.Algebra.Field.Defs
/-!
# Contours and line meshes (xii/meshing/branching.py:163-177, xii/meshing/line_mesh.py:5-68)

`generation.py` has the same code as `line_mesh.py`.
-/
namespace Verif.Contour
open Verif Verif.BlockOps

section Refine
variable {K E : Type} [Field K] [AddCommGroup E] [Module K E]

/-- `zip(contour[:-1], mids)` stacked to rows, branching.py:172-175. -/
def withMids (K : Type) {E : Type} [Field K] [AddCommGroup E] [Module K E] : List E → List E
  | a :: b :: l => a :: (a + (1 / 2 : K) • (b - a)) :: withMids K (b :: l)
  | _ => []

/-- `refine_contour` for `n == 1`, branching.py:170-175.  It closes the contour by its first point. -/
def refineOnce (K : Type) {E : Type} [Field K] [AddCommGroup E] [Module K E] (c : List E) : Py (List E) :=
  match c with
  | [] => .error .indexError
  | p :: _ => .ok (withMids K c ++ [p])

/-- `refine_contour` for `n >= 0`, branching.py:163-177. -/
def refineNat (K : Type) {E : Type} [Field K] [AddCommGroup E] [Module K E] : Nat → List E → Py (List E)
  | 0, c => .ok c
  | 1, c => refineOnce K c
  | n + 2, c => do
      let c ← refineOnce K c
      refineNat K (n + 1) c

/-- `refine_contour`, branching.py:163-177. -/
def refineContour (K : Type) {E : Type} [Field K] [AddCommGroup E] [Module K E] (c : List E) (n : Int) : Py (List E) := do
  pyAssert (decide (0 ≤ n))
  refineNat K n.toNat c

end Refine

section Line
variable {P K : Type} [LinearOrder K]

/-- `branch[[0, -1]]`. -/
def endpoints (b : List P) : Py (P × P) :=
  match b.head?, b.getLast? with
  | some p, some q => .ok (p, q)
  | _, _ => .error .indexError

/-- The number of the point among the end points, which are extended if it is new, line_mesh.py:24-30. -/
def locate (dist : P → P → K) (tol : K) (ext : List P) (p : P) : Py (Nat × List P) := do
  let i ← Patch.argmin (ext.map (fun q => dist q p))
  let q ← pyGet ext i
  if tol < dist q p then .ok (ext.length, ext ++ [p]) else .ok (i, ext)

/-- line_mesh.py:20-31. -/
def locateAll (dist : P → P → K) (tol : K) : List (List P) → List P → Py (List (Nat × Nat) × List P)
  | [], ext => .ok ([], ext)
  | b :: bs, ext => do
      let (p, q) ← endpoints b
      let (i, ext) ← locate dist tol ext p
      let (j, ext) ← locate dist tol ext q
      let (bounds, ext) ← locateAll dist tol bs ext
      .ok ((i, j) :: bounds, ext)

/-- Consecutive pairs, `zip(vmap[:-1], vmap[1:])`. -/
def pairs (l : List Nat) : List (Nat × Nat) := l.zip l.tail

/-- `branch[1:-1]`. -/
def interior (b : List P) : List P := b.tail.dropLast

/-- `vmap`, line_mesh.py:43. -/
def vmap (fE lE fI n : Nat) : List Nat := fE :: (List.range' fI n ++ [lE])

/-- line_mesh.py:36-52: the coordinates and the cells. -/
def addInterior : List ((Nat × Nat) × List P) → Nat → List P → List (Nat × Nat) → List P × List (Nat × Nat)
  | [], _, ext, cells => (ext, cells)
  | ((fE, lE), b) :: rest, fI, ext, cells =>
      if (interior b).length = 0 then addInterior rest fI ext cells
      else addInterior rest (fI + (interior b).length) (ext ++ interior b)
        (cells ++ pairs (vmap fE lE fI (interior b).length))

/-- `max(list(map(max, ext_bounds))) + 1`, line_mesh.py:35 (the list is not empty). -/
def nextFree (bounds : List (Nat × Nat)) : Nat := (bounds.map (fun p => max p.1 p.2)).foldl max 0 + 1

/-- `line_mesh`, line_mesh.py:5-57: the coordinates and the cells given to `make_mesh`. -/
def lineMesh (dist : P → P → K) (tol : K) (branches : List (List P)) : Py (List P × List (Nat × Nat)) :=
  match branches with
  | [] => .error .stopIteration
  | b :: bs => do
      let (p, q) ← endpoints b
      let (bounds, ext) ← locateAll dist tol bs [p, q]
      .ok (addInterior (((0, 1) :: bounds).zip (b :: bs)) (nextFree ((0, 1) :: bounds)) ext [])

end Line

section Straight
variable {K E : Type} [Field K] [LinearOrder K] [AddCommGroup E] [Module K E]

/-- `line(A, B, npts)`, line_mesh.py:60-63, with `linspace(0, 1, n)` being `i/(n-1)`. -/
def line (K : Type) {E : Type} [Field K] [AddCommGroup E] [Module K E] (A B : E) (npts : Nat) : List E :=
  (List.range npts).map (fun i : Nat => A + ((i : K) / ((npts - 1 : Nat) : K)) • (B - A))

/-- `StraightLineMesh`, line_mesh.py:66-68. -/
def straightLineMesh (dist : E → E → K) (tol : K) (A B : E) (ncells : Nat) : Py (List E × List (Nat × Nat)) :=
  lineMesh dist tol [line K A B (ncells + 1)]

end Straight

end Verif.Contour
