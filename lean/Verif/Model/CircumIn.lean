import Verif.Model.Center
import Verif.Model.Refine
/-!
# Refinement by circumcentres (xii/meshing/refinement.py:121-130) of intervals, triangles and tetrahedra in any dimension
-/
namespace Verif.Refine
open Verif Verif.BlockOps Verif.Center Matrix
variable {K : Type} [Field K] [LinearOrder K]

/-- `simplex_area`, refinement.py:206-219, of points with `d` coordinates; `norm` is `np.linalg.norm`. -/
def simplexArea (norm : (m : Nat) → (Fin m → K) → K) : (d : Nat) → List (Fin d → K) → K
  | d, [a, b] => norm d (b - a)
  | 2, [a, b, c] => triArea [(a 0, a 1), (b 0, b 1), (c 0, c 1)]
  | 3, [a, b, c] =>
      surfArea (fun p => norm 3 ![p.1, p.2.1, p.2.2]) [(a 0, a 1, a 2), (b 0, b 1, b 2), (c 0, c 1, c 2)]
  | 3, [a, b, c, e] => tetArea [(a 0, a 1, a 2), (b 0, b 1, b 2), (c 0, c 1, c 2), (e 0, e 1, e 2)]
  | _, _ => 0

/-- The value of `CellCircumcenter` on one cell, cell_centers.py:280-291, where there is one. -/
def circumcenterOf (solve2 : Solver K 2) (solve3 : Solver K 3) (tdim d : Nat) (l : List (Fin d → K)) : Fin d → K :=
  match cellCircumcenter solve2 solve3 tdim d l with
  | .ok y => y
  | .error _ => 0

/-- `new_pts` of `circumcenter_refine`, refinement.py:124-128: one point for each cell. -/
def circumcentersIn (solve2 : Solver K 2) (solve3 : Solver K 3) (tdim d : Nat) (x : List (Fin d → K))
    (cells : List (List Nat)) : List (Fin d → K) :=
  cells.map (fun cell => circumcenterOf solve2 solve3 tdim d (cell.map (fun v => x.getD v 0)))

/-- `circumcenter_refine`, refinement.py:121-130, of a mesh with cells of dimension `tdim` and `d` coordinates.  `new_pts`
    is called after the check refinement.py:62-64, and raises if there is no (working) code for the dimensions, here if
    there is a cell; the meshes of later refinements have the same dimensions. -/
def circumcenterRefineIn (solve2 : Solver K 2) (solve3 : Solver K 3) (norm : (m : Nat) → (Fin m → K) → K)
    (hmin : List (Fin d → K) → List (List Nat) → K) (strict : K) (tdim : Nat) (M : RMesh (Fin d → K)) (nrefs : Int) :
    Py (RMesh (Fin d → K)) := do
  pyAssert (decide (tdim + 1 = 2) || decide (tdim + 1 = 3) || (decide (tdim + 1 = 4) && decide (tdim = 3)))
  let _ ← pyMap (fun cell => do
    let ps ← cellPts M.coords cell
    cellCircumcenter solve2 solve3 tdim d ps) M.cells
  innerPointRefine (simplexArea norm d) (circumcentersIn solve2 solve3 tdim d) hmin strict tdim (tdim + 1) M nrefs

end Verif.Refine
