import Verif.Model.Center
import Verif.Model.Refine
/-!
# Refinement by circumcentres (xii/meshing/refinement.py:121-130), of triangles in the plane
-/
namespace Verif.Refine
open Verif Verif.Center Matrix
variable {K : Type} [Field K] [LinearOrder K]

/-- The value of `CellCircumcenter` on one triangle, cell_centers.py:280-291 with the code cell_centers.py:116-143. -/
def triCircumcenter (solve : Solver K 2) : List (K × K) → K × K
  | [a, b, c] =>
      let y := circumcenter22 solve ![a.1, a.2] ![b.1, b.2] ![c.1, c.2]
      (y 0, y 1)
  | _ => 0

/-- `new_pts` of `circumcenter_refine`, refinement.py:124-128: one point for each cell. -/
def circumcenters (solve : Solver K 2) (x : List (K × K)) (cells : List (List Nat)) : List (K × K) :=
  cells.map (fun cell => triCircumcenter solve (cell.map (fun v => x.getD v 0)))

/-- `circumcenter_refine`, refinement.py:121-130, of a mesh of triangles in the plane. -/
def circumcenterRefine (solve : Solver K 2) (hmin : List (K × K) → List (List Nat) → K) (strict : K) (M : RMesh (K × K))
    (nrefs : Int) : Py (RMesh (K × K)) :=
  innerPointRefine triArea (circumcenters solve) hmin strict 2 3 M nrefs

end Verif.Refine
