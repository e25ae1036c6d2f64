import Verif.Model.Embedded
/-!
# Skeletons (xii/meshing/embedded_mesh.py:598-609)
-/
namespace Verif.Embedded
open Verif
variable {P : Type}

/-- `facet_f`, embedded_mesh.py:602-607: all facets have the value 1, `DomainBoundary().mark(facet_f, 0)` sets those of a single
    cell to 0 (dolfin's definition of the boundary).  `T` has the facets of the mesh. -/
def skeletonMarks (T : Topo) (includeBoundary : Bool) : List Nat :=
  (List.range T.numEntities).map (fun e => if includeBoundary then 1 else if (T.e2c e).length = 1 then 0 else 1)

/-- `Skeleton`, embedded_mesh.py:598-609. -/
def skeleton (tdim : Nat) (T : Topo) (coords : Nat → P) (submesh : List Nat → SubMesh P) (includeBoundary : Bool) : Py (EMesh P) := do
  pyAssert (decide (1 < tdim))
  embeddedMesh tdim (tdim - 1) T.e2v coords submesh (skeletonMarks T includeBoundary) [1]

end Verif.Embedded
