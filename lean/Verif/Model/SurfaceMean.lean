import Verif.Model.Trace
import Verif.Model.Collapse
import Mathlib.Algebra.Field.Defs
/-!
# Means over surfaces: `xii/assembler/surface_mean_matrix.py`

The trace is the model of trace_mat_no_restrict, the product is collapsed by the model of convert.
-/
namespace Verif.SurfaceMean
open Verif Verif.DofMat Verif.Trace
variable {K X : Type}

/-- `trace_mat_no_restrict` called without `tag_data`, trace_matrix.py:82-88: the tags are all the values of the
    marking function of the trace mesh (zeros if it has none). -/
def allTags {g : Nat} (D : Data K X g) : Data K X g := { D with tags := D.marks.dedup }

/-- `assemble(Constant(a)*inner(u, q)*dx)` for the trial function of `TV` and the test function of the space of
    reals, surface_mean_matrix.py:45-47.  This is what dolfin does: the contributions of the cells are added to
    the dofs of the cells.  `int t f` is the integral of `f` over the cell `t`. -/
def meanRow [Field K] (TV : Space K X) (int : Nat → (X → K) → K) (a : K) : Mat K :=
  Mat.of 1 TV.dim (fun _ d => ∑ t ∈ Finset.range TV.numCells, ∑ l ∈ Finset.range TV.spaceDim,
    if (TV.cellDofs t)[l]? = some d then int t (fun x => a * TV.basis t l x) else 0)

/-- `surface_mean_matrix`, surface_mean_matrix.py:39-50.  `TV` is the trace space of `V` on the surface (41),
    `vol t` is the volume of the cell `t` (46).  `1/surface_area` raises if the area is zero. -/
def surfaceMeanMatrix [Field K] [DecidableEq K] {g : Nat} (tiny : Collapse.Tiny K) (fuel : Nat)
    (V TV : Space K X) (D : Data K X g) (int : Nat → (X → K) → K) (vol : Nat → K) : Py (Collapse.Val K) := do
  let T ← noRestrict V TV (allTags D)
  let area := ((List.range TV.numCells).map vol).sum
  if area = 0 then .error .zeroDivision
  else Collapse.collapse tiny fuel (.mul [.mat (meanRow TV int (1 / area)), .mat T])

/-- `surface_mean_mat`, surface_mean_matrix.py:27-36, without the cache. -/
def surfaceMeanMat [Field K] [DecidableEq K] {g : Nat} (tiny : Collapse.Tiny K) (fuel : Nat)
    (V TV : Space K X) (D : Data K X g) (int : Nat → (X → K) → K) (vol : Nat → K)
    (isReal sameShape onMesh : Bool) : Py (Collapse.Val K) := do
  pyAssert isReal
  pyAssert sameShape
  pyAssert onMesh
  surfaceMeanMatrix tiny fuel V TV D int vol

end Verif.SurfaceMean
