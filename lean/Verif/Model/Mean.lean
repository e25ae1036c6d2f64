import Verif.Model.Trace
import Mathlib.Algebra.BigOperators.Group.Finset.Basic
/-!
# Means over domains: `xii/assembler/mean_matrix.py`
-/
namespace Verif.Mean
open Verif Verif.DofMat Verif.Trace
variable {K X : Type}

/-- A measure as the list of the cells and facets over which it integrates: each has the cell on which functions are
    evaluated and the integral over it. -/
abbrev Measure (K X : Type) := List (Nat × ((X → K) → K))

/-- `df.dx` for a form with one argument in `V`: all cells of the mesh of `V`; `int c` is the integral over the cell `c`. -/
def allCells (V : Space K X) (int : Nat → (X → K) → K) : Measure K X :=
  (List.range V.numCells).map (fun c => (c, int c))

/-- `df.assemble(v*weight*measure)` for the test function of `V`, mean_matrix.py:43.  This is what dolfin does: the
    contributions of the cells are added to the dofs of the cells. -/
def meanValues [CommRing K] (V : Space K X) (weight : X → K) (measure : Measure K X) : List K :=
  (List.range V.dim).map (fun d => (measure.map (fun p => ∑ l ∈ Finset.range V.spaceDim,
    if (V.cellDofs p.1)[l]? = some d then p.2 (fun x => V.basis p.1 l x * weight x) else 0)).sum)

/-- The measure, mean_matrix.py:38-39. -/
def measureOf (V : Space K X) (int : Nat → (X → K) → K) : Option (Measure K X) → Measure K X
  | none => allCells V int
  | some m => m

/-- The weight, mean_matrix.py:40-41. -/
def weightOf [One K] : Option (X → K) → X → K
  | none => fun _ => 1
  | some w => w

/-- `mean_mat`, mean_matrix.py:30-51, without the cache.  `data` are the entries `weight` and `measure` of the dictionary,
    `rows` is `TV.dim()`. -/
def meanMat [CommRing K] (V : Space K X) (int : Nat → (X → K) → K) (rows : Nat) (data : Option (X → K) × Option (Measure K X)) :
    Py (Mat K) :=
  let measure := measureOf V int data.2
  let weight := weightOf data.1
  let values := meanValues V weight measure
  let jj := List.range V.dim
  let ii := List.replicate jj.length 0
  csr rows V.dim ii jj values

end Verif.Mean
