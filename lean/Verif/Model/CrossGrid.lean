import Verif.Model.Refine
import Mathlib.Algebra.Module.Defs
/-!
# `cross_grid_refine` (sandbox/cross_grid_refine.py)
-/
namespace Verif.CrossGrid
open Verif Verif.BlockOps Verif.Refine

/-- `np.mean` of the points of a cell, sandbox/cross_grid_refine.py:25. -/
def mean (K : Type) [Field K] {E : Type} [AddCommGroup E] [Module K E] (n : Nat) (pts : List E) : E := (1 / (n : K)) • pts.sum

/-- The loop over cells, sandbox/cross_grid_refine.py:32-38; `combinations` leave out the last vertex first. -/
def fineCells (n : Nat) : Nat → List (List Nat) → List (List Nat)
  | _, [] => []
  | center, cell :: cells => (omitted n).map (fun i => cell.eraseIdx i ++ [center]) ++ fineCells n (center + 1) cells

/-- `cross_grid_refine`, sandbox/cross_grid_refine.py:6-49, of a mesh whose cells have `n` vertices.  `set_parent` and `set_child` are not
    modelled. -/
def crossGridRefine (K : Type) [Field K] {E : Type} [AddCommGroup E] [Module K E] (tdim n : Nat) (M : RMesh E) : Py (RMesh E) := do
  pyAssert (decide (n = 2) || decide (n = 3) || (decide (n = 4) && decide (tdim = 3)))
  let pts ← pyMap (cellPts M.coords) M.cells
  .ok ⟨M.coords ++ pts.map (mean K n), fineCells n M.coords.length M.cells, (List.range M.coords.length).map (fun v => (v, v)),
    childToParent n M.cells.length⟩

end Verif.CrossGrid
