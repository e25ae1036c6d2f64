import Verif.Model.Shape
import Verif.Model.BlockOps
import Mathlib.Analysis.SpecialFunctions.Complex.Arg
/-!
# Drawings of averaging surfaces (xii/io/plot.py, xii/assembler/average_shape.py:285-329)

Exact real arithmetic.  The containers of VTK are the list of points and the lists of point indices of the cells;
the scalar 1 which every cell gets (plot.py:64-65, 102-104) is left out.
-/
namespace Verif.Plot
open Verif Verif.Shape Verif.Shape.V3 Verif.BlockOps

/-- `vtkPolyData` with points and cells, the cells as lists of indices of points. -/
structure Drawing (P : Type) where
  points : List P
  cells : List (List Nat)

/-! ## Tubes -/

/-- `np.r_[np.arange(first, first+len(ring)), first]`, plot.py:37, 41. -/
def closedIndices (first n : Nat) : List Nat := List.range' first n ++ [first]

/-- The quads of a tube, plot.py:44-47: `np.row_stack` raises `ValueError` for rows of different lengths. -/
def tubeQuads (idx0 idx1 : List Nat) : Py (List (List Nat)) :=
  if idx1.length = idx0.length then
    .ok ((List.range (idx1.length - 1)).map (fun j =>
      [idx1.getD j 0, idx1.getD (j + 1) 0, idx0.getD (j + 1) 0, idx0.getD j 0]))
  else .error .valueError

/-- The loop over the tubes, plot.py:35-47, started at the counter `first`. -/
def tubeLoop {P : Type} : Nat → List (List P × List P) → Py (Drawing P)
  | _, [] => .ok ⟨[], []⟩
  | first, (ring0, ring1) :: tubes => do
      let idx0 := closedIndices first ring0.length
      let first := first + ring0.length
      let idx1 := closedIndices first ring1.length
      let first := first + ring1.length
      let quads ← tubeQuads idx0 idx1
      let d ← tubeLoop first tubes
      .ok ⟨ring0 ++ ring1 ++ d.points, quads ++ d.cells⟩

/-- `vtk_tube_render`, plot.py:31-67. -/
def tubeRender {P : Type} (tubes : List (List P × List P)) : Py (Drawing P) := tubeLoop 0 tubes

/-- `np.row_stack(points)`: at least one array is needed. -/
def rowStack {P : Type} (pts : List P) : Py (List P) := if pts.isEmpty then .error .valueError else .ok pts

/-- A ring, average_shape.py:326-327 and 305: the points of `shape.quadrature(x, n)`. -/
def ring (quadrature : V3 → V3 → Py (List V3 × List ℝ)) (x n : V3) : Py (List V3) := do
  let q ← quadrature x n
  rowStack q.1

/-- The two rings of a cell, average_shape.py:323-327. -/
def cellRings (quadrature : V3 → V3 → Py (List V3 × List ℝ)) (cell : V3 × V3) : Py (List V3 × List V3) := do
  let n := cell.2 - cell.1
  let ring0 ← ring quadrature cell.1 n
  let ring1 ← ring quadrature cell.2 n
  .ok (ring0, ring1)

/-- `tube_render_avg_surface`, average_shape.py:311-329: `space` is the outcome of `average_space(V, line_mesh)`
    (line 318), the cells of the mesh are the coordinates of their vertices. -/
def tubeRings (space : Py Unit) (quadrature : V3 → V3 → Py (List V3 × List ℝ)) (cells : List (V3 × V3)) :
    Py (List (List V3 × List V3)) := do
  space
  pyMap (cellRings quadrature) cells

/-- `vtk_tube`, plot.py:14-28: what is written, and the path which is returned.  `ext` is the extension
    `os.path.splitext(path)[1]`. -/
def vtkTube (space : Py Unit) (quadrature : V3 → V3 → Py (List V3 × List ℝ)) (cells : List (V3 × V3))
    (path ext : String) : Py (Drawing V3 × String) := do
  pyAssert (path != "")
  pyAssert (ext == ".vtk")
  let tubes ← tubeRings space quadrature cells
  let data ← tubeRender tubes
  .ok (data, path)

/-- The surfaces of a cell, average_shape.py:301-306, for the coordinates of its degrees of freedom. -/
def cellSurfaces (quadrature : V3 → V3 → Py (List V3 × List ℝ)) (cell : (V3 × V3) × List V3) :
    Py (List (List V3)) :=
  pyMap (fun x => ring quadrature x (cell.1.2 - cell.1.1)) cell.2

/-- `render_avg_surface`, average_shape.py:285-308: one surface for each degree of freedom of each cell. -/
def avgSurfaces (space : Py Unit) (quadrature : V3 → V3 → Py (List V3 × List ℝ))
    (cells : List ((V3 × V3) × List V3)) : Py (List (List V3)) := do
  space
  let surfaces ← pyMap (cellSurfaces quadrature) cells
  .ok surfaces.flatten

/-! ## Lines -/

/-- Rows of a 3x3 array. -/
abbrev Rows := V3 × V3 × V3

/-- `np.linalg.eigh`: eigenvalues and eigenvectors (the columns of the second result). -/
abbrev Eigh := Rows → (ℝ × ℝ × ℝ) × (V3 × V3 × V3)

/-- `np.eye(3) - np.outer(normal, normal)`, plot.py:124. -/
noncomputable def projector (n : V3) : Rows :=
  (⟨1 - n.x * n.x, 0 - n.x * n.y, 0 - n.x * n.z⟩, ⟨0 - n.y * n.x, 1 - n.y * n.y, 0 - n.y * n.z⟩,
    ⟨0 - n.z * n.x, 0 - n.z * n.y, 1 - n.z * n.z⟩)

/-- `np.mean(points, axis=0)`, plot.py:115. -/
noncomputable def mean (points : List V3) : V3 :=
  (points.length : ℝ)⁻¹ • points.foldr (· + ·) ⟨0, 0, 0⟩

/-- `np.angle(u + v*1j, deg=True)` of the coordinates of a point, plot.py:131-133. -/
noncomputable def angleOf (t0 t1 p : V3) : ℝ := (⟨dot p t0, dot p t1⟩ : ℂ).arg * 180 / Real.pi

/-- The rest of `radial_order_points` with the normal known, plot.py:122-135. -/
noncomputable def orderWith (eigh : Eigh) (argsort : List ℝ → List Nat) (points : List V3) (normal : V3) :
    Py (List V3) := do
  let com := mean points
  pyAssert (points.all (fun p => decide (|dot (p - com) normal| < 1e-10)))
  let e := eigh (projector normal)
  pyAssert (decide (|e.1.1| < 1e-13))
  let idx := argsort (points.map (angleOf e.2.2.1 e.2.2.2))
  pyMap (pyGet points) idx

/-- `radial_order_points`, plot.py:109-135; the array has three columns (line 112).  If the first three points
    are on a line the normal is nan and the assertion of line 122 fails. -/
noncomputable def radialOrder (eigh : Eigh) (argsort : List ℝ → List Nat) (points : List V3) : Py (List V3) := do
  pyAssert (decide (3 < points.length))
  match points with
  | v0 :: v1 :: v2 :: _ =>
      let normal := cross (v1 - v0) (v2 - v0)
      if norm normal = 0 then .error .assertion
      else orderWith eigh argsort points ((norm normal)⁻¹ • normal)
  | _ => .error .valueError

/-- `np.r_[0, np.cumsum(offsets)]`, plot.py:77, started at a value. -/
def offsets : Nat → List Nat → List Nat
  | a, [] => [a]
  | a, n :: ns => a :: offsets (a + n) ns

/-- The value of a variable which may not be bound. -/
def bound : Option Nat → Py Nat
  | none => .error .unboundLocal
  | some v => .ok v

/-- The loop over the pairs of offsets, plot.py:90-99: `v0` is the variable of the inner loop, which is read after it. -/
def lineLoop : Option Nat → List (Nat × Nat) → Py (List (List Nat))
  | _, [] => .ok []
  | v0, (first, last) :: rest => do
      let vs := List.range' first (last - 1 - first)
      let v0 := vs.getLast?.or v0
      let v ← bound v0
      let more ← lineLoop v0 rest
      .ok (vs.map (fun v => [v, v + 1]) ++ [[v + 1, first]] ++ more)

/-- `vtk_plot_data`, plot.py:70-106. -/
noncomputable def plotData (eigh : Eigh) (argsort : List ℝ → List Nat) (surfaces : List (List V3)) :
    Py (Drawing V3) := do
  let points ← pyMap (radialOrder eigh argsort) surfaces
  let offs := offsets 0 (points.map List.length)
  let lines ← lineLoop none (offs.dropLast.zip offs.tail)
  .ok ⟨points.flatten, lines⟩

end Verif.Plot
