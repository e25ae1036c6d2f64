import Verif.Model.Py
import Mathlib.Analysis.Real.Pi.Bounds
import Mathlib.Data.Matrix.Mul
import Mathlib.LinearAlgebra.Matrix.Notation
/-!
# Tangents and normals of curves (xii/meshing/embedded_mesh.py, xii/meshing/branching.py)

Arithmetic is exact.  Functions of the space 'DG', 0 have one value per cell; see `Model/Normal.lean` for the numbering of their
dofs, which is not repeated here.
-/
namespace Verif.Tangent
open Verif Matrix

variable {d : Nat}

/-- A mesh of intervals: coordinates of the vertices and the two vertices `c2v` of each cell. -/
structure Curve (d : Nat) where
  X : List (Fin d → ℝ)
  cells : List (Nat × Nat)

/-- `mesh.num_vertices()`. -/
def Curve.nv (G : Curve d) : Nat := G.X.length

/-- `v2c(v)`: the cells of a vertex. -/
def Curve.v2c (G : Curve d) (v : Nat) : List Nat :=
  (List.range G.cells.length).filter (fun i => (G.cells[i]?.any (fun c => c.1 == v || c.2 == v)))

/-- `X[v]`. -/
def Curve.pos (G : Curve d) (v : Nat) : Fin d → ℝ := G.X.getD v 0

/-- `np.linalg.norm`. -/
noncomputable def norm (x : Fin d → ℝ) : ℝ := Real.sqrt (x ⬝ᵥ x)

/-- `t = (v1 - v0)/np.linalg.norm(v1-v0)`, embedded_mesh.py:573, 583. -/
noncomputable def direction (G : Curve d) (v0 v1 : Nat) : Fin d → ℝ :=
  (1 / norm (G.pos v1 - G.pos v0)) • (G.pos v1 - G.pos v0)

/-- `roots`, embedded_mesh.py:557. -/
def Curve.roots (G : Curve d) : List Nat := (List.range G.nv).filter (fun v => decide ((G.v2c v).length = 1))

/-- `cell, = set(v2c(v0)) & set(v2c(v1))`, embedded_mesh.py:570. -/
def cellOf (G : Curve d) (v0 v1 : Nat) : Py Nat :=
  match (G.v2c v0).filter (fun c => decide (c ∈ G.v2c v1)) with
  | [c] => .ok c
  | _ => .error .valueError

/-- The loop over `dfs_edges`, embedded_mesh.py:569-575; `values` has the tangents of visited cells. -/
noncomputable def visit (G : Curve d) : List (Nat × Nat) → List (Option (Fin d → ℝ)) → Py (List (Option (Fin d → ℝ)))
  | [], values => .ok values
  | e :: es, values => do
      let c ← cellOf G e.1 e.2
      visit G es (values.set c (some (direction G e.1 e.2)))

/-- The choice of the root, embedded_mesh.py:561-564. -/
def chooseRoot (roots : List Nat) (root : Option Nat) : Py Nat :=
  match root with
  | some r => do
      pyAssert (decide (r ∈ roots))
      .ok r
  | none => match roots.getLast? with
      | some r => .ok r
      | none => .error .indexError

/-- The visited cells, embedded_mesh.py:560-575.  `dfs root` is `dfs_edges(g, root)` of networkx. -/
noncomputable def visited (G : Curve d) (dfs : Nat → List (Nat × Nat)) (root : Option Nat) : Py (List (Option (Fin d → ℝ))) :=
  if G.roots.isEmpty then .ok (List.replicate G.cells.length none)
  else do
    let r ← chooseRoot G.roots root
    visit G (dfs r) (List.replicate G.cells.length none)

/-- `TangentCurve.__init__`, embedded_mesh.py:545-595: the tangents of the cells; cells which were not visited take the direction of
    `c2v` (lines 579-585). -/
noncomputable def tangentCurve (G : Curve d) (dfs : Nat → List (Nat × Nat)) (root : Option Nat) : Py (List (Fin d → ℝ)) := do
  let values ← visited G dfs root
  .ok (List.zipWith (fun c v => v.getD (direction G c.1 c.2)) G.cells values)

/-- `is_loop`, branching.py:14-21. -/
def isLoop (G : Curve d) : Bool := (List.range G.nv).all (fun v => decide ((G.v2c v).length = 2))

/-- `inner((x-c)/(2*df.pi)/dot(x-c, x-c), dot(R, tan))` at a point, embedded_mesh.py:504-505, with `rt = dot(R, tan)`. -/
noncomputable def integrand (c rt x : Fin 2 → ℝ) : ℝ :=
  ((1 / (2 * Real.pi) / ((x - c) ⬝ᵥ (x - c))) • (x - c)) ⬝ᵥ rt

/-- `dot(R, t)` with `R = ((0, 1), (-1, 0))`. -/
def rotate (t : Fin 2 → ℝ) : Fin 2 → ℝ := ![t 1, - t 0]

/-- The integral over a cell as the form compiler takes it: `I` is the rule on the interval (0, 1). -/
noncomputable def cellIntegral (G : Curve 2) (I : (ℝ → ℝ) → ℝ) (c : Fin 2 → ℝ) (cell : Nat × Nat) (t : Fin 2 → ℝ) : ℝ :=
  norm (G.pos cell.2 - G.pos cell.1) *
    I (fun s => integrand c (rotate t) (G.pos cell.1 + s • (G.pos cell.2 - G.pos cell.1)))

/-- `wind_number`, embedded_mesh.py:494-508, at one point `c`. -/
noncomputable def windNumber (G : Curve 2) (dfs : Nat → List (Nat × Nat)) (I : (ℝ → ℝ) → ℝ) (c : Fin 2 → ℝ) : Py ℝ := do
  pyAssert (isLoop G)
  let t ← tangentCurve G dfs none
  .ok ((List.zipWith (cellIntegral G I c) G.cells t).sum)

open Classical in
/-- `encloses_points`, embedded_mesh.py:511-513, at one point. -/
noncomputable def enclosesPoint (G : Curve 2) (dfs : Nat → List (Nat × Nat)) (I : (ℝ → ℝ) → ℝ)
    (tol : ℝ) (c : Fin 2 → ℝ) : Py Bool := do
  let n ← windNumber G dfs I c
  .ok (decide (n > tol))

/-- `np.max(mesh.coordinates(), axis=0) + np.ones(2)`, embedded_mesh.py:521. -/
noncomputable def outsidePoint (G : Curve 2) : Fin 2 → ℝ :=
  fun i => (G.X.map (fun v => v i)).foldr max (G.pos 0 i) + 1

open Classical in
/-- `NormalCurve`, embedded_mesh.py:516-540. -/
noncomputable def normalCurve (G : Curve 2) (dfs : Nat → List (Nat × Nat)) (I : (ℝ → ℝ) → ℝ)
    (outside : Option (Fin 2 → ℝ)) (tol : ℝ) : Py (List (Fin 2 → ℝ)) := do
  let n ← windNumber G dfs I (outside.getD (outsidePoint G))
  let t ← tangentCurve G dfs none
  .ok (t.map (fun t => if |n| < tol then rotate t else - rotate t))

/-! ## Winding numbers of contours -/

/-- `np.diff` of the contour and the midpoints: pairs of midpoint and edge vector, branching.py:195-200. -/
noncomputable def edges : List (Fin 2 → ℝ) → List ((Fin 2 → ℝ) × (Fin 2 → ℝ))
  | p :: q :: l => (p + (1 / 2 : ℝ) • (q - p), q - p) :: edges (q :: l)
  | _ => []

/-- The term of one edge, branching.py:197-204: `dl*sum((x-c)*n)/norm(x-c)**2`. -/
noncomputable def term (c : Fin 2 → ℝ) (e : (Fin 2 → ℝ) × (Fin 2 → ℝ)) : ℝ :=
  norm e.2 * ((e.1 - c) ⬝ᵥ ((1 / norm e.2) • ![e.2 1, - e.2 0])) / norm (e.1 - c) ^ 2

open Classical in
/-- `wind_number(contour, points, 0)`, branching.py:185-205, at one point; refinement (lines 188-189) is `refine_contour`, see
    `Model/Contour.lean`. -/
noncomputable def contourWindNumber (contour : List (Fin 2 → ℝ)) (c : Fin 2 → ℝ) : Py ℝ := do
  pyAssert (decide (norm (contour.getD 0 0 - contour.getLastD 0) < 1 / 10 ^ 13))
  .ok (((edges contour).map (term c)).sum / 2 / Real.pi)

open Classical in
/-- `is_inside_contour(contour, points, tol, 0)`, branching.py:180-182, at one point. -/
noncomputable def isInsideContour (contour : List (Fin 2 → ℝ)) (tol : ℝ) (c : Fin 2 → ℝ) : Py Bool := do
  let w ← contourWindNumber contour c
  .ok (decide (|w| > tol))

end Verif.Tangent
