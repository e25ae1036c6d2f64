import Verif.Model.BlockOps
import Mathlib.Algebra.Module.Defs
import Mathlib.Algebra.Field.Defs
/-!
# Dual meshes (xii/meshing/dual_mesh.py)

Arithmetic is exact.  `topo` gives the connectivity which dolfin computes for a mesh, `order` is the permutation of the
vertices of a cell done by `make_mesh`.  `center` is the function `CellCentroid` or `CellCircumcenter` on a cell (given by its
points); the values of the interpolant in a vector `DG0` space are trusted to be listed cell by cell.
-/
namespace Verif.Dual
open Verif Verif.BlockOps

/-- What is used of a mesh of triangles. -/
structure TMesh (E : Type) where
  verts : List E
  cells : List (List Nat)
  deriving DecidableEq

/-- Facets: their number, the facets of a cell and the vertices of a facet. -/
structure Topo where
  nf : Nat
  c2f : Nat → List Nat
  f2v : Nat → List Nat

variable {K E : Type} [Field K] [AddCommGroup E] [Module K E]

/-- `CellCentroid` on a triangle, cell_centers.py:433-444: the mean of the coordinates over the cell. -/
def centroid (K : Type) [Field K] [Module K E] : List E → Py E
  | [a, b, c] => .ok ((1 / 3 : K) • (a + b + c))
  | _ => .error .runtimeError

/-- `f.midpoint()` of a facet. -/
def midpoint (K : Type) [Field K] [Module K E] : List E → Py E
  | [a, b] => .ok ((1 / 2 : K) • (a + b))
  | _ => .error .runtimeError

/-- The points of a list of vertices. -/
def points (x : List E) (vs : List Nat) : Py (List E) := pyMap (pyGet x) vs

/-- `cells.extend([(cell_center, facet_center, v) for v in f2v(facet)])`, dual_mesh.py:120-126; `nv`, `nc` are the numbers of
    vertices and cells. -/
def cellParts (T : Topo) (nv nc k : Nat) : List (List Nat) :=
  (T.c2f k).flatMap (fun f => (T.f2v f).map (fun v => [nv + k, nv + nc + f, v]))

/-- `dual_mesh_triangle`, dual_mesh.py:87-135 with `make_mesh`, dual_mesh.py:14-24: the mesh, the map of vertices and the map
    of cells (both `dict(enumerate(..))`; `np.repeat` has 6 entries for each cell).  A mesh without cells raises
    (`c2center[-1]`). -/
def dualTriangle (K : Type) [Field K] [Module K E] (topo : TMesh E → Topo) (order : List Nat → List Nat)
    (center : List E → Py E) (M : TMesh E) : Py (TMesh E × List Nat × List Nat) := do
  let T := topo M
  let nc := M.cells.length
  let nv := M.verts.length
  let centers ← pyMap (fun c => do
    let xs ← points M.verts c
    center xs) M.cells
  let mids ← pyMap (fun f => do
    let xs ← points M.verts (T.f2v f)
    midpoint K xs) (List.range T.nf)
  (if nc = 0 then .error .indexError else .ok ())
  let cells := (List.range nc).flatMap (cellParts T nv nc)
  .ok (⟨M.verts ++ centers ++ mids, cells.map order⟩, List.range nv,
    (List.range nc).flatMap (fun k => List.replicate 6 k))

/-- One pass of `while nrefs > 0`, dual_mesh.py:36-58.  `cmap0` is `mapping0[tdim]`, the maps of the new mesh are
    `mapping1`. -/
def dualStep (K : Type) [Field K] [Module K E] (topo : TMesh E → Topo) (order : List Nat → List Nat)
    (center : List E → Py E) (roots : List Nat) (M0 : TMesh E) (refs cmap0 : List Nat) :
    Py (TMesh E × List Nat × List Nat) := do
  let (M1, vmap1, cmap1) ← dualTriangle K topo order center M0
  let cmap ← pyMap (pyGet cmap0) cmap1
  let refs := (vmap1.zipIdx.filter (fun p => decide (p.1 ∈ refs))).map (fun p => p.2)
  pyAssert (decide (refs.length = roots.length))
  .ok (M1, refs, cmap)

/-- The loop. -/
def dualLoop (K : Type) [Field K] [Module K E] (topo : TMesh E → Topo) (order : List Nat → List Nat)
    (center : List E → Py E) (roots : List Nat) : Nat → TMesh E → List Nat → List Nat →
    Py (TMesh E × List Nat × List Nat)
  | 0, M0, refs, cmap0 => .ok (M0, refs, cmap0)
  | n + 1, M0, refs, cmap0 => do
      let (M1, refs, cmap) ← dualStep K topo order center roots M0 refs cmap0
      dualLoop K topo order center roots n M1 refs cmap

/-- `dual_mesh(mesh, center, nrefs)`, dual_mesh.py:8-60, for a mesh with the topological dimension `tdim`: the mesh, the map
    of its vertices to vertices of the root mesh (pairs) and the map of its cells to cells of the root mesh.  For dimension 1
    and 3 `NotImplementedError` is raised, for `nrefs = 0` the loop is not entered and the mesh is refined once. -/
def dualMesh (K : Type) [Field K] [Module K E] (topo : TMesh E → Topo) (order : List Nat → List Nat)
    (center : List E → Py E) (tdim nrefs : Nat) (M : TMesh E) : Py (TMesh E × List (Nat × Nat) × List Nat) := do
  (if tdim = 2 then .ok () else if tdim = 1 ∨ tdim = 3 then .error .runtimeError else .error .keyError)
  let (M0, vmap0, cmap0) ← dualTriangle K topo order center M
  let refs := List.range vmap0.length
  let (M1, refs, cmap) ← dualLoop K topo order center vmap0 (nrefs - 1) M0 refs cmap0
  .ok (M1, refs.zip vmap0, cmap)

end Verif.Dual
