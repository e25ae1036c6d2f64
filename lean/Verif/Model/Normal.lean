import Verif.Model.Py
import Mathlib.Analysis.Real.Sqrt
import Mathlib.Data.Matrix.Mul
/-!
# Normals of embedded meshes (xii/meshing/embedded_mesh.py, xii/meshing/dg_utils.py)

Arithmetic is exact.  Functions of the space 'Discontinuous Lagrange Trace', 0 have one value per facet and those of
'DG', 0 one value per cell; forms `(1/hA)*inner(g, v)*dS` of functions `g` which are constant on facets are assembled to the
value of `g`.
-/
namespace Verif.Normal
open Verif Matrix

variable {d : Nat}

/-- A facet of the surrounding mesh: `FacetNormal` on the side '+', the cell '+' and the cell '-' (missing for exterior
    facets).  On the side '-' the normal is the opposite vector. -/
structure Facet (d : Nat) where
  normal : Fin d → ℝ
  plus : Nat
  minus : Option Nat

/-- The surrounding mesh. -/
structure Outer (d : Nat) where
  id : Nat
  facets : List (Facet d)

/-- The embedded mesh: for each cell its `cell_normal` (of some sign) and midpoint; the vertices; the topological dimension;
    `parent_entity_map` as a list of pairs of a mesh id and the facets which the cells are, and for the space
    `VectorFunctionSpace(mesh, 'DG', 0)` the lists `V.sub(i).dofmap().dofs()` and the dofs of the cells. -/
structure Surface (d : Nat) where
  tdim : Nat
  normals : List (Fin d → ℝ)
  midpoints : List (Fin d → ℝ)
  coordinates : List (Fin d → ℝ)
  parents : List (Nat × List Nat)
  subDofs : Fin d → List Nat
  cellDof : Nat → Fin d → Nat
  dim : Nat

/-- What may be given as `orientation` (embedded_mesh.py:248-336): nothing, a marker function of cells, a mesh, the
    `FacetNormal` of a mesh, a point, or an expression. -/
inductive Orientation (d : Nat) where
  | default
  | marker (mesh : Outer d) (values : List Nat)
  | mesh (mesh : Outer d)
  | facetNormal (mesh : Outer d)
  | point (x : List ℝ)
  | expression (size : Nat) (f : (Fin d → ℝ) → Fin d → ℝ)

/-- `pcws_constant`, dg_utils.py:5-20: the value of the function in a cell is the marker of the cell.  Not modelled: the
    numbering of the dofs of 'DG', 0 by `entity_dofs`. -/
def pcwsConstant (values : List Nat) (cell : Nat) : Py Nat :=
  match values[cell]? with
  | some v => .ok v
  | none => .error .indexError

/-- `OrientedFacetNormal` of markers, dg_utils.py:23-31, and `orient_facet_normal`, dg_utils.py:34-56, at one facet. -/
def orientFacetNormal (values : List Nat) (f : Facet d) : Py (Fin d → ℝ) :=
  match f.minus with
  | some m => do
      let kp ← pcwsConstant values f.plus
      let km ← pcwsConstant values m
      .ok (if kp > km then f.normal else - f.normal)
  | none => .ok f.normal

/-- `assert mesh.id() in embedded.parent_entity_map`, with the facets. -/
def parentsIn (S : Surface d) (id : Nat) : Py (List Nat) :=
  match S.parents.find? (fun p => p.1 == id) with
  | some p => .ok p.2
  | none => .error .assertion

/-- The facet which a cell is. -/
def facetOf (M : Outer d) (i : Nat) : Py (Facet d) :=
  match M.facets[i]? with
  | some f => .ok f
  | none => .error .indexError

/-- `ii_assemble((1/hK)*inner(Trace(n, mesh), v)*dx)`, embedded_mesh.py:266-270, 292-294, 318-320: the value in a cell is the value at
    its facet. -/
def traceValues (M : Outer d) (value : Facet d → Py (Fin d → ℝ)) : List Nat → Py (List (Fin d → ℝ))
  | [] => .ok []
  | i :: is => do
      let f ← facetOf M i
      let v ← value f
      let r ← traceValues M value is
      .ok (v :: r)

/-- `np.linalg.norm`. -/
noncomputable def norm (x : Fin d → ℝ) : ℝ := Real.sqrt (x ⬝ᵥ x)

open Classical in
/-- One step of the loop over cells, embedded_mesh.py:349-356. -/
noncomputable def cellValue (o : (Fin d → ℝ) → Fin d → ℝ) (n x : Fin d → ℝ) : Fin d → ℝ :=
  let n := if o x ⬝ᵥ n < 0 then (-1 : ℝ) • n else n
  (1 / norm n) • n

/-- Numpy assignment `a[dofs] = vals`. -/
def assign (a : List ℝ) (dofs : List Nat) (vals : List ℝ) : List ℝ :=
  (List.zip dofs vals).foldl (fun a p => a.set p.1 p.2) a

/-- The coefficients, embedded_mesh.py:360-363, over the components. -/
def fillSubs (S : Surface d) (values : List (Fin d → ℝ)) : List (Fin d) → List ℝ → List ℝ
  | [], a => a
  | s :: ss, a => fillSubs S values ss (assign a (S.subDofs s) (values.map (fun v => v s)))

/-- The value of the function with these coefficients in a cell. -/
def valueAt (S : Surface d) (coefs : List ℝ) (cell : Nat) : Fin d → ℝ := fun s => coefs.getD (S.cellDof cell s) 0

/-- The normals oriented by an expression, embedded_mesh.py:336-364 (`X`, `dd`, `R` are not used). -/
noncomputable def byExpression (S : Surface d) (size : Nat) (o : (Fin d → ℝ) → Fin d → ℝ) : Py (List (Fin d → ℝ)) := do
  pyAssert (decide (size = d))
  let values := List.zipWith (cellValue o) S.normals S.midpoints
  let coefs := fillSubs S values (List.finRange d) (List.replicate S.dim 0)
  .ok ((List.range S.normals.length).map (valueAt S coefs))

/-- `OuterNormal.__init__` for an inside point, embedded_mesh.py:329-334 (after the assertion of line 325). -/
noncomputable def byPoint (S : Surface d) (x : List ℝ) : Py (List (Fin d → ℝ)) := do
  pyAssert (decide (x.length = d))
  byExpression S d (fun y i => y i - x.getD i 0)

/-- `mesh.coordinates().mean(axis=0)`, embedded_mesh.py:250. -/
noncomputable def meanPoint (S : Surface d) : List ℝ :=
  (List.finRange d).map (fun i => (S.coordinates.map (fun v => v i)).sum / S.coordinates.length)

/-- `assert 1 <= mesh.topology().dim() < mesh.geometry().dim()`, embedded_mesh.py:325. -/
def manifold (S : Surface d) : Py Unit := pyAssert (decide (1 ≤ S.tdim ∧ S.tdim < d))

/-- `OuterNormal.__init__`, embedded_mesh.py:247-364: values in the cells. -/
noncomputable def outerNormal (S : Surface d) : Orientation d → Py (List (Fin d → ℝ))
  | .marker M values => do
      let p ← parentsIn S M.id
      traceValues M (orientFacetNormal values) p
  | .mesh M => do
      let p ← parentsIn S M.id
      -- only `ds`: zero on interior facets (line 283)
      traceValues M (fun f => .ok (if f.minus.isNone then f.normal else 0)) p
  | .facetNormal M => do
      let p ← parentsIn S M.id
      traceValues M (fun f => .ok f.normal) p
  | .default => do
      manifold S
      byPoint S (meanPoint S)
  | .point x => do
      manifold S
      byPoint S x
  | .expression size f => do
      manifold S
      byExpression S size f

/-- `InnerNormal`, embedded_mesh.py:367-371. -/
noncomputable def innerNormal (S : Surface d) (o : Orientation d) : Py (List (Fin d → ℝ)) := do
  let n ← outerNormal S o
  .ok (n.map (fun v => - v))

end Verif.Normal
