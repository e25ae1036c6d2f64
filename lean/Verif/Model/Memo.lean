import Verif.Model.Py
/-!
# Memoised reduction matrices

All caches have the same shape (xii/assembler/trace_matrix.py:18-30 and its copies):
a dictionary from a key computed from the arguments to the matrix.  They only differ
in the key.
-/
namespace Verif.Memo
open Verif

section generic
variable {A κ V : Type} [DecidableEq κ]

/-- Dictionary lookup. -/
def lookup (k : κ) : List (κ × V) → Option V
  | [] => none
  | (k', v) :: r => if k' = k then some v else lookup k r

/-- One call of the cached function, xii/assembler/trace_matrix.py:21-28: compute and
store if the key is new; an exception leaves the cache as it is. -/
def call (key : A → κ) (f : A → Py V) (cache : List (κ × V)) (a : A) : Py V × List (κ × V) :=
  match lookup (key a) cache with
  | some v => (.ok v, cache)
  | none =>
    match f a with
    | .ok v => (.ok v, (key a, v) :: cache)
    | .error e => (.error e, cache)

/-- Results of a history of calls. -/
def run (key : A → κ) (f : A → Py V) : List (κ × V) → List A → List (Py V)
  | _, [] => []
  | cache, a :: as =>
    let r := call key f cache a
    r.1 :: run key f r.2 as

end generic

/-- A function space as the cache keys see it: `(V.ufl_element(), V.mesh().id())`. -/
structure Space where
  elm : Nat
  mesh : Nat
  deriving DecidableEq, Repr

/-! ### One request type and one key per cache

Objects which are compared by identity in Python (meshes, normals, marking functions,
shapes, measures) are represented by numbers. -/

/-- Arguments of `trace_mat`, xii/assembler/trace_matrix.py:33-57: `marking` and `tags`
are the two parts of `data['tag_data']`. -/
structure TraceReq where
  V : Space
  TV : Space
  traceMesh : Nat
  restriction : Nat
  normal : Nat
  marking : Nat
  tags : List Nat
  deriving DecidableEq, Repr

/-- xii/assembler/trace_matrix.py:22-24. -/
def TraceReq.key (r : TraceReq) : Space × Space × Nat × Nat × List Nat :=
  (r.V, r.TV, r.restriction, r.normal, r.tags)

/-- Arguments of `transpose_trace_mat`, `avg_mat`, `flux_avg_mat`, `surface_mean_mat`,
`restriction_mat`, `extension_mat`: the two spaces, the mesh and one or more further
data, collected in `data`. -/
structure MeshReq (D : Type) where
  V : Space
  TV : Space
  mesh : Nat
  data : D
  deriving DecidableEq, Repr

/-- xii/assembler/transpose_trace_matrix.py:9-11: the data are not in the key. -/
def transposeTraceKey {D : Type} (r : MeshReq D) : Space × Space × Nat := (r.V, r.TV, r.mesh)

/-- xii/assembler/average_matrix.py:16-18, xii/assembler/flux_average_matrix.py:16-18
(shape), xii/assembler/mean_matrix.py:18-20 (weight and measure),
xii/assembler/extension_matrix.py:19-24 (type and items of the data). -/
def dataKey {D : Type} (r : MeshReq D) : Space × Space × D := (r.V, r.TV, r.data)

/-- xii/assembler/restriction_matrix.py:14-15, xii/assembler/surface_mean_matrix.py:17-18. -/
def spacesKey {D : Type} (r : MeshReq D) : Space × Space := (r.V, r.TV)

/-- Data of `patch_avg_mat`, xii/assembler/patch_average_matrix.py:30-42. -/
structure PatchData where
  vertexF : Nat
  patchF : Nat
  coloring : Option Nat
  deriving DecidableEq, Repr

/-- xii/assembler/patch_average_matrix.py:18-20: `patch_coloring` is not in the key. -/
def patchKey (r : MeshReq PatchData) : Space × Space × Nat × Nat :=
  (r.V, r.TV, r.data.vertexF, r.data.patchF)

/-- Data of `gradient_point_trace_mat`, xii/assembler/gradient_point_trace_matrix.py:23. -/
structure PointData where
  point : Nat
  cell : Nat
  tangent : List Int
  deriving DecidableEq, Repr

/-- xii/assembler/point_trace_matrix.py:12-23 for point and cell given as indices:
`tangent` is not in the key. -/
def pointKey (r : MeshReq PointData) : Space × Space × Nat × Nat :=
  (r.V, r.TV, r.data.point, r.data.cell)

/-- The row of the gradient trace matrix,
xii/assembler/gradient_point_trace_matrix.py:78-91: the gradient of each basis function
of the cell at the point (`grads`) dotted with the tangent. Gradients and tangents are
integers here, the assertions are left out. -/
def gradientRow (grads : MeshReq PointData → List (List Int)) (r : MeshReq PointData) :
    Py (List Int) :=
  .ok ((grads r).map (fun g => (List.zipWith (· * ·) g r.data.tangent).sum))

/-- `data['not_nested_method']`, xii/assembler/injection_matrix.py:36-43. -/
inductive InjMethod where
  | interpolate
  | project
  | lookup
  deriving DecidableEq, Repr

/-- xii/assembler/injection_matrix.py:18-20: the method is not in the key. -/
def injectionKey (r : MeshReq InjMethod) : Space × Space × Nat := (r.V, r.TV, r.mesh)

/-- `injection_matrix`, xii/assembler/injection_matrix.py:30-98.  `transfer` is the
matrix built by dolfin's `create_transfer_matrix`.  The lookup branch refers to `mat`
(line 86) before it is assigned (line 88), so it raises as soon as there is a cell. -/
def injectionMat {M : Type} (transfer : Space → Space → M) (r : MeshReq InjMethod) : Py M :=
  if r.mesh = r.TV.mesh then
    match r.data with
    | .interpolate => .ok (transfer r.V r.TV)
    | .project => .error .valueError
    | .lookup => .error .unboundLocal
  else .error .assertion

/-- The part of `avg_mat`, `flux_avg_mat`, `surface_mean_mat`, `restriction_mat`,
`extension_mat` common to all of them: `assert TV.mesh().id() == reduced_mesh.id()`, then
the matrix `g`. -/
def checkedMat {D M : Type} (g : Space → Space → D → Py M) (r : MeshReq D) : Py M :=
  if r.TV.mesh = r.mesh then g r.V r.TV r.data else .error .assertion

end Verif.Memo
