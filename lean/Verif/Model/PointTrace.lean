import Verif.Model.Average
import Verif.Model.Patch
/-!
# Point values and fluxes

xii/assembler/point_trace_matrix.py, gradient_point_trace_matrix.py, flux_average_matrix.py.

`P` is the type of points.  Collision detection of dolfin, the element (`evaluate_basis`) and the dof maps are parameters.
Arithmetic is exact.  The caches are treated elsewhere.
-/
namespace Verif.PointTrace
open Verif Verif.BlockOps Verif.DofMat Verif.Trace Verif.Average Verif.Patch
variable {K P : Type}

/-- `evaluate_basis_all` either returns the array of values (point, coordinates and orientation being given), or fills the
    array given as the first argument.  A call with the wrong number of arguments raises `TypeError`. -/
inductive Api where
  | returns
  | fills
  deriving DecidableEq

/-- The array of values: components of the first basis function, of the second one, ... -/
def flatBasis (V : Space K (P × Nat)) (size c : Nat) (p : P) : List K :=
  (List.range V.spaceDim).flatMap (fun l => (List.range size).map (fun k => V.basis c l (p, k)))

/-- `Vel.evaluate_basis_all(x, vertex_coordinates, cell_orientation)`, point_trace_matrix.py:96. -/
def basisAll3 (api : Api) (V : Space K (P × Nat)) (size c : Nat) (p : P) : Py (List K) :=
  match api with
  | .returns => .ok (flatBasis V size c p)
  | .fills => .error .typeError

/-- `Vel.evaluate_basis_all(basis_values, x0, vertex_coordinates, cell_orientation)`, point_trace_matrix.py:137. -/
def basisAll4 (api : Api) (V : Space K (P × Nat)) (size c : Nat) (p : P) : Py (List K) :=
  match api with
  | .returns => .error .typeError
  | .fills => .ok (flatBasis V size c p)

/-- `all_dofs.index(dof)`. -/
def pyIndex (l : List Nat) (d : Nat) : Py Nat := if d ∈ l then .ok (l.idxOf d) else .error .valueError

/-- What is asked of the space of constants `TV`: its dimension and `TV.dofmap().cell_dofs(cell)`. -/
structure Real where
  dim : Nat
  dofs : Nat → List Nat

/-- The loop over `row`, point_trace_matrix.py:147-154; `sub row` is `component_dofs(row)`. -/
def cgLoop (all : List Nat) (vals : List K) (sub : Nat → List Nat) :
    List Nat → List Nat × List Nat × List K → Py (List Nat × List Nat × List K)
  | [], acc => .ok acc
  | row :: rows, acc => do
      let loc ← pyMap (pyIndex all) (sub row)
      let vs ← pyMap (pyGet vals) loc
      cgLoop all vals sub rows (extend acc row (sub row) vs)

/-- `point_trace_matrix_CG`, point_trace_matrix.py:115-160.  `compDofs k c` is `V.sub(k).dofmap().cell_dofs(c)`. -/
def pointTraceCG [AddCommMonoid K] (api : Api) (V : Space K (P × Nat)) (size : Nat) (compDofs : Nat → Nat → List Nat)
    (TV : Real) (collide : P → Nat) (x0 : P) : Py (Mat K) := do
  pyAssert (collide x0 < V.numCells)
  let vals ← basisAll4 api V size (collide x0) x0
  let (I, J, VS) ← cgLoop (V.cellDofs (collide x0)) vals
    (fun row => if size = 1 then V.cellDofs (collide x0) else compDofs row (collide x0)) (TV.dofs (collide x0)) ([], [], [])
  csr TV.dim V.dim I J VS

/-- The single dof, `row, = TV.dofmap().cell_dofs(cell)`. -/
def theRow : List Nat → Py Nat
  | [r] => .ok r
  | _ => .error .valueError

/-- `point_trace_matrix_DG`, point_trace_matrix.py:63-112, for a scalar space; `x` is `x[x0]`, `collisions` is
    `compute_entity_collisions`. -/
def pointTraceDG [AddCommMonoid K] [DecidableEq K] (api : Api) (V : Space K (P × Nat)) (TV : Real) (collisions : P → List Nat)
    (x : P) (cell : Nat) : Py (Mat K) := do
  pyAssert (cell ∈ collisions x)
  let vals ← basisAll3 api V 1 cell x
  pyAssert (vals.any (fun v => v ≠ 0))
  let row ← theRow (TV.dofs cell)
  let (I, J, VS) := extend ([], [], []) row (V.cellDofs cell) vals
  csr TV.dim V.dim I J VS

/-- `gradient_point_trace_matrix_DG`, gradient_point_trace_matrix.py:41-101, for a scalar space; `grad c l x i` is the
    derivative in direction `i` of the basis function and `tau c` is the value of the tangent for the cell (a constant, a
    function evaluated at the midpoint of the cell or an array, gradient_point_trace_matrix.py:64-69). -/
def gradientDG [CommRing K] [DecidableEq K] (V : Space K (P × Nat)) (gdim : Nat) (grad : Nat → Nat → P → Nat → K)
    (tau : Nat → Nat → K) (TV : Real) (collisions : P → List Nat) (x : P) (cell : Nat) : Py (Mat K) := do
  pyAssert (cell ∈ collisions x)
  let rows := (List.range V.spaceDim).map (fun l => (List.range gdim).map (grad cell l x))
  pyAssert (rows.any (fun r => r.any (fun v => v ≠ 0)))
  let row ← theRow (TV.dofs cell)
  let vals := rows.map (fun r => ((r.zip ((List.range gdim).map (tau cell))).map (fun p => p.1 * p.2)).sum)
  let (I, J, VS) := extend ([], [], []) row (V.cellDofs cell) vals
  csr TV.dim V.dim I J VS

/-- What `point_trace_mat` looks at: the family of `V` (`Lagrange`, `Discontinuous Lagrange`, other), the family of `TV`,
    whether value shapes agree, whether the meshes are the same, the topological and geometric dimension of the mesh and the
    value size of `V`, and whether the value shape is `()`. -/
structure Checks where
  cg : Bool
  dg : Bool
  real : Bool
  sameShape : Bool
  sameMesh : Bool
  tdim : Nat
  gdim : Nat
  size : Nat
  scalar : Bool

/-- `data['point']`: coordinates, or the index of a vertex. -/
inductive Pt (P : Type) where
  | coords (len : Nat) (x : P)
  | index (i : Nat)

/-- The branch of discontinuous elements, point_trace_matrix.py:48-57: the point is an index and so is the cell. -/
def atVertex [Zero K] (verts : List P) (pt : Pt P) (cell : Option Nat) (f : P → Nat → Py (Mat K)) : Py (Mat K) :=
  match pt with
  | .coords _ _ => .error .assertion
  | .index i =>
    match cell with
    | none => .error .assertion
    | some c => do
        let x ← pyGet verts i
        f x c

/-- The branch of continuous elements, point_trace_matrix.py:46-47. -/
def atPoint [Zero K] (gdim : Nat) (pt : Pt P) (f : P → Py (Mat K)) : Py (Mat K) :=
  match pt with
  | .index _ => .error .typeError
  | .coords len x => do
      pyAssert (len = gdim)
      f x

/-- `point_trace_mat`, point_trace_matrix.py:33-59; `cell` is `data['cell']`, `none` if it is not an integer.  `len(x0)` of
    an index raises `TypeError`; `verts` are the vertices of the mesh. -/
def pointTraceMat [AddCommMonoid K] [DecidableEq K] (C : Checks) (api : Api) (V : Space K (P × Nat))
    (compDofs : Nat → Nat → List Nat) (TV : Real) (collide : P → Nat) (collisions : P → List Nat) (verts : List P)
    (pt : Pt P) (cell : Option Nat) : Py (Mat K) := do
  pyAssert C.real
  pyAssert C.sameShape
  pyAssert C.sameMesh
  if C.cg then
    atPoint C.gdim pt (pointTraceCG api V C.size compDofs TV collide)
  else do
    pyAssert C.dg
    pyAssert (C.tdim = 1)
    pyAssert C.scalar
    atVertex verts pt cell (pointTraceDG api V TV collisions)

/-- `gradient_point_trace_mat`, gradient_point_trace_matrix.py:12-37: `NotImplementedError` for Lagrange elements. -/
def gradientMat [CommRing K] [DecidableEq K] (C : Checks) (V : Space K (P × Nat)) (grad : Nat → Nat → P → Nat → K)
    (tau : Nat → Nat → K) (TV : Real) (collisions : P → List Nat) (verts : List P) (pt : Pt P) (cell : Option Nat) :
    Py (Mat K) := do
  pyAssert C.real
  pyAssert C.sameShape
  pyAssert C.sameMesh
  if C.cg then .error .runtimeError
  else do
    pyAssert C.dg
    pyAssert (C.tdim = 1)
    pyAssert C.scalar
    atVertex verts pt cell (gradientDG V C.gdim grad tau TV collisions)

/-! ## Fluxes -/

/-- The scalar space of normal components: the value of a basis function at a point `p` with the vector `n` is
    `np.sum(basis_values*normal_ip, axis=1)`, flux_average_matrix.py:124-129. -/
def fluxSpace [CommRing K] (V : Space K (P × Nat)) (size : Nat) : Space K ((P × (Nat → K)) × Nat) where
  dim := V.dim
  numCells := V.numCells
  spaceDim := V.spaceDim
  cellDofs := V.cellDofs
  basis c l q := ((List.range size).map (fun k => V.basis c l (q.1.1, k) * q.1.2 k)).sum
  dofs _ _ _ := 0

/-- The line mesh, its points without vectors attached. -/
def fluxLine [Zero K] (L : Line P) : Line (P × (Nat → K)) where
  dim := L.dim
  numCells := L.numCells
  cellDofs := L.cellDofs
  coords d := (L.coords d, fun _ => 0)
  normal t := (L.normal t, fun _ => 0)

/-- `shape.quadrature_normal(avg_point, n)`: points, weights and vectors. -/
abbrev QuadN (K P : Type) := P → P → Py (List P × List K × List (Nat → K))

/-- `zip(integration_points, quadrature_normal)`, flux_average_matrix.py:102-109. -/
def fluxQuad (quad : QuadN K P) : Quad K (P × (Nat → K)) := fun x n => do
  let (pts, ws, ns) ← quad x.1 n.1
  .ok (pts.zip ns, ws)

/-- `flux_average_matrix`, flux_average_matrix.py:56-156.  The loops are those of `scalar_average_matrix`
    (average_matrix.py:151-249), with the values of the normal components of the basis functions. -/
def fluxMatrix [Field K] (V : Space K (P × Nat)) (size : Nat) (L : Line P) (collide : P → Nat) (quad : QuadN K P) :
    Py (Mat K) :=
  scalarAverage (fluxSpace V size) (fluxLine L) (fun q => collide q.1) (fluxQuad quad)

/-- `flux_avg_mat`, flux_average_matrix.py:28-53: `rank` is the number of entries of the value shape of `V`. -/
def fluxAvgMat [Field K] (V : Space K (P × Nat)) (size rank : Nat) (onMesh isDG scalar sameCell sameDim : Bool) (L : Line P)
    (collide : P → Nat) (shape : Option (QuadN K P)) : Py (Mat K) := do
  pyAssert onMesh
  pyAssert isDG
  pyAssert (rank = 1)
  pyAssert scalar
  pyAssert sameCell
  pyAssert sameDim
  match shape with
  | none => .error .assertion
  | some quad => fluxMatrix V size L collide quad

end Verif.PointTrace
