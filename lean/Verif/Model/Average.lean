import Verif.Model.Trace
import Mathlib.Algebra.Field.Defs
/-!
# Averaging matrices (xii/assembler/average_matrix.py)

Functions are evaluated at pairs (point, component), `P` is the type of points of `R^3`.  Collision
detection of dolfin and the quadrature of the shape are parameters.  Arithmetic is exact; division by a
measure which is zero (numpy: nan or inf) is excluded in the theorems.
-/
namespace Verif.Average
open Verif Verif.BlockOps Verif.DofMat Verif.Trace
variable {K P : Type}

/-- What the code asks of the space on the line mesh:
    `TV.dim()`, the number of cells, the dofs of the cells (of the first component for vector valued
    spaces, average_matrix.py:87-88), `TV.tabulate_dof_coordinates()`, and `v0 - v1` for the vertices
    of a cell. -/
structure Line (P : Type) where
  dim : Nat
  numCells : Nat
  cellDofs : Nat → List Nat
  coords : Nat → P
  normal : Nat → P

/-- The loops `for line_cell in cells(line_mesh)`, `for scalar_row in scalar_dofs` as one loop over
    pairs (cell, dof), average_matrix.py:94-104, 185-195. -/
def Line.pairs (L : Line P) : List (Nat × Nat) :=
  (List.range L.numCells).flatMap (fun t => (L.cellDofs t).map (fun d => (t, d)))

/-- `shape.quadrature(x0, n)`: points and weights. -/
abbrev Quad (K P : Type) := P → P → Py (List P × List K)

/-- `if col in data: data[col] += value else: data[col] = value`, average_matrix.py:134-137, 224-227. -/
def addTo {A : Type} [Add A] (data : List (Nat × A)) (col : Nat) (v : A) : List (Nat × A) :=
  if data.any (fun p => p.1 = col) then data.map (fun p => if p.1 = col then (p.1, p.2 + v) else p)
  else data ++ [(col, v)]

/-- Loop over the basis functions of one cell, average_matrix.py:128-137, 218-227.  The values of one
    basis function are a function of the component (scalar spaces: component 0). -/
def addCell [Field K] (V : Space K (P × Nat)) (w measure : K) (c : Nat) (p : P) :
    Nat → List Nat → List (Nat × (Nat → K)) → List (Nat × (Nat → K))
  | _, [], data => data
  | l, col :: cols, data =>
      addCell V w measure c p (l + 1) cols
        (addTo data col (fun k => V.basis c l (p, k) * w / measure))

/-- Loop over the integration points, average_matrix.py:113-137, 204-227.  Points which are in no cell
    (`compute_first_entity_collision` is not below `limit`) are skipped.  The branch `c is None` of the
    code cannot be reached. -/
def pointLoop [Field K] (V : Space K (P × Nat)) (collide : P → Nat) (ws : List K) (measure : K) :
    Nat → List P → List (Nat × (Nat → K)) → Py (List (Nat × (Nat → K)))
  | _, [], data => .ok data
  | i, p :: ps, data =>
      if V.numCells ≤ collide p then pointLoop V collide ws measure (i + 1) ps data
      else do
        let w ← pyGet ws i
        pointLoop V collide ws measure (i + 1) ps
          (addCell V w measure (collide p) p 0 (V.cellDofs (collide p)) data)

/-- The dict `data` of one row, average_matrix.py:106-137, 197-227. -/
def rowData [Field K] (V : Space K (P × Nat)) (collide : P → Nat) (quad : Quad K P) (x n : P) :
    Py (List (Nat × (Nat → K))) := do
  let (pts, ws) ← quad x n
  pointLoop V collide ws ws.sum 0 pts []

/-- The lists `II`, `JJ`, `VALS`, average_matrix.py:183-238. -/
def scalarLoop [Field K] (V : Space K (P × Nat)) (L : Line P) (collide : P → Nat) (quad : Quad K P) :
    List (Nat × Nat) → List Nat × List Nat × List K → Py (List Nat × List Nat × List K)
  | [], acc => .ok acc
  | (t, d) :: ps, (I, J, VS) => do
      let data ← rowData V collide quad (L.coords d) (L.normal t)
      scalarLoop V L collide quad ps
        (if data.isEmpty then (I, J, VS)
         else (I ++ List.replicate data.length d, J ++ data.map (fun p => p.1),
           VS ++ data.map (fun p => p.2 0)))

/-- `scalar_average_matrix`, average_matrix.py:151-249. -/
def scalarAverage [Field K] (V : Space K (P × Nat)) (L : Line P) (collide : P → Nat)
    (quad : Quad K P) : Py (Mat K) := do
  let (I, J, VS) ← scalarLoop V L collide quad L.pairs ([], [], [])
  csr L.dim V.dim I J VS

/-- Writing the components of one row, average_matrix.py:141-145 (and 323-326, where the values are the
    basis functions). -/
def shiftLoop [Add K] (m n d : Nat) (data : List (Nat × (Nat → K))) :
    List Nat → (Nat → Nat → K) → Py (Nat → Nat → K)
  | [], M => .ok M
  | k :: ks, M => do
      let M ← setValues m n .insert M (d + k) (data.map (fun p => p.1)) (data.map (fun p => p.2 k))
      shiftLoop m n d data ks M

/-- Loop over the dofs of the line mesh, average_matrix.py:94-147. -/
def vectorLoop [Field K] (V : Space K (P × Nat)) (L : Line P) (size : Nat) (collide : P → Nat)
    (quad : Quad K P) : List (Nat × Nat) → (Nat → Nat → K) → Py (Nat → Nat → K)
  | [], M => .ok M
  | (t, d) :: ps, M => do
      let data ← rowData V collide quad (L.coords d) (L.normal t)
      let M ← shiftLoop L.dim V.dim d data (List.range size) M
      vectorLoop V L size collide quad ps M

/-- `average_matrix`, average_matrix.py:57-148; `size` is the `value_size`. -/
def averageMatrix [Field K] (V : Space K (P × Nat)) (L : Line P) (size : Nat) (collide : P → Nat)
    (quad : Quad K P) : Py (Mat K) :=
  if size = 1 then scalarAverage V L collide quad
  else do
    let M ← vectorLoop V L size collide quad L.pairs (fun _ _ => 0)
    .ok (Mat.of L.dim V.dim M)

/-- Values of the basis functions of a cell at a point, average_matrix.py:315-323. -/
def basisData (V : Space K (P × Nat)) (c : Nat) (p : P) : List (Nat × (Nat → K)) :=
  (V.cellDofs c).zipIdx.map (fun q => (q.1, fun k => V.basis c q.2 (p, k)))

/-- Loops of `trace_3d1d_matrix`, average_matrix.py:297-326.  `cell3d` is `get_cell3d`; the columns are
    looked up before the loop over the dofs; here the lookup is repeated for each dof of the cell. -/
def traceLoop [Add K] (V : Space K (P × Nat)) (L : Line P) (size : Nat) (cell3d : Nat → Py (Option Nat)) :
    List (Nat × Nat) → (Nat → Nat → K) → Py (Nat → Nat → K)
  | [], M => .ok M
  | (t, d) :: ps, M => do
      let c ← cell3d t
      match c with
      | none => traceLoop V L size cell3d ps M
      | some c => do
          let M ← shiftLoop L.dim V.dim d (basisData V c (L.coords d)) (List.range size) M
          traceLoop V L size cell3d ps M

/-- `get_cell3d` on an embedded mesh, average_matrix.py:268-276: the first cell connected to the edge. -/
def cellByMap (mapping : List (Nat × Nat)) (e2c : Nat → List Nat) (t : Nat) : Py (Option Nat) := do
  let e ← dictGet mapping t
  let c ← pyGet (e2c e) 0
  .ok (some c)

/-- `get_cell3d` on other meshes, average_matrix.py:278-284: by collision of the midpoint. -/
def cellByPoint (limit : Nat) (collide : P → Nat) (mid : Nat → P) (t : Nat) : Py (Option Nat) :=
  .ok (if collide (mid t) < limit then some (collide (mid t)) else none)

/-- `trace_3d1d_matrix`, average_matrix.py:252-329. -/
def trace3d1d [Zero K] [Add K] (V : Space K (P × Nat)) (L : Line P) (size : Nat) (onMesh isCG isDG0 : Bool)
    (cell3d : Nat → Py (Option Nat)) : Py (Mat K) := do
  pyAssert onMesh
  pyAssert (isCG || isDG0)
  let M ← traceLoop V L size cell3d L.pairs (fun _ _ => 0)
  .ok (Mat.of L.dim V.dim M)

/-- `avg_mat`, average_matrix.py:28-54 (the cache is treated elsewhere): `shape` is `data['shape']`. -/
def avgMat [Field K] (V : Space K (P × Nat)) (L : Line P) (size : Nat) (onMesh isDG sameShape sameCell
    sameDim isCG isDG0 : Bool) (cell3d : Nat → Py (Option Nat)) (collide : P → Nat)
    (shape : Option (Quad K P)) : Py (Mat K) := do
  pyAssert onMesh
  pyAssert isDG
  pyAssert sameShape
  pyAssert sameCell
  pyAssert sameDim
  match shape with
  | none => trace3d1d V L size onMesh isCG isDG0 cell3d
  | some quad => averageMatrix V L size collide quad

/-- Loop of `MeasureFunction`, average_matrix.py:351-364: `visited` and `values` (unset entries of
    `np.empty` are `none`). -/
def measureLoop [Field K] (L : Line P) (quad : Quad K P) :
    List (Nat × Nat) → List (Option K) → Py (List (Option K))
  | [], vs => .ok vs
  | (t, d) :: ps, vs => do
      let seen ← pyGet vs d
      match seen with
      | some _ => measureLoop L quad ps vs
      | none => do
          let (_, ws) ← quad (L.coords d) (L.normal t)
          measureLoop L quad ps (vs.set d (some ws.sum))

/-- `MeasureFunction`, average_matrix.py:332-372.  `visited[dofs]` is evaluated once for each cell, which
    is the same if the dofs of a cell are distinct. -/
def measureFunction [Field K] (L : Line P) (quad : Quad K P) : Py (List K) := do
  let vs ← measureLoop L quad L.pairs (List.replicate L.dim none)
  pyAssert (vs.all Option.isSome)
  .ok (vs.filterMap id)

end Verif.Average
