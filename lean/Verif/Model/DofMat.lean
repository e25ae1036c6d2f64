import Verif.Model.Mat
import Verif.Model.BlockOps
/-!
# Matrices whose rows are degrees of freedom evaluated at basis functions

xii/assembler/fem_eval.py, restriction_matrix.py, interpolation_matrix.py,
nonconforming_trace_matrix.py, injection_matrix.py.

A function space is given by what dolfin reports about it: the sizes, the dof map, and the two
routines of the element (`evaluate_basis`, `evaluate_dofs`).  The evaluators are the stateful
objects of fem_eval.py (current cell and current local dof), the buffers are the reused numpy
arrays, PETSc and scipy matrices are the entries written so far.

Arithmetic is exact (`K` is a commutative ring).
-/
namespace Verif.DofMat
open Verif Verif.BlockOps

/-- What the code asks of a dolfin `FunctionSpace`.  `X` is the set of (point, component) pairs
    at which functions are evaluated.

    * `dim`: `V.dim()`;  `numCells`: `V.mesh().num_cells()`;
    * `spaceDim`: `V.element().space_dimension()`;
    * `cellDofs c`: `V.dofmap().cell_dofs(c)`;
    * `basis c l x`: `evaluate_basis(l, x, cell c)`;
    * `dofs c l f`: entry `l` of `evaluate_dofs(f, cell c)`;
    * `isDG`: `V.ufl_element().family() == 'Discontinuous Lagrange'`. -/
structure Space (K X : Type) where
  dim : Nat
  numCells : Nat
  spaceDim : Nat
  cellDofs : Nat → List Nat
  basis : Nat → Nat → X → K
  dofs : Nat → Nat → (X → K) → K
  isDG : Bool := false

variable {K X : Type}

/-- State of a `DegreeOfFreedom` or `FEBasisFunction` object, fem_eval.py:10-27, 61-80: the current
    cell (with its coordinates and orientation) and the current local dof. -/
structure Ev where
  cell : Nat
  dof : Nat
  deriving DecidableEq, Repr

/-- Freshly constructed evaluator, fem_eval.py:19-23, 71-76. -/
def Ev.init : Ev := ⟨0, 0⟩

/-- The `cell` setter, fem_eval.py:38-43 and 91-96; `Cell(mesh, c)` of a cell which does not exist
    raises. -/
def setCell (S : Space K X) (e : Ev) (c : Nat) : Py Ev :=
  if c < S.numCells then .ok { e with cell := c } else .error .runtimeError

/-- The `dof` setter, fem_eval.py:29-32 and 82-85. -/
def setDof (S : Space K X) (e : Ev) (l : Nat) : Py Ev := do
  pyAssert (l < S.spaceDim)
  .ok { e with dof := l }

/-- The function represented by a `FEBasisFunction`, fem_eval.py:98-102. -/
def fn (S : Space K X) (e : Ev) : X → K := S.basis e.cell e.dof

/-- `DegreeOfFreedom.eval_dofs`, fem_eval.py:51-55. -/
def evalDofs (S : Space K X) (e : Ev) (f : X → K) : List K :=
  (List.range S.spaceDim).map (fun l => S.dofs e.cell l f)

/-- `DegreeOfFreedom.eval`, fem_eval.py:45-49. -/
def eval (S : Space K X) (e : Ev) (f : X → K) : Py K := pyGet (evalDofs S e f) e.dof

/-- Assignment of one entry of an array. -/
def pySet {α : Type} (l : List α) (i : Nat) (a : α) : Py (List α) :=
  if i < l.length then .ok (l.set i a) else .error .indexError

/-- `PETSc.InsertMode`. -/
inductive Mode where
  | insert
  | add
  deriving DecidableEq

/-- Entries written by `setValues` for one row, in the order of the columns. -/
def write [Add K] (mode : Mode) (r : Nat) : List (Nat × K) → (Nat → Nat → K) → Nat → Nat → K
  | [], M => M
  | (c, v) :: ps, M => write mode r ps (fun i j =>
      if i = r ∧ j = c then (match mode with | .insert => v | .add => M i j + v) else M i j)

/-- `mat.setValues([r], cols, vals, mode)` for an `m × n` matrix: petsc4py checks the number of
    values, PETSc the range of the indices. -/
def setValues [Add K] (m n : Nat) (mode : Mode) (M : Nat → Nat → K) (r : Nat) (cols : List Nat)
    (vals : List K) : Py (Nat → Nat → K) :=
  if cols.length = vals.length then
    if r < m ∧ ∀ c ∈ cols, c < n then .ok (write mode r (cols.zip vals) M)
    else .error .runtimeError
  else .error .valueError

/-- Local variables of the loops: the two evaluators, `visited_dofs`, `dof_values`, the matrix. -/
structure St (K : Type) where
  tv : Ev
  vb : Ev
  visited : List Bool
  buf : List K
  mat : Nat → Nat → K

/-- Values of the variables before the loops, e.g. restriction_matrix.py:50-60. -/
def St.init [Zero K] (V TV : Space K X) : St K :=
  ⟨Ev.init, Ev.init, List.replicate TV.dim false, List.replicate V.spaceDim 0, fun _ _ => 0⟩

/-- Evaluation of the current target dof at all the basis functions of the current cell,
    restriction_matrix.py:82-86, interpolation_matrix.py:58-61, nonconforming_trace_matrix.py:88-95
    (`modify` is the identity except in trace_mat_two_restrict, trace_matrix.py:495-499). -/
def fillBuf (V TV : Space K X) (modify : K → K) (tv : Ev) :
    Ev → List K → Nat → List Nat → Py (Ev × List K)
  | vb, buf, _, [] => .ok (vb, buf)
  | vb, buf, l, _ :: ds => do
      let vb ← setDof V vb l
      let v ← eval TV tv (fn V vb)
      let buf ← pySet buf l (modify v)
      fillBuf V TV modify tv vb buf (l + 1) ds

/-- Fill row `d` from cell `c`: restriction_matrix.py:67-69, 81-91,
    nonconforming_trace_matrix.py:82-97. -/
def putRow [Add K] (V TV : Space K X) (mode : Mode) (modify : K → K) (d c : Nat) (s : St K) :
    Py (St K) := do
  let vb ← setCell V s.vb c
  let (vb, buf) ← fillBuf V TV modify s.tv vb s.buf 0 (V.cellDofs c)
  let mat ← setValues TV.dim V.dim mode s.mat d (V.cellDofs c) buf
  .ok { s with vb := vb, buf := buf, mat := mat }

/-- The part of the loop body for a dof seen for the first time.  `pick` is the cell to be used, or
    nothing if the row is to be left empty (nonconforming_trace_matrix.py:77-80). -/
def newRow (TV : Space K X) (put : Nat → Nat → St K → Py (St K)) (pick : Py (Option Nat))
    (l d : Nat) (s : St K) : Py (St K) := do
  let tv ← setDof TV s.tv l
  let s := { s with visited := s.visited.set d true, tv := tv }
  let c ← pick
  match c with
  | none => .ok s
  | some c => put d c s

/-- Loop over the dofs of the target cell, restriction_matrix.py:71-91,
    interpolation_matrix.py:50-63, nonconforming_trace_matrix.py:68-97. -/
def rowLoop (TV : Space K X) (put : Nat → Nat → St K → Py (St K)) (pick : Nat → Py (Option Nat)) :
    Nat → List Nat → St K → Py (St K)
  | _, [], s => .ok s
  | l, d :: ds, s => do
      let seen ← pyGet s.visited d
      if seen then rowLoop TV put pick (l + 1) ds s
      else do
        let s ← newRow TV put (pick d) l d s
        rowLoop TV put pick (l + 1) ds s

/-- Loop over the cells of the target mesh.  `prep` is what is done for the cell before the loop
    over its dofs: it returns the state and the choice of the cell for each dof. -/
def cellLoop (TV : Space K X) (put : Nat → Nat → St K → Py (St K))
    (prep : Nat → St K → Py (St K × (Nat → Py (Option Nat)))) :
    List Nat → St K → Py (St K)
  | [], s => .ok s
  | t :: ts, s => do
      let tv ← setCell TV s.tv t
      let (s, pick) ← prep t { s with tv := tv }
      let s ← rowLoop TV put pick 0 (TV.cellDofs t) s
      cellLoop TV put prep ts s

/-- A python dict. -/
def dictGet (m : List (Nat × Nat)) (k : Nat) : Py Nat :=
  match m.lookup k with
  | some v => .ok v
  | none => .error .keyError

/-- `restriction_matrix`, restriction_matrix.py:40-92 (after the check of the mesh ids), with
    `mapping = rmesh.parent_entity_map[mesh.id()][tdim]`. -/
def restrictionMatrix [AddZeroClass K] (V TV : Space K X) (mapping : List (Nat × Nat)) :
    Py (Mat K) := do
  let s ← cellLoop TV (putRow V TV .insert id)
    (fun t s => do
      let c ← dictGet mapping t
      let vb ← setCell V s.vb c
      .ok ({ s with vb := vb }, fun _ => .ok (some c)))
    (List.range TV.numCells) (St.init V TV)
  .ok (Mat.of TV.dim V.dim s.mat)

/-- `restriction_mat`, restriction_matrix.py:25-37: `sameElement` is
    `V.ufl_element() == TV.ufl_element()`, `maps` is `rmesh.parent_entity_map`, `onMesh` is
    `TV.mesh().id() == rmesh.id()`. -/
def restrictionMat [AddZeroClass K] (V TV : Space K X) (sameElement onMesh : Bool) (meshId : Nat)
    (maps : List (Nat × List (Nat × Nat))) : Py (Mat K) := do
  pyAssert sameElement
  pyAssert (maps.lookup meshId).isSome
  pyAssert onMesh
  restrictionMatrix V TV ((maps.lookup meshId).getD [])

/-- `interpolation_mat`, interpolation_matrix.py:22-64. -/
def interpolationMat [AddZeroClass K] (V Q : Space K X) (sameShape sameMesh : Bool) : Py (Mat K) := do
  pyAssert sameShape
  pyAssert sameMesh
  let s ← cellLoop Q (putRow V Q .insert id)
    (fun t s => do
      let vb ← setCell V s.vb t
      .ok ({ s with vb := vb }, fun _ => .ok (some t)))
    (List.range V.numCells) (St.init V Q)
  .ok (Mat.of Q.dim V.dim s.mat)

/-- `nonconforming_trace_mat`, nonconforming_trace_matrix.py:14-98.  `collisions` is the list
    computed in lines 41-47: for each dof of `T` the first cell of the mesh of `V` hit by its point,
    or a number which is not a cell. -/
def nonconformingTraceMat [AddZeroClass K] (V T : Space K X) (sameShape : Bool) (collisions : List Nat) :
    Py (Mat K) := do
  pyAssert sameShape
  let s ← cellLoop T (putRow V T .insert id)
    (fun _ s => .ok (s, fun d => do
      let c ← pyGet collisions d
      .ok (if c ≥ V.numCells then none else some c)))
    (List.range T.numCells) (St.init V T)
  .ok (Mat.of T.dim V.dim s.mat)

/-! ## Injection (xii/assembler/injection_matrix.py) -/

/-- `data['not_nested_method']`. -/
inductive Method where
  | interpolate
  | project
  | other
  deriving DecidableEq

/-- Position of `a` in the list which `np.argsort(keys)` returns for distinct keys: the number of
    smaller keys is the position of a key in the sorted list. -/
def rank (keys : List Nat) (k : Nat) : Nat := keys.countP (· < k)

/-- `np.argsort(keys)` for distinct keys: entry `i` is the position in `keys` of the `i`-th smallest
    key. -/
def argsort (keys : List Nat) : List Nat :=
  (List.range keys.length).map (fun i => keys.findIdx (fun k => rank keys k = i))

/-- numpy `a[idx] = vals` for an index array. -/
def scatter {α : Type} : List Nat → List α → List α → List α
  | i :: is, v :: vs, a => scatter is vs (a.set i v)
  | _, _, a => a

/-- The list `fine_to_coarse`, injection_matrix.py:46-48, from the items of
    `fine_mesh.parent_entity_map[mesh_c.id()][tdim]` (in the order of the dict). -/
def fineToCoarse (items : List (Nat × Nat)) : List Nat :=
  scatter (argsort (items.map (·.1))) (items.map (·.2)) (items.map (·.2))

/-- Loop over the dofs of a fine cell, injection_matrix.py:72-88, up to line 88, which uses the local
    name `mat` before it is assigned. -/
def injectionRows (Vf : Space K X) (visited : List Bool) : Nat → List Nat → Py (List Bool)
  | _, [] => .ok visited
  | l, d :: ds => do
      let seen ← pyGet visited d
      if seen then injectionRows Vf visited (l + 1) ds
      else .error .unboundLocal

/-- Loop over the fine cells, injection_matrix.py:62-88. -/
def injectionCells (Vf : Space K X) (visited : List Bool) : Nat → List Nat → Py (List Bool)
  | _, [] => .ok visited
  | f, _ :: cs => do
      let visited ← injectionRows Vf visited 0 (Vf.cellDofs f)
      injectionCells Vf visited (f + 1) cs

/-- `injection_matrix`, injection_matrix.py:30-98.  `transfer` is the matrix of
    `df.PETScDMCollection.create_transfer_matrix(Vc, Vf)`; evaluations which cannot be observed
    before line 88 raises are left out.  Line 46 unpacks the transposed items, which raises if there are none. -/
def injectionMatrix [AddZeroClass K] (Vc Vf : Space K X) (onMesh : Bool) (method : Method) (transfer : Mat K)
    (items : List (Nat × Nat)) : Py (Mat K) := do
  pyAssert onMesh
  match method with
  | .interpolate => .ok transfer
  | .project => .error .valueError
  | .other => if items.isEmpty then .error .valueError else do
      let _ ← injectionCells Vf (List.replicate Vf.dim false) 0 (fineToCoarse items)
      .ok (Mat.of Vf.dim Vc.dim (fun _ _ => 0))

end Verif.DofMat
