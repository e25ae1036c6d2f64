import Verif.Model.DofMat
import Mathlib.Analysis.Real.Sqrt
import Mathlib.Data.Matrix.Mul
/-!
# Trace matrices (xii/assembler/trace_matrix.py)

The mesh enters through the map from the cells of the trace mesh to the facets of the bulk mesh
(`mapping`, computed by `get_entity_map`), the cells connected to a facet (`f2c`), and for the
restricted traces the midpoints of the cells and the normal.
-/
namespace Verif.Trace
open Verif Verif.BlockOps Verif.DofMat
variable {K X : Type}

/-- Indices of the cells marked by the tags, trace_matrix.py:118-121: `marks` are the values of the
    marking function, `tags` the elements of the set of tags in the order of iteration. -/
def traceCells (marks tags : List Nat) : List Nat :=
  tags.flatMap (fun tag => (List.range marks.length).filter (fun i => marks[i]? = some tag))

/-- Local variables of the loops: the evaluators, `local_values`, `rows`, `cols`, `values`,
    `needs_fill`. -/
structure CS (K : Type) where
  tv : Ev
  vb : Ev
  loc : List (List K)
  rows : List Nat
  cols : List Nat
  vals : List K
  need : List Bool

/-- Values before the loops, trace_matrix.py:109-116, 124-131, 162. -/
def CS.init [Zero K] (V TV : Space K X) : CS K :=
  ⟨Ev.init, Ev.init, List.replicate V.spaceDim (List.replicate TV.spaceDim 0), [], [], [],
    List.replicate TV.dim true⟩

/-- Evaluation of all dofs of the target cell at all the basis functions of the cell,
    trace_matrix.py:146-152, 181-185. -/
def fillLocal (V TV : Space K X) (tv : Ev) :
    Ev → List (List K) → Nat → List Nat → Py (Ev × List (List K))
  | vb, loc, _, [] => .ok (vb, loc)
  | vb, loc, l, _ :: ds => do
      let vb ← setDof V vb l
      let loc ← pySet loc l (evalDofs TV tv (fn V vb))
      fillLocal V TV tv vb loc (l + 1) ds

/-- `np.tile(xs, n)`. -/
def tile {α : Type} (xs : List α) (n : Nat) : List α := (List.replicate n xs).flatten

/-- `np.repeat(xs, n)`. -/
def repeatEach {α : Type} (xs : List α) (n : Nat) : List α := xs.flatMap (List.replicate n)

/-- Indexing by a boolean array. -/
def mask {α : Type} (xs : List α) (bs : List Bool) : Py (List α) :=
  if xs.length = bs.length then
    .ok ((xs.zip bs).filterMap (fun p => if p.2 then some p.1 else none))
  else .error .indexError

/-- Body of the loop for discontinuous target spaces, trace_matrix.py:135-159 and 341-369.
    `pick` chooses the cell connected to the facet. -/
def dgStep (V TV : Space K X) (pick : Nat → Py Nat) (t : Nat) (s : CS K) : Py (CS K) := do
  let tv ← setCell TV s.tv t
  let cell ← pick t
  let vb ← setCell V s.vb cell
  let (vb, loc) ← fillLocal V TV tv vb s.loc 0 (V.cellDofs cell)
  .ok { s with
    tv := tv, vb := vb, loc := loc,
    rows := s.rows ++ tile (TV.cellDofs t) V.spaceDim,
    cols := s.cols ++ repeatEach (V.cellDofs cell) TV.spaceDim,
    vals := s.vals ++ loc.flatten }

/-- Body of the loop for other target spaces, trace_matrix.py:164-192 and 374-406. -/
def cgStep (V TV : Space K X) (pick : Nat → Py Nat) (t : Nat) (s : CS K) : Py (CS K) := do
  let tv ← setCell TV s.tv t
  let unseen ← pyMap (pyGet s.need) (TV.cellDofs t)
  let sel ← mask (TV.cellDofs t) unseen
  let need := sel.foldl (fun n d => n.set d false) s.need
  let cell ← pick t
  let vb ← setCell V s.vb cell
  let (vb, loc) ← fillLocal V TV tv vb s.loc 0 (V.cellDofs cell)
  let vals ← pyMap (fun row => mask row unseen) loc
  .ok { s with
    tv := tv, vb := vb, loc := loc, need := need,
    rows := s.rows ++ tile sel V.spaceDim,
    cols := s.cols ++ repeatEach (V.cellDofs cell) (unseen.count true),
    vals := s.vals ++ vals.flatten }

/-- A loop over cells. -/
def steps (f : Nat → CS K → Py (CS K)) : List Nat → CS K → Py (CS K)
  | [], s => .ok s
  | t :: ts, s => do
      let s ← f t s
      steps f ts s

/-- `csr_matrix((values, (rows, cols)), shape=(m, n))` as a matrix: repeated entries are summed;
    scipy checks the lengths and the range of the indices. -/
def csr [AddCommMonoid K] (m n : Nat) (rows cols : List Nat) (vals : List K) : Py (Mat K) :=
  if rows.length = vals.length ∧ cols.length = vals.length ∧ (∀ r ∈ rows, r < m) ∧ ∀ c ∈ cols, c < n then
    .ok (Mat.of m n (fun i j =>
      (((rows.zip (cols.zip vals)).filter (fun p => p.1 = i ∧ p.2.1 = j)).map (fun p => p.2.2)).sum))
  else .error .valueError

/-- The loops and the creation of the matrix, trace_matrix.py:131-198 and 337-412. -/
def traceRows [AddCommMonoid K] (V TV : Space K X) (pick : Nat → Py Nat) (cells : List Nat) :
    Py (Mat K) := do
  let s ← steps (if TV.isDG then dgStep V TV pick else cgStep V TV pick) cells (CS.init V TV)
  csr TV.dim V.dim s.rows s.cols s.vals

/-- `f2c(mapping[trace_cell])[0]`, trace_matrix.py:141 and 176. -/
def firstCell (mapping : List (Nat × Nat)) (f2c : Nat → List Nat) (t : Nat) : Py Nat := do
  let f ← dictGet mapping t
  pyGet (f2c f) 0

/-! ## Spaces on the facets -/

/-- One component of `DLT_trace_mat`, trace_matrix.py:245-248: `tdofs` is `Tdmap.cell_dofs`,
    `facetDofs` is `facet2dof`. -/
def dltLoop [One K] [Add K] (m n : Nat) (mapping : List (Nat × Nat)) (tdofs : Nat → List Nat)
    (facetDofs : List Nat) : List Nat → (Nat → Nat → K) → Py (Nat → Nat → K)
  | [], M => .ok M
  | t :: ts, M =>
      match tdofs t with
      | [d] => do
          let f ← dictGet mapping t
          let dof ← pyGet facetDofs f
          let M ← setValues m n .insert M d [dof] [1]
          dltLoop m n mapping tdofs facetDofs ts M
      | _ => .error .valueError

/-- Loop over the components. -/
def dltComps [One K] [Add K] (m n : Nat) (mapping : List (Nat × Nat)) (cells : List Nat) :
    List ((Nat → List Nat) × List Nat) → (Nat → Nat → K) → Py (Nat → Nat → K)
  | [], M => .ok M
  | (tdofs, fd) :: cs, M => do
      let M ← dltLoop m n mapping tdofs fd cells M
      dltComps m n mapping cells cs M

/-- `DLT_trace_mat`, trace_matrix.py:201-249, for an `m`-dimensional target and an `n`-dimensional
    source. -/
def dltTraceMat [Zero K] [One K] [Add K] (m n : Nat) (mapping : List (Nat × Nat)) (cells : List Nat)
    (tdofs : List (Nat → List Nat)) (facetDofs : List (List Nat)) : Py (Mat K) := do
  pyAssert (tdofs.length = facetDofs.length)
  let M ← dltComps m n mapping cells (tdofs.zip facetDofs) (fun _ _ => 0)
  .ok (Mat.of m n M)

/-! ## Restricted traces -/

/-- Sides. -/
inductive Side where
  | plus
  | minus
  deriving DecidableEq, Repr

/-- Length of a vector (`np.linalg.norm`). -/
noncomputable def norm2 {g : Nat} (r : Fin g → ℝ) : ℝ := Real.sqrt (r ⬝ᵥ r)

/-- Sign of a cell with midpoint `mp` for a trace cell with midpoint `tmp` and normal `n`,
    trace_matrix.py:319-323.  For coinciding midpoints numpy divides by zero, the comparison with
    `nan` is false and the sign is '-': so is the value of this definition. -/
noncomputable def pickSign {g : Nat} (n tmp mp : Fin g → ℝ) : Side :=
  let r := tmp - mp
  let r := fun i => r i / norm2 r
  if r ⬝ᵥ n > 0 then .plus else .minus

/-- `signs.index(restriction)`. -/
def indexOf (signs : List Side) (s : Side) : Py Nat :=
  if s ∈ signs then .ok (signs.findIdx (· = s)) else .error .valueError

/-- `pick_cell`, trace_matrix.py:312-327 -/
noncomputable def pickCell {g : Nat} (restriction : Side) (facetCells : List Nat) (n tmp : Fin g → ℝ)
    (mid : Nat → Fin g → ℝ) : Py Nat := do
  let i ← indexOf (facetCells.map (fun c => pickSign n tmp (mid c))) restriction
  pyGet facetCells i

/-- Choice of the cell in the loops of `trace_mat_one_restrict`, trace_matrix.py:347-351, 386-390:
    `tmid`, `normal` are midpoints and normals of the trace cells, `mid` midpoints of the cells. -/
noncomputable def sideCell {g : Nat} (restriction : Side) (mapping : List (Nat × Nat))
    (f2c : Nat → List Nat) (normal tmid mid : Nat → Fin g → ℝ) (t : Nat) : Py Nat := do
  let f ← dictGet mapping t
  pickCell restriction (f2c f) (normal t) (tmid t) mid

/-- 'avg' or 'jump'. -/
inductive Two where
  | avg
  | jump
  deriving DecidableEq

/-- `operator_pieces`, trace_matrix.py:443-444. -/
def pieces [Field K] : Two → List (K → K)
  | .avg => [fun x => x / 2, fun x => x / 2]
  | .jump => [fun x => x, fun x => -x]

/-- Cells and modifiers used for a facet, trace_matrix.py:458-477. -/
noncomputable def ordered [Field K] {g : Nat} (r : Two) (facetCells : List Nat) (n tmp : Fin g → ℝ)
    (mid : Nat → Fin g → ℝ) : Py (List ((K → K) × Nat)) :=
  match facetCells with
  | [c] => .ok [(fun x => x, c)]
  | [a, b] =>
      if (mid a - tmp) ⬝ᵥ n > 0 then .ok ((pieces r).zip [a, b]) else .ok ((pieces r).zip [b, a])
  | _ => .error .assertion

/-- The sweeps over the cells for one row, trace_matrix.py:490-508: the first one inserts, the others
    add.  (PETSc built with debugging refuses to mix the two modes; the model is of the optimised
    build.) -/
def sweeps [Field K] (V TV : Space K X) (d : Nat) : Mode → List ((K → K) × Nat) → St K → Py (St K)
  | _, [], s => .ok s
  | mode, (f, c) :: ps, s => do
      let s ← putRow V TV mode f d c s
      sweeps V TV d .add ps s

/-- `trace_mat_two_restrict`, trace_matrix.py:415-510 (with `get_entity_map` done); `normal t` is the
    value of the normal at the midpoint of the trace cell `t`.  The cells and modifiers are found once
    per trace cell; the model finds them again for each row. -/
noncomputable def twoRestrict [Field K] {g : Nat} (V TV : Space K X) (r : Two)
    (mapping : List (Nat × Nat)) (f2c : Nat → List Nat) (normal tmid mid : Nat → Fin g → ℝ) :
    Py (Mat K) := do
  let ord := fun t => do
    let f ← dictGet mapping t
    ordered (K := K) r (f2c f) (normal t) (tmid t) mid
  let s ← cellLoop TV
    (fun d t s => do
      let ps ← ord t
      sweeps V TV d .insert ps s)
    (fun t s => do
      let _ ← ord t
      .ok (s, fun _ => .ok (some t)))
    (List.range TV.numCells) (St.init V TV)
  .ok (Mat.of TV.dim V.dim s.mat)

/-! ## Selection of the method -/

/-- Everything the trace code asks about the two meshes and spaces. -/
structure Data (K X : Type) (g : Nat) where
  /-- the two calls of `get_entity_map` in `trace_mat_no_restrict` (92, 94); the second one is also
      the call in `trace_mat_one_restrict` (280) -/
  map1 : Py Unit
  map2 : Py Unit
  mapping : List (Nat × Nat)
  f2c : Nat → List Nat
  marks : List Nat
  tags : List Nat
  collisions : List Nat
  /-- degree if the family of `V` is 'HDiv Trace' -/
  hdivTrace : Option Nat
  tdofs : List (Nat → List Nat)
  facetDofs : List (List Nat)
  tmid : Nat → Fin g → ℝ
  mid : Nat → Fin g → ℝ

/-- The `try` statement around `get_entity_map` and the branches which follow, trace_matrix.py:93-103
    and 279-289. -/
def withMap [CommRing K] {g : Nat} (V TV : Space K X) (D : Data K X g) (pick : Nat → Py Nat) :
    Py (Mat K) :=
  match D.map2 with
  | .error .assertion => nonconformingTraceMat V TV true D.collisions
  | .error .indexError => nonconformingTraceMat V TV true D.collisions
  | .error e => .error e
  | .ok _ =>
    match D.hdivTrace with
    | some deg => do
        pyAssert (deg = 0)
        dltTraceMat TV.dim V.dim D.mapping (traceCells D.marks D.tags) D.tdofs D.facetDofs
    | none => traceRows V TV pick (traceCells D.marks D.tags)

/-- `trace_mat_no_restrict`, trace_matrix.py:73-198: the first call of `get_entity_map` is outside of
    the `try` statement. -/
def noRestrict [CommRing K] {g : Nat} (V TV : Space K X) (D : Data K X g) : Py (Mat K) := do
  let _ ← D.map1
  withMap V TV D (firstCell D.mapping D.f2c)

/-- `trace_mat_one_restrict`, trace_matrix.py:252-412; `normal` with its element being DG0. -/
noncomputable def oneRestrict [CommRing K] {g : Nat} (V TV : Space K X) (D : Data K X g) (side : Side)
    (isDG0 : Bool) (normal : Nat → Fin g → ℝ) : Py (Mat K) := do
  pyAssert isDG0
  withMap V TV D (sideCell side D.mapping D.f2c normal D.tmid D.mid)

/-- `data['restriction']`. -/
inductive Restr where
  | none
  | one (s : Side)
  | two (r : Two)

/-- `trace_mat`, trace_matrix.py:33-70 (without the cache): `compatible` are the assertions of lines
    47-53.  `trace_mat_two_restrict` takes five positional arguments and is called with six (69). -/
noncomputable def traceMat [CommRing K] {g : Nat} (V TV : Space K X) (D : Data K X g)
    (compatible : Bool) (restriction : Restr) (isDG0 : Bool) (normal : Option (Nat → Fin g → ℝ)) :
    Py (Mat K) := do
  pyAssert compatible
  match restriction with
  | .none => noRestrict V TV D
  | .one s =>
      match normal with
      | some n => oneRestrict V TV D s isDG0 n
      | none => .error .assertion
  | .two _ =>
      match normal with
      | some _ => .error .typeError
      | none => .error .assertion

end Verif.Trace
