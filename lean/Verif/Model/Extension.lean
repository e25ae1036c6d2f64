import Verif.Model.Patch
import Verif.Model.BlockOps
import Mathlib.Analysis.Real.Sqrt
/-!
# Extension from curves (xii/assembler/extension_matrix.py)

Arithmetic is exact.  `harmonic_extension_operator` (lines 102-173) is a parameter of the dispatch; it is modelled in `Harmonic`.
-/
namespace Verif.Extension
open Verif Verif.BlockOps

variable {d : Nat}

/-- What the code asks of a space on a mesh in `d` dimensions: the mesh, the element, the points of
    `tabulate_dof_coordinates` (of `sub(0).collapse()` for vector and tensor elements) and the number of dofs. -/
structure Space (d : Nat) where
  mesh : Nat
  tdim : Nat
  family : String
  degree : Nat
  tensor : Bool
  points : List (Fin d → ℝ)
  dim : Nat

/-- An entry of `cdist`. -/
noncomputable def cdist (x y : Fin d → ℝ) : ℝ := Real.sqrt (∑ i, (x i - y i) ^ 2)

/-- `np.argmin(lookup, axis=1)`, extension_matrix.py:80-85. -/
noncomputable def closest (V EV : Space d) : Py (List Nat) :=
  pyMap (fun x => Patch.argmin (V.points.map (cdist x))) EV.points

/-- The columns of vector and tensor elements, extension_matrix.py:87-91.  `shift` is a float in the code, which `csr_matrix`
    turns back into an integer; for spaces it is one. -/
def expand (shift : Nat) (columns : List Nat) : List Nat :=
  columns.flatMap (fun c => (List.range shift).map (fun k => shift * c + k))

open Classical in
/-- `uniform_extension_matrix`, extension_matrix.py:58-99.  The matrix has one 1 in each row; it is given by the list of the
    columns of these.  Line 82 asserts that the largest sum of distances is not zero. `csr_matrix` raises if there are fewer
    columns than rows, and drops the columns which are too many. -/
noncomputable def uniform (V EV : Space d) : Py (List Nat) := do
  pyAssert (decide (∃ x ∈ EV.points, ∃ y ∈ V.points, cdist x y ≠ 0))
  let columns ← closest V EV
  let columns := if V.tensor then expand (V.dim / V.points.length) columns else columns
  if columns.length < EV.dim then .error .valueError else .ok (columns.take EV.dim)

/-- Multiplication of such a matrix with a vector. -/
def apply (E : List Nat) (v : List ℝ) : List ℝ := E.map (fun c => v.getD c 0)

/-- The assertions of extension_matrix.py:39-47. -/
def checks (V EV : Space d) (mesh : Nat) : Bool :=
  EV.mesh == mesh && V.tdim == 1 && (EV.tdim == 1 || EV.tdim == 2) && V.degree == EV.degree && V.family == EV.family && (d == 2 || d == 3)

/-- `extension_mat`, extension_matrix.py:34-55 (without the cache); `None` for other types. -/
noncomputable def extensionMat (harmonic : Space d → Space d → Py (List Nat)) (V EV : Space d) (mesh : Nat) (type : String) :
    Py (Option (List Nat)) := do
  pyAssert (checks V EV mesh)
  if type = "uniform" then do
    let E ← uniform V EV
    .ok (some E)
  else if type = "harmonic" then do
    let E ← harmonic V EV
    .ok (some E)
  else .ok none

end Verif.Extension
