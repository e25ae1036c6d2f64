import Verif.Model.TraceForm
import Verif.Spec.Embedding
import Verif.Spec.DofMat
/-!
# What traces localised by tags are to do
-/
namespace Verif.TraceForm
open Verif Verif.DofMat Verif.Trace Verif.Embedding Verif.TransposeTrace

/-- Values of the marking function; without one all cells are alike. -/
def marksOf (marking : Option (List Nat)) (numCells : Nat) : List Nat := marking.getD (List.replicate numCells 0)

/-- The cells selected by the argument `tag`. -/
def TagArg.Selects (marks : List Nat) : TagArg → Nat → Prop
  | .all, c => c < marks.length
  | .one x, c => marks[c]? = some x
  | .many xs, c => ∃ x ∈ xs, marks[c]? = some x

/-- The tags which are given have to be values of the marking function. -/
def TagArg.Legal (marking : Option (List Nat)) : TagArg → Prop
  | .all => True
  | .one x => ∃ m, marking = some m ∧ x ∈ m
  | .many xs => ∃ m, marking = some m ∧ ∀ x ∈ xs, x ∈ m

/-- The cell `c` of the trace mesh is the entity `e` of the mesh `id`. -/
def Lies (C : Meshes) (id c e : Nat) : Prop :=
  e < (C.topo id).numEntities ∧
    Coincide (C.geom id).dist ((C.geom id).tol * (C.geom id).scale) (C.cells c) ((C.topo id).e2v e)

/-- The cells of the trace mesh, which are intervals or triangles, are entities of the mesh `id`; collisions of
    points with cells are exact. -/
structure Conforming (C : Meshes) (id : Nat) : Prop where
  edim : 0 < C.edim ∧ C.edim ≤ 2
  codim : C.edim < C.dim id
  background : BackgroundOK (C.topo id) C.edim
  exact : CollisionsExact (C.geom id).collide (C.geom id).dist ((C.geom id).tol * (C.geom id).scale) (C.topo id)
  collide : ∀ v, ∀ m ∈ (C.geom id).collide v, m < (C.topo id).numCells
  cells : ∀ c, c < C.numCells → (C.cells c).Nodup ∧ (C.cells c).length = C.edim + 1
  separated : ∀ c, c < C.numCells →
    Separated (C.geom id).dist ((C.geom id).tol * (C.geom id).scale) (C.cells c)
  lies : ∀ c, c < C.numCells → ∃ e, Lies C id c e

/-- A trace mesh which was not yet used, or was made as an `EmbeddedMesh` of entities of the mesh `id`: then it has
    `tagged_cells` and the correct map of all its cells. -/
def Prepared (C : Meshes) (id : Nat) (t : TraceMesh) : Prop :=
  (t.maps = none ∧ t.tagged = none) ∨
    ∃ maps m tagged, t.maps = some maps ∧ t.tagged = some tagged ∧ maps.lookup id = some m ∧
      (∀ c, c < C.numCells → ∃ e, m.lookup c = some e) ∧ ∀ c e, m.lookup c = some e → Lies C id c e

/-- `M` gives the values of the degrees of freedom of `TV` on the selected cells, and zero for the others: `tr` are
    these values if they do not depend on the choice of the cell among the selected ones which share a dof, where
    `cell c k` says that the trace on `c` is taken from the cell `k` of the mesh. -/
def TracesOn {K X : Type} [CommRing K] (V TV : Space K X) (selected : Nat → Prop) (cell : Nat → Nat → Prop)
    (M : Mat K) : Prop :=
  M.rows = TV.dim ∧ M.cols = V.dim ∧ (∀ c, selected c → ∃ k, cell c k) ∧
  ∀ u tr : Nat → K,
    (∀ c k l d, selected c → cell c k → (TV.cellDofs c)[l]? = some d → tr d = TV.dofs c l (fnOn V u k)) →
    (∀ d, (∀ c, selected c → d ∉ TV.cellDofs c) → tr d = 0) →
    ∀ d, M.act u d = tr d

end Verif.TraceForm
