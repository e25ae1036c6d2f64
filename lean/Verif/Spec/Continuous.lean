import Verif.Model.Continuous
/-! # When a mesh is continuous -/
namespace Verif.Continuous

/-- There are cells, and every two of them are the ends of a path of cells in which neighbours have `k` common
vertices. -/
def CellsJoined (k n : Nat) (c2v : Nat → List Nat) : Prop :=
  0 < n ∧ ∀ c c', c < n → c' < n →
    Relation.ReflTransGen (fun a b => a < n ∧ b < n ∧
      ∃ vs : List Nat, vs.Nodup ∧ vs.length = k ∧ ∀ v ∈ vs, v ∈ c2v a ∧ v ∈ c2v b) c c'

/-- A mesh of curves. -/
structure Curve (M : Mesh) : Prop where
  tdim : M.tdim = 1
  cells : ∀ c, c < M.numCells → (M.c2v c).length = 2

/-- A mesh of triangles with `numEdges` edges, whose vertices are `e2v`: edges are the pairs of vertices of
triangles, and the edges at a vertex are the ones which contain it. -/
structure Surface (M : Mesh) (numEdges : Nat) (e2v : Nat → List Nat) : Prop where
  tdim : M.tdim = 2
  cells : ∀ c, c < M.numCells → (M.c2v c).Nodup ∧ (M.c2v c).length = 3 ∧ ∀ v ∈ M.c2v c, v < M.numVertices
  edges : ∀ e, e < numEdges → ∃ c, c < M.numCells ∧ (e2v e).Nodup ∧ (e2v e).length = 2 ∧ ∀ v ∈ e2v e, v ∈ M.c2v c
  sides : ∀ c, c < M.numCells → ∀ v ∈ M.c2v c, ∀ w ∈ M.c2v c, v ≠ w →
    ∃ e, e < numEdges ∧ v ∈ e2v e ∧ w ∈ e2v e
  incidence : ∀ v e, v < M.numVertices → (e ∈ M.v2e v ↔ e < numEdges ∧ v ∈ e2v e)

end Verif.Continuous
