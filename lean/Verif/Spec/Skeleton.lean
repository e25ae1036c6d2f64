import Verif.Spec.Embedded
/-!
# Interior facets
-/
namespace Verif.Embedded
variable {P : Type}

/-- The facet has the vertices `T.e2v e`, and two cells have these vertices. -/
def Topo.Interior (T : Topo) (e : Nat) : Prop :=
  ∃ c c', c < T.numCells ∧ c' < T.numCells ∧ c ≠ c' ∧ (∀ v ∈ T.e2v e, v ∈ T.c2v c) ∧ ∀ v ∈ T.e2v e, v ∈ T.c2v c'

/-- The cells of `M` are the facets `e` of the mesh with `p e`, each once, with its vertices at the same points; there are no
    other vertices. -/
structure MeshOf (M : EMesh P) (T : Topo) (coords : Nat → P) (p : Nat → Prop) : Prop where
  len : M.cells.length = M.cmap.length
  cells : M.cmap.Nodup ∧ ∀ e, e ∈ M.cmap ↔ e < T.numEntities ∧ p e
  verts : M.vmap.Nodup ∧ ∀ v, v ∈ M.vmap ↔ ∃ e, e < T.numEntities ∧ p e ∧ v ∈ T.e2v e
  coord : M.coords = M.vmap.map coords
  cell : ∀ (i e : Nat) (vs : List Nat), M.cmap[i]? = some e → M.cells[i]? = some vs →
    (vs.map (fun v => M.vmap[v]?)).Perm ((T.e2v e).map some)
  marker : ∀ i, i < M.cells.length → M.marking[i]? = some 1

end Verif.Embedded
