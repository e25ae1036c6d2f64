import Verif.Model.Embedded
/-!
# What the maps of an embedded mesh should satisfy
-/
namespace Verif.Embedded
open Verif
variable {P : Type}

/-- The contract of `dolfin.SubMesh(mesh, f, 1)` for a mesh with cells `c2v`: one cell for each cell with value 1,
    distinct vertices, and the vertices of the cells are those of the parent cells. -/
structure SubMesh.OK (s : SubMesh P) (c2v : Nat → List Nat) (coords : Nat → P) (f : List Nat) : Prop where
  len : s.cells.length = s.cmap.length
  cells : s.cmap.Nodup ∧ ∀ c, c ∈ s.cmap ↔ f[c]? = some 1
  verts : s.vmap.Nodup
  cell : ∀ (i c : Nat) (vs : List Nat), s.cmap[i]? = some c → s.cells[i]? = some vs →
    (vs.map (fun v => s.vmap[v]?)).Perm ((c2v c).map some)
  coord : s.coords = s.vmap.map coords

/-- The mesh `M` consists of the entities marked by one of the markers:

    * `cmap` is a bijection between the cells and the marked entities;
    * `vmap` is injective and the coordinates are those of the parent vertices;
    * the vertices of each cell are mapped onto those of its parent;
    * each cell has the marker of its parent. -/
structure Represents (M : EMesh P) (e2v : Nat → List Nat) (coords : Nat → P) (marks markers : List Nat) : Prop where
  len : M.cells.length = M.cmap.length ∧ M.marking.length = M.cmap.length
  cells : M.cmap.Nodup ∧ ∀ e, e ∈ M.cmap ↔ ∃ m ∈ markers, marks[e]? = some m
  verts : M.vmap.Nodup
  coord : M.coords = M.vmap.map coords
  cell : ∀ (i e : Nat) (vs : List Nat), M.cmap[i]? = some e → M.cells[i]? = some vs →
    (vs.map (fun v => M.vmap[v]?)).Perm ((e2v e).map some)
  marker : ∀ i e : Nat, M.cmap[i]? = some e → M.marking[i]? = marks[e]?

/-- Connectivities of a simplicial mesh, with entities of `k + 1` vertices. -/
structure Topo.Simplicial (T : Topo) (k : Nat) : Prop where
  len : ∀ e, e < T.numEntities → (T.e2v e).Nodup ∧ (T.e2v e).length = k + 1
  inj : ∀ e, e < T.numEntities → ∀ e', e' < T.numEntities → (∀ v, v ∈ T.e2v e ↔ v ∈ T.e2v e') → e = e'
  face : ∀ c, c < T.numCells → ∀ l : List Nat, l.Nodup → l.length = k + 1 → (∀ v ∈ l, v ∈ T.c2v c) →
    ∃ e, e < T.numEntities ∧ ∀ v, v ∈ T.e2v e ↔ v ∈ l
  c2e : ∀ c, c < T.numCells → (T.c2e c).Nodup ∧
    ∀ e, e ∈ T.c2e c ↔ e < T.numEntities ∧ ∀ v ∈ T.e2v e, v ∈ T.c2v c
  e2c : ∀ e, e < T.numEntities → ∀ c, c ∈ T.e2c e ↔ c < T.numCells ∧ ∀ v ∈ T.e2v e, v ∈ T.c2v c

/-- The cells of `child` are cells of `parent` by the maps `vmap`, `cmap`, and every entity of `child` belongs to
    a cell. -/
structure IsEmbedding (parent child : Topo) (vmap cmap : List Nat) : Prop where
  vnodup : vmap.Nodup
  cnodup : cmap.Nodup
  clen : cmap.length = child.numCells
  clt : ∀ c ∈ cmap, c < parent.numCells
  vlt : ∀ c, c < child.numCells → ∀ v ∈ child.c2v c, v < vmap.length
  cell : ∀ c pc : Nat, cmap[c]? = some pc → ∀ w, w ∈ parent.c2v pc ↔ ∃ v ∈ child.c2v c, vmap[v]? = some w
  covered : ∀ e, e < child.numEntities → child.e2c e ≠ []

/-- The parent entity `p` and the child entity `e` have the same vertices. -/
def SameEntity (parent child : Topo) (vmap : List Nat) (p e : Nat) : Prop :=
  p < parent.numEntities ∧ e < child.numEntities ∧
    ∀ w, w ∈ parent.e2v p ↔ ∃ v ∈ child.e2v e, vmap[v]? = some w

/-- The child markers `f'` are those of the parent for tags in `tags`, and `f` elsewhere. -/
def Transferred (parent child : Topo) (vmap values tags f f' : List Nat) : Prop :=
  f'.length = child.numEntities ∧ ∀ e, e < child.numEntities →
    (∀ p t, SameEntity parent child vmap p e → values[p]? = some t → t ∈ tags → f'[e]? = some t) ∧
    ((∀ p t, SameEntity parent child vmap p e → values[p]? = some t → t ∉ tags) → f'[e]? = f[e]?)

end Verif.Embedded
