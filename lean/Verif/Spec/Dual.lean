import Verif.Model.Dual
import Mathlib.Order.Defs.LinearOrder
import Mathlib.Algebra.Order.Ring.Defs
import Mathlib.Data.Finset.Insert
import Mathlib.Data.Finset.Dedup
import Mathlib.Algebra.Order.Group.Unbundled.Abs
/-!
# Subdivisions of meshes of triangles
-/
namespace Verif.Dual
variable {K E : Type} [Field K] [LinearOrder K] [AddCommGroup E] [Module K E]

/-- The contract of the connectivity of dolfin: the facets of a cell are its three edges, each listed once. -/
def TopoOK (M : TMesh E) (T : Topo) : Prop :=
  ∀ (k a b c : Nat), M.cells[k]? = some [a, b, c] →
    ((T.c2f k).map (fun f => (T.f2v f).toFinset)).Perm [{b, c}, {a, c}, {a, b}] ∧
    (∀ f ∈ T.c2f k, f < T.nf ∧ (T.f2v f).length = 2)

/-- Facets have two vertices of the mesh. -/
def FacetsOK (M : TMesh E) (T : Topo) : Prop :=
  ∀ f, f < T.nf → ∃ v w, T.f2v f = [v, w] ∧ v < M.verts.length ∧ w < M.verts.length

/-- Triangles with distinct vertices. -/
def TMesh.OK (M : TMesh E) : Prop :=
  M.cells ≠ [] ∧ ∀ cell ∈ M.cells, ∃ a b c, cell = [a, b, c] ∧ a ≠ b ∧ a ≠ c ∧ b ≠ c ∧
    a < M.verts.length ∧ b < M.verts.length ∧ c < M.verts.length

/-- `p` is in the triangle with the vertices `a`, `b`, `c`. -/
def InTri (K : Type) [Field K] [LinearOrder K] [Module K E] (p a b c : E) : Prop :=
  ∃ s t u : K, 0 ≤ s ∧ 0 ≤ t ∧ 0 ≤ u ∧ s + t + u = 1 ∧ p = s • a + t • b + u • c

/-- The points of a cell. -/
def TMesh.At (M : TMesh E) (k : Nat) (a b c : E) : Prop :=
  ∃ i j l, M.cells[k]? = some [i, j, l] ∧ M.verts[i]? = some a ∧ M.verts[j]? = some b ∧ M.verts[l]? = some c

/-- `p` is in the cell `k`. -/
def TMesh.Has (K : Type) [Field K] [LinearOrder K] [Module K E] (M : TMesh E) (k : Nat) (p : E) : Prop :=
  ∃ a b c, M.At k a b c ∧ InTri K p a b c

/-- Twice the signed area. -/
def det (a b c : K × K) : K := (b.1 - a.1) * (c.2 - a.2) - (b.2 - a.2) * (c.1 - a.1)

/-- `M'` subdivides `M`: vertices are kept, cell `j` of `M'` is in the cell `cmap j` of `M`, and each cell of `M` is covered
    by its parts. -/
structure Subdivides (K : Type) [Field K] [LinearOrder K] [Module K E] (M M' : TMesh E) (cmap : List Nat) : Prop where
  verts : M.verts <+: M'.verts
  length : cmap.length = M'.cells.length
  cover : ∀ k, k < M.cells.length → ∀ p, M.Has K k p ↔ ∃ j, cmap[j]? = some k ∧ M'.Has K j p
  range : ∀ k ∈ cmap, k < M.cells.length

/-- Each cell of `M'` has `1/r` of the area of its parent. -/
def Areas (r : K) (M M' : TMesh (K × K)) (cmap : List Nat) : Prop :=
  ∀ (j k : Nat) a b c a' b' c', cmap[j]? = some k → M.At k a b c → M'.At j a' b' c' → r * |det a' b' c'| = |det a b c|

end Verif.Dual
