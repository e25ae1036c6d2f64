import Verif.Spec.Dual
/-!
# Conforming meshes of triangles
-/
namespace Verif.Dual
variable {K E : Type} [Field K] [LinearOrder K] [AddCommGroup E] [Module K E]

/-- `w` are barycentric coordinates of `p` in the cell `k`, as a function of the numbers of the vertices. -/
def TMesh.Coords (M : TMesh E) (k : Nat) (p : E) (w : Nat → K) : Prop :=
  ∃ i j l a b c, M.cells[k]? = some [i, j, l] ∧ M.verts[i]? = some a ∧ M.verts[j]? = some b ∧ M.verts[l]? = some c ∧
    (∀ n, 0 ≤ w n) ∧ (∀ n, n ≠ i → n ≠ j → n ≠ l → w n = 0) ∧ w i + w j + w l = 1 ∧ p = w i • a + w j • b + w l • c

/-- No cell is degenerate, a point of two cells is a convex combination of vertices which both of them have, and no two cells
    have the same vertices.  So two cells have no point, a vertex or an edge in common. -/
structure Conforming (K : Type) [Field K] [LinearOrder K] [Module K E] (M : TMesh E) : Prop where
  simplex : ∀ (k : Nat) (p : E) (w w' : Nat → K), M.Coords k p w → M.Coords k p w' → w = w'
  meet : ∀ (k k' : Nat) (p : E), M.Has K k p → M.Has K k' p → ∃ w : Nat → K, M.Coords k p w ∧ M.Coords k' p w
  distinct : ∀ (k k' : Nat) (c c' : List Nat), M.cells[k]? = some c → M.cells[k']? = some c' → c.Perm c' → k = k'

/-- Facets with the same vertices have the same number. -/
def SharedFacets (T : Topo) : Prop :=
  ∀ f g, f < T.nf → g < T.nf → (T.f2v f).Perm (T.f2v g) → f = g

/-- `p` is in the interior of the triangle. -/
def Inside (K : Type) [Field K] [LinearOrder K] [Module K E] (p a b c : E) : Prop :=
  ∃ s t u : K, 0 < s ∧ 0 < t ∧ 0 < u ∧ s + t + u = 1 ∧ p = s • a + t • b + u • c

end Verif.Dual
