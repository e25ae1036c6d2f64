import Verif.Spec.Refine
/-!
# Conforming meshes of simplices in any dimension
-/
namespace Verif.Refine
variable {K E : Type} [Field K] [LinearOrder K] [AddCommGroup E] [Module K E]

/-- The point `p` of the cell `c` has the barycentric coordinates `w`, a function of the vertices of the mesh which
    vanishes off the cell. -/
def RMesh.Coords (M : RMesh E) (c : Nat) (p : E) (w : Nat → K) : Prop :=
  ∃ cell l, M.cells[c]? = some cell ∧ List.Forall₂ (fun (v : Nat) p => M.coords[v]? = some p) cell l ∧
    (∀ v, 0 ≤ w v) ∧ (∀ v, v ∉ cell → w v = 0) ∧ (cell.map w).sum = 1 ∧ comb K (cell.map w) l = p

variable (K)

/-- Cells are simplices with distinct vertices, no cell is listed twice, and a point of two cells is in the face spanned
    by the vertices which they share: its coordinates in the two cells are the same. -/
structure RMesh.Conforming (M : RMesh E) : Prop where
  nodup : ∀ cell ∈ M.cells, cell.Nodup
  simplex : ∀ c p (w w' : Nat → K), M.Coords c p w → M.Coords c p w' → w = w'
  meet : ∀ c c' l l' p, IsCell M c l → IsCell M c' l' → Hull K l p → Hull K l' p →
    ∃ w : Nat → K, M.Coords c p w ∧ M.Coords c' p w
  distinct : ∀ (c c' : Nat) cell cell', M.cells[c]? = some cell → M.cells[c']? = some cell' → cell.Perm cell' → c = c'

end Verif.Refine
