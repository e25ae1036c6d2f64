import Verif.Model.Normal
/-!
# Normals
-/
namespace Verif.Normal
open Matrix
variable {d : Nat}

/-- Length one. -/
def Unit (n : Fin d → ℝ) : Prop := ∑ i, n i ^ 2 = 1

/-- On the line spanned by the vector. -/
def Along (n a : Fin d → ℝ) : Prop := ∃ t : ℝ, n = t • a

/-- The dofs of the space are numbered such that `dofs()` lists them cell by cell, each cell has its own. -/
structure Surface.Numbered (S : Surface d) : Prop where
  midpoints : S.midpoints.length = S.normals.length
  subDofs : ∀ s, S.subDofs s = (List.range S.normals.length).map (fun c => S.cellDof c s)
  distinct : ∀ c s c' s', c < S.normals.length → c' < S.normals.length → S.cellDof c s = S.cellDof c' s' → c = c' ∧ s = s'
  bound : ∀ c s, c < S.normals.length → S.cellDof c s < S.dim

/-- The vector `a` is the outward normal of the cell of a convex surface: all vertices are on the inner side, some strictly. -/
def Outward (S : Surface d) (x a : Fin d → ℝ) : Prop :=
  Unit a ∧ (∀ v ∈ S.coordinates, (x - v) ⬝ᵥ a ≥ 0) ∧ ∃ v ∈ S.coordinates, (x - v) ⬝ᵥ a > 0

/-- The vector points out of the cell at the facet. -/
def PointsOutOf (f : Facet d) (n : Fin d → ℝ) (cell : Nat) : Prop :=
  (cell = f.plus ∧ n = f.normal) ∨ (f.minus = some cell ∧ n = - f.normal)

/-- The same facet, with the cells exchanged. -/
def Facet.flip (f : Facet d) : Facet d :=
  match f.minus with
  | some m => ⟨- f.normal, m, some f.plus⟩
  | none => f

end Verif.Normal
