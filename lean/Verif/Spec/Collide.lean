import Verif.Model.Collide
/-!
# When segments and triangles meet
-/
namespace Verif.Collide
open Matrix
variable {g : Nat}

/-- The points of a segment, or with `tol` a little beyond its ends. -/
def OnSegment (tol : ℝ) (A B p : Fin g → ℝ) : Prop := ∃ s : ℝ, - tol ≤ s ∧ s ≤ 1 + tol ∧ p = A + s • (B - A)

/-- The points of a triangle, or with `tol` a little beyond its edges. -/
def OnTriangle (tol : ℝ) (A B C p : Fin g → ℝ) : Prop :=
  ∃ s t : ℝ, - tol ≤ s ∧ - tol ≤ t ∧ s + t ≤ 1 + tol ∧ p = A + s • (B - A) + t • (C - A)

/-- The segments are not parallel. -/
def Crossing (A B X Y : Fin g → ℝ) : Prop := ∀ s t : ℝ, s • (B - A) + t • (Y - X) = 0 → s = 0 ∧ t = 0

/-- The segment is not parallel to the plane of the triangle (which is not degenerate). -/
def Piercing (A B C X Y : Fin g → ℝ) : Prop :=
  ∀ r s t : ℝ, r • (B - A) + s • (C - A) + t • (Y - X) = 0 → r = 0 ∧ s = 0 ∧ t = 0

/-- What is assumed of `np.linalg.solve`: it raises unless the matrix is square and regular and else returns the solution. -/
structure Solves (solve : Solver g) : Prop where
  solution : ∀ {k : Nat} (M : Matrix (Fin g) (Fin k) ℝ) (b : Fin g → ℝ) x, solve M b = some x → M *ᵥ x = b
  regular : ∀ {k : Nat} (M : Matrix (Fin g) (Fin k) ℝ) (b : Fin g → ℝ),
    (∃ x, solve M b = some x) ↔ g = k ∧ ∀ x, M *ᵥ x = 0 → x = 0

end Verif.Collide
