import Verif.Spec.Collide
/-! # Segments and triangles prolonged a little -/
namespace Verif.Collide
variable {g : Nat}

/-- Points of the segment prolonged at both ends by less than `tol` times its length. -/
def Near1 (tol : ℝ) (A B p : Fin g → ℝ) : Prop := ∃ s : ℝ, - tol < s ∧ s < 1 + tol ∧ p = A + s • (B - A)

/-- Points of the plane of the triangle with both coordinates, and their sum, between `-tol` and `1 + tol`. -/
def Near2 (tol : ℝ) (A B C p : Fin g → ℝ) : Prop :=
  ∃ r s : ℝ, (- tol < r ∧ r < 1 + tol) ∧ (- tol < s ∧ s < 1 + tol) ∧ (- tol < r + s ∧ r + s < 1 + tol) ∧
    p = A + r • (B - A) + s • (C - A)

end Verif.Collide
