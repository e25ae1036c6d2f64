import Verif.Model.Extension
/-!
# What an extension should be
-/
namespace Verif.Extension
variable {d : Nat}

/-- The point with number `c` is the closest to `x`. -/
def Nearest (points : List (Fin d → ℝ)) (x : Fin d → ℝ) (c : Nat) : Prop :=
  ∃ y, points[c]? = some y ∧ ∀ z ∈ points, ∑ i, (x i - y i) ^ 2 ≤ ∑ i, (x i - z i) ^ 2

end Verif.Extension
