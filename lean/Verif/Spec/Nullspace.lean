import Verif.Model.Nullspace
/-! # What a nullspace should be -/
namespace Verif.Nullspace
open Verif
open scoped InnerProductSpace

variable {E : Type} [NormedAddCommGroup E] [InnerProductSpace ℝ E]

/-- An orthonormal list of vectors. -/
def OrthonormalList (B : List E) : Prop :=
  ∀ i j (hi : i < B.length) (hj : j < B.length), ⟪B[i], B[j]⟫_ℝ = if i = j then 1 else 0

/-- The span of a list of vectors. -/
def spanOf (B : List E) : Submodule ℝ E := Submodule.span ℝ {v | v ∈ B}

/-- The vectors whose addition was accepted in a history, starting with the list `B`. -/
noncomputable def accepted (tol : ℝ) : List E → List E → List E
  | _, [] => []
  | B, v :: vs =>
      match addVector tol B v with
      | .ok B' => v :: accepted tol B' vs
      | .error _ => accepted tol B vs

end Verif.Nullspace
