import Mathlib.Data.Real.Basic
import Mathlib.Algebra.Algebra.Basic
import Mathlib.Algebra.Module.Submodule.Defs

/-! # Spaces without functions of norm zero -/

namespace Verif.Solvable

/-- Only the zero function of `V` has a square with zero integral. -/
def Definite {A : Type} [CommRing A] [Algebra ℝ A] (vol : A →ₗ[ℝ] ℝ) (V : Submodule ℝ A) : Prop :=
  ∀ v ∈ V, vol (v * v) = 0 → v = 0

end Verif.Solvable
