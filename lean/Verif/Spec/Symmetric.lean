import Mathlib.Data.Real.Basic

/-! # Symmetric block systems -/

namespace Verif.Symmetric

/-- The value of the form (the sum of the rows) does not change when trial and test functions are
exchanged, so the matrix is symmetric for every choice of bases. -/
def IsSymm {W : Type} (B : W → W → ℝ) : Prop := ∀ x y, B x y = B y x

end Verif.Symmetric
