import Verif.Model.Center
import Verif.Spec.Refine
import Mathlib.LinearAlgebra.Matrix.Determinant.Basic
/-!
# Circumcentres
-/
namespace Verif.Center
open Matrix
variable {K : Type} [Field K]

/-- The square of the Euclidean distance. -/
def dist2 {d : Nat} (a b : Fin d → K) : K := ∑ i, (a i - b i) ^ 2

/-- In the affine hull of the points, and equally far from all of them. -/
def IsCircumcenter {d : Nat} (l : List (Fin d → K)) (y : Fin d → K) : Prop :=
  (∃ w : List K, w.length = l.length ∧ w.sum = 1 ∧ Refine.comb K w l = y) ∧
  ∀ p ∈ l, ∀ q ∈ l, dist2 y p = dist2 y q

/-- The contract of the solver: regular systems are solved. -/
def Solves {n : Nat} (solve : Solver K n) : Prop := ∀ (A : Matrix (Fin n) (Fin n) K) b, A.det ≠ 0 → A *ᵥ solve A b = b

end Verif.Center
