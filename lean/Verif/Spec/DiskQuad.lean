import Mathlib.MeasureTheory.Integral.Bochner.Set
import Mathlib.MeasureTheory.Measure.Lebesgue.Basic
/-! # What a quadrature rule for the unit disk should do -/
namespace Verif.DiskQuad
open MeasureTheory

/-- The unit disk. -/
def unitDisk : Set (ℝ × ℝ) := {p | p.1 ^ 2 + p.2 ^ 2 ≤ 1}

/-- Value of the rule with nodes `xs` and weights `ws` on the function `f`. -/
def ruleSum (xs : List (ℚ × ℚ)) (ws : List ℚ) (f : ℝ → ℝ → ℝ) : ℝ :=
  ((xs.zip ws).map (fun p => (p.2 : ℝ) * f p.1.1 p.1.2)).sum

/-- The polynomial of total degree at most `d` with coefficients `c`. -/
def poly (d : ℕ) (c : ℕ → ℕ → ℝ) (x y : ℝ) : ℝ :=
  ∑ n ∈ Finset.range (d + 1), ∑ a ∈ Finset.range (n + 1), c a (n - a) * (x ^ a * y ^ (n - a))

/-- Sum of the absolute values of the coefficients. -/
def size (d : ℕ) (c : ℕ → ℕ → ℝ) : ℝ :=
  ∑ n ∈ Finset.range (d + 1), ∑ a ∈ Finset.range (n + 1), |c a (n - a)|

/-- The rule integrates all polynomials of degree at most `d` over the unit disk up to `tol` times the
size of their coefficients. -/
def Exact (d : ℕ) (tol : ℝ) (xs : List (ℚ × ℚ)) (ws : List ℚ) : Prop :=
  ∀ c : ℕ → ℕ → ℝ,
    |ruleSum xs ws (poly d c) - ∫ p in unitDisk, poly d c p.1 p.2| ≤ tol * size d c

end Verif.DiskQuad
