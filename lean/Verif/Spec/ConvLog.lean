import Mathlib.Analysis.SpecialFunctions.Pow.Real
/-!
# What a record of a convergence study should be
-/
namespace Verif.ConvLog

/-- The rate belonging to two errors and two mesh sizes: the order with which the error falls, nan if the meshes have the same size or the
    first error is zero. -/
def RateOf (e0 e1 h0 h1 : ℝ) : Option ℝ → Prop
  | some r => e0 ≠ 0 ∧ h1 ≠ h0 ∧ e1 = e0 * (h1 / h0) ^ r
  | none => e0 = 0 ∨ h1 = h0

/-- One rate for each error: nan for the first, then those of two successive errors and mesh sizes. -/
inductive Rates : List ℝ → List ℝ → List (Option ℝ) → Prop
  | nil : Rates [] [] []
  | first (e h : ℝ) : Rates [e] [h] [none]
  | next {es hs : List ℝ} {rs : List (Option ℝ)} {e0 h0 : ℝ} (e1 h1 : ℝ) {r : Option ℝ} :
      Rates (es ++ [e0]) (hs ++ [h0]) rs → RateOf e0 e1 h0 h1 r → Rates (es ++ [e0] ++ [e1]) (hs ++ [h0] ++ [h1]) (rs ++ [r])

/-- Sum of the squared residuals of the line `a x + b`. -/
noncomputable def residual (pts : List (ℝ × ℝ)) (a b : ℝ) : ℝ := (pts.map (fun p => (p.2 - (a * p.1 + b)) ^ 2)).sum

/-- `polyfit` finds the slope of a best line for each list of points: the contract of `np.polyfit` with `deg=1`. -/
def IsFit (polyfit : List ℝ → List ℝ → ℝ) : Prop :=
  ∀ xs ys, ∃ b, ∀ a' b', residual (xs.zip ys) (polyfit xs ys) b ≤ residual (xs.zip ys) a' b'

end Verif.ConvLog
