import Verif.Model.Minimise
import Mathlib.Tactic.LinearCombination
import Mathlib.Algebra.Module.Submodule.Defs

/-! # Squares of norms of sums -/

namespace Verif.Minimise
open Verif.Mms

variable {A : Type} [CommRing A] [Algebra ℝ A]

theorem vol_c (vol : A →ₗ[ℝ] ℝ) (k : ℝ) (f : A) : vol (c k * f) = k * vol f := by
  rw [c, ← Algebra.smul_def, map_smul, smul_eq_mul]

theorem vol_sq_add (vol : A →ₗ[ℝ] ℝ) (f w : A) :
    vol ((f + w) * (f + w)) = vol (f * f) + 2 * vol (f * w) + vol (w * w) := by
  have e : (f + w) * (f + w) = f * f + (f * w + f * w) + w * w := by ring
  rw [e, map_add, map_add, map_add]; ring

variable [Smooth A]

theorem vol_dot (vol : A →ₗ[ℝ] ℝ) (u v : A) :
    vol (dot (grad u) (grad v)) = vol (dx u * dx v) + vol (dy u * dy v) := by
  rw [dot, grad, grad, map_add]

theorem normSq_add (vol : A →ₗ[ℝ] ℝ) (k : ℝ) (u w : A) :
    normSq vol k (u + w) =
      normSq vol k u + 2 * (vol (c k * dot (grad u) (grad w)) + vol (u * w)) + normSq vol k w := by
  rw [vol_c, vol_dot]
  simp only [normSq, map_add dx, map_add dy, vol_sq_add]
  ring

theorem normSq_nonneg {vol : A →ₗ[ℝ] ℝ} (h : SqNonneg vol) {k : ℝ} (hk : 0 ≤ k) (u : A) :
    0 ≤ normSq vol k u :=
  add_nonneg (mul_nonneg hk (add_nonneg (h _) (h _))) (h _)

end Verif.Minimise
