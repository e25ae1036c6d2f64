import Verif.Spec.DiskQuad
import Mathlib.Analysis.SpecialFunctions.PolarCoord
import Mathlib.MeasureTheory.Integral.Prod
import Mathlib.Analysis.SpecialFunctions.Integrals.Basic
import Mathlib.Data.Nat.Factorial.DoubleFactorial
import Mathlib.Tactic.LinearCombination
import Mathlib.Tactic.FieldSimp
/-! Moments of the unit disk. -/
namespace Verif.DiskQuad
open MeasureTheory Real Set

/-- `∫ cos^a sin^b` over a period. -/
noncomputable def J (a b : ℕ) : ℝ := ∫ θ in (-π)..π, cos θ ^ a * sin θ ^ b

theorem J_int (a b : ℕ) : IntervalIntegrable (fun θ => cos θ ^ a * sin θ ^ b) volume (-π) π :=
  Continuous.intervalIntegrable (by fun_prop) _ _

theorem J_add (a b : ℕ) : J (a + 2) b + J a (b + 2) = J a b := by
  rw [J, J, J, ← intervalIntegral.integral_add (J_int _ _) (J_int _ _)]
  refine intervalIntegral.integral_congr (fun θ _ => ?_)
  simp only [pow_add]
  linear_combination (cos θ ^ a * sin θ ^ b) * (cos_sq_add_sin_sq θ)

theorem J_parts (a b : ℕ) : (b + 1 : ℝ) * J (a + 2) b = (a + 1) * J a (b + 2) := by
  have h : ∫ θ in (-π)..π, ((b + 1 : ℝ) * (cos θ ^ (a + 2) * sin θ ^ b) -
      (a + 1) * (cos θ ^ a * sin θ ^ (b + 2))) = 0 := by
    have hd : ∀ θ ∈ uIcc (-π) π, HasDerivAt (fun θ => cos θ ^ (a + 1) * sin θ ^ (b + 1))
        ((b + 1 : ℝ) * (cos θ ^ (a + 2) * sin θ ^ b) - (a + 1) * (cos θ ^ a * sin θ ^ (b + 2))) θ := by
      intro θ _
      have := ((hasDerivAt_cos θ).pow (a + 1)).mul ((hasDerivAt_sin θ).pow (b + 1))
      convert! this using 1
      simp only [Nat.add_sub_cancel, Nat.cast_add, Nat.cast_one, pow_succ, Pi.pow_apply]
      ring
    rw [intervalIntegral.integral_eq_sub_of_hasDerivAt hd]
    · simp
    · exact Continuous.intervalIntegrable (by fun_prop) _ _
  rw [intervalIntegral.integral_sub, intervalIntegral.integral_const_mul, intervalIntegral.integral_const_mul]
    at h
  · unfold J; linarith
  · exact (J_int _ _).const_mul _
  · exact (J_int _ _).const_mul _

theorem J_step_left (a b : ℕ) : J (a + 2) b = (a + 1) / (a + b + 2) * J a b := by
  have h1 := J_add a b
  have h2 := J_parts a b
  have : (a + b + 2 : ℝ) ≠ 0 := by positivity
  field_simp
  linear_combination (a + 1 : ℝ) * h1 + h2

theorem J_step_right (a b : ℕ) : J a (b + 2) = (b + 1) / (a + b + 2) * J a b := by
  have h1 := J_add a b
  have h2 := J_parts a b
  have : (a + b + 2 : ℝ) ≠ 0 := by positivity
  field_simp
  linear_combination (b + 1 : ℝ) * h1 - h2

theorem J_zero : J 0 0 = 2 * π := by
  simp [J]; ring

theorem J_one_left (b : ℕ) : J 1 b = 0 := by
  have hd : ∀ θ ∈ uIcc (-π) π, HasDerivAt (fun θ => sin θ ^ (b + 1)) ((b + 1) * (cos θ ^ 1 * sin θ ^ b)) θ := by
    intro θ _
    convert! (hasDerivAt_sin θ).pow (b + 1) using 1
    simp
    ring
  have h : ∫ θ in (-π)..π, (b + 1 : ℝ) * (cos θ ^ 1 * sin θ ^ b) = 0 := by
    rw [intervalIntegral.integral_eq_sub_of_hasDerivAt hd]
    · simp
    · exact Continuous.intervalIntegrable (by fun_prop) _ _
  rw [intervalIntegral.integral_const_mul] at h
  exact (mul_eq_zero.1 h).resolve_left (by positivity)

theorem J_one_right (a : ℕ) : J a 1 = 0 := by
  have hd : ∀ θ ∈ uIcc (-π) π, HasDerivAt (fun θ => -cos θ ^ (a + 1)) ((a + 1) * (cos θ ^ a * sin θ ^ 1)) θ := by
    intro θ _
    convert! ((hasDerivAt_cos θ).pow (a + 1)).neg using 1
    simp
    ring
  have h : ∫ θ in (-π)..π, (a + 1 : ℝ) * (cos θ ^ a * sin θ ^ 1) = 0 := by
    rw [intervalIntegral.integral_eq_sub_of_hasDerivAt hd]
    · simp
    · exact Continuous.intervalIntegrable (by fun_prop) _ _
  rw [intervalIntegral.integral_const_mul] at h
  exact (mul_eq_zero.1 h).resolve_left (by positivity)

/-- `jq 0 b`. -/
def jq0 : ℕ → ℚ
  | 0 => 1
  | 1 => 0
  | b + 2 => (b + 1) / (b + 2) * jq0 b

/-- Rational part of `J a b / (2 π)`. -/
def jq : ℕ → ℕ → ℚ
  | 0, b => jq0 b
  | 1, _ => 0
  | a + 2, b => (a + 1) / (a + b + 2) * jq a b

theorem J_eq0 : ∀ b : ℕ, J 0 b = 2 * π * (jq0 b : ℝ)
  | 0 => by rw [J_zero, jq0]; simp
  | 1 => by rw [J_one_right, jq0]; simp
  | b + 2 => by rw [J_step_right, J_eq0 b, jq0]; push_cast; ring

theorem J_eq : ∀ a b : ℕ, J a b = 2 * π * (jq a b : ℝ)
  | 0, b => by rw [J_eq0, jq]
  | 1, b => by rw [J_one_left, jq]; simp
  | a + 2, b => by rw [J_step_left, J_eq a b, jq]; push_cast; ring

/-- `∫ x^a y^b` over the unit disk. -/
theorem disk_moment (a b : ℕ) :
    ∫ p in unitDisk, p.1 ^ a * p.2 ^ b = 2 * π * (jq a b : ℝ) / (a + b + 2) := by
  have hm : MeasurableSet unitDisk := by
    apply IsClosed.measurableSet
    exact isClosed_le (by fun_prop) continuous_const
  rw [← integral_indicator hm, ← integral_comp_polarCoord_symm, polarCoord_target]
  have h1 : ∫ p in Ioi (0 : ℝ) ×ˢ Ioo (-π) π, p.1 • unitDisk.indicator (fun p => p.1 ^ a * p.2 ^ b)
        (polarCoord.symm p) =
      ∫ p in Ioi (0 : ℝ) ×ˢ Ioo (-π) π, (Iic (1 : ℝ)).indicator (fun r => r ^ (a + b + 1)) p.1 *
        (cos p.2 ^ a * sin p.2 ^ b) := by
    refine setIntegral_congr_fun (measurableSet_Ioi.prod measurableSet_Ioo) (fun p hp => ?_)
    have hr : 0 < p.1 := hp.1
    simp only [polarCoord_symm_apply, smul_eq_mul]
    by_cases h : p.1 ≤ 1
    · rw [indicator_of_mem, indicator_of_mem]
      · ring
      · exact h
      · change (p.1 * cos p.2) ^ 2 + (p.1 * sin p.2) ^ 2 ≤ 1
        have h2 := sin_sq_add_cos_sq p.2
        have h3 : (p.1 * cos p.2) ^ 2 + (p.1 * sin p.2) ^ 2 = p.1 ^ 2 := by
          linear_combination (p.1 ^ 2) * h2
        rw [h3]
        nlinarith
    · rw [indicator_of_notMem, indicator_of_notMem]
      · ring
      · exact h
      · change ¬ ((p.1 * cos p.2) ^ 2 + (p.1 * sin p.2) ^ 2 ≤ 1)
        have h2 := sin_sq_add_cos_sq p.2
        have h3 : (p.1 * cos p.2) ^ 2 + (p.1 * sin p.2) ^ 2 = p.1 ^ 2 := by
          linear_combination (p.1 ^ 2) * h2
        rw [h3]
        push Not at h ⊢
        nlinarith
  rw [h1, Measure.volume_eq_prod, setIntegral_prod_mul (fun r => (Iic (1 : ℝ)).indicator (fun r => r ^ (a + b + 1)) r)
    (fun θ => cos θ ^ a * sin θ ^ b)]
  have h2 : ∫ θ in Ioo (-π) π, cos θ ^ a * sin θ ^ b = 2 * π * (jq a b : ℝ) := by
    rw [← J_eq, J, intervalIntegral.integral_of_le (by linarith [pi_pos]), integral_Ioc_eq_integral_Ioo]
  have h3 : ∫ r in Ioi (0 : ℝ), (Iic (1 : ℝ)).indicator (fun r => r ^ (a + b + 1)) r = 1 / (a + b + 2) := by
    rw [setIntegral_indicator measurableSet_Iic, Ioi_inter_Iic,
      ← intervalIntegral.integral_of_le (by norm_num), integral_pow]
    push_cast
    simp
    ring
  rw [h2, h3]
  ring

end Verif.DiskQuad
