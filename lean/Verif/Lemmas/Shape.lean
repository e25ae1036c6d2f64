import Verif.Spec.Shape
import Mathlib.Tactic.LinearCombination
import Mathlib.Tactic.FieldSimp
import Mathlib.Tactic.Positivity
import Mathlib.Tactic.NormNum
import Mathlib.Tactic.Linarith
import Mathlib.Algebra.BigOperators.Group.List.Basic
import Mathlib.Algebra.BigOperators.Ring.List
/-! Lemmas about the geometry of the shapes. -/
namespace Verif.Shape
open Verif V3

namespace V3
@[simp] theorem add_x (a b : V3) : (a + b).x = a.x + b.x := rfl
@[simp] theorem add_y (a b : V3) : (a + b).y = a.y + b.y := rfl
@[simp] theorem add_z (a b : V3) : (a + b).z = a.z + b.z := rfl
@[simp] theorem sub_x (a b : V3) : (a - b).x = a.x - b.x := rfl
@[simp] theorem sub_y (a b : V3) : (a - b).y = a.y - b.y := rfl
@[simp] theorem sub_z (a b : V3) : (a - b).z = a.z - b.z := rfl
@[simp] theorem smul_x (c : ℝ) (a : V3) : (c • a).x = c * a.x := rfl
@[simp] theorem smul_y (c : ℝ) (a : V3) : (c • a).y = c * a.y := rfl
@[simp] theorem smul_z (c : ℝ) (a : V3) : (c • a).z = c * a.z := rfl
end V3

theorem dot_self_nonneg (a : V3) : 0 ≤ dot a a := by
  unfold dot; nlinarith [sq_nonneg a.x, sq_nonneg a.y, sq_nonneg a.z]

theorem norm_nonneg (a : V3) : 0 ≤ norm a := Real.sqrt_nonneg _

theorem norm_sq (a : V3) : norm a ^ 2 = dot a a := Real.sq_sqrt (dot_self_nonneg a)

theorem norm_eq_of_sq {a : V3} {r : ℝ} (hr : 0 ≤ r) (h : dot a a = r ^ 2) : norm a = r := by
  rw [V3.norm, h, Real.sqrt_sq hr]

theorem norm_smul (c : ℝ) (a : V3) : norm (c • a) = |c| * norm a := by
  have : dot (c • a) (c • a) = c ^ 2 * dot a a := by unfold dot; simp only [smul_x, smul_y, smul_z]; ring
  rw [V3.norm, this, Real.sqrt_mul (sq_nonneg c), Real.sqrt_sq_eq_abs]
  rfl

theorem unit_dot {n : V3} (hn : norm n ≠ 0) : dot (unit n) (unit n) = 1 := by
  have h : dot (unit n) (unit n) = (norm n)⁻¹ ^ 2 * dot n n := by
    unfold unit dot; simp only [smul_x, smul_y, smul_z]; ring
  rw [h, ← norm_sq]
  field_simp

theorem norm_unit {n : V3} (hn : norm n ≠ 0) : norm (unit n) = 1 :=
  norm_eq_of_sq (by norm_num) (by rw [unit_dot hn]; norm_num)

theorem dot_unit (a n : V3) : dot a (unit n) = dot a n / norm n := by
  unfold unit dot; simp only [smul_x, smul_y, smul_z]; ring

/-- The rotation in Rodrigues' form. -/
theorem rotApply_eq (a : V3) (c s : ℝ) (x : V3) :
    rotApply (rotRows a c s) x = c • x + s • cross a x + ((1 - c) * dot a x) • a := by
  ext <;> simp [rotApply, rotRows, dot, cross] <;> ring

theorem rot_isometry {a : V3} {c s : ℝ} (ha : dot a a = 1) (hcs : c ^ 2 + s ^ 2 = 1) (x y : V3) :
    dot (rotApply (rotRows a c s) x) (rotApply (rotRows a c s) y) = dot x y := by
  rw [rotApply_eq, rotApply_eq]
  unfold dot cross at *
  simp only [add_x, add_y, add_z, smul_x, smul_y, smul_z]
  linear_combination
    ((x.x * y.x + x.y * y.y + x.z * y.z) -
      (a.x * x.x + a.y * x.y + a.z * x.z) * (a.x * y.x + a.y * y.y + a.z * y.z)) * hcs +
    (s ^ 2 * (x.x * y.x + x.y * y.y + x.z * y.z) +
      (1 - c) ^ 2 * ((a.x * x.x + a.y * x.y + a.z * x.z) * (a.x * y.x + a.y * y.y + a.z * y.z))) * ha

theorem cross_ez (n : V3) : dot (cross ez n) (cross ez n) = n.x ^ 2 + n.y ^ 2 := by
  simp only [dot, cross, ez]; ring

theorem ctheta_sq {n : V3} (hn : dot n n = 1) : 0 ≤ 1 - dot ez n ^ 2 ∧ 1 - dot ez n ^ 2 = n.x ^ 2 + n.y ^ 2 := by
  have h : 1 - dot ez n ^ 2 = n.x ^ 2 + n.y ^ 2 := by
    rw [← hn]; simp only [dot, ez]; ring
  exact ⟨by rw [h]; positivity, h⟩

theorem axis_unit (n : V3) : dot (rotAxis n) (rotAxis n) = 1 := by
  unfold rotAxis
  split
  · simp [dot, ez]
  · rename_i h
    have h0 : norm (cross ez n) ≠ 0 := by
      intro hc; rw [hc] at h; exact h (by norm_num)
    exact unit_dot h0

theorem sc_one {n : V3} (hn : dot n n = 1) : dot ez n ^ 2 + √(1 - dot ez n ^ 2) ^ 2 = 1 := by
  rw [Real.sq_sqrt (ctheta_sq hn).1]; ring

/-- The rotation maps `ez` to the normal (if they are not parallel). -/
theorem rot_ez {n : V3} (hn : dot n n = 1) (h : 1e-13 ≤ norm (cross ez n)) :
    rotApply (rotRows (rotAxis n) (dot ez n) √(1 - dot ez n ^ 2)) ez = n := by
  have hk : √(1 - dot ez n ^ 2) = norm (cross ez n) := by
    rw [V3.norm, cross_ez, (ctheta_sq hn).2]
  rw [rotApply_eq, hk]
  have hk0 : norm (cross ez n) ≠ 0 := by
    intro hc; rw [hc] at h; norm_num at h
  have ha : rotAxis n = (norm (cross ez n))⁻¹ • cross ez n := by
    unfold rotAxis
    rw [if_neg (by linarith)]
  rw [ha]
  generalize norm (cross ez n) = k at hk0
  ext
  · simp [dot, cross, ez]; field_simp
  · simp [dot, cross, ez]; field_simp
  · simp [dot, cross, ez]

theorem xy_zero {n : V3} (h : norm (cross ez n) = 0) : n.x = 0 ∧ n.y = 0 := by
  have h2 : n.x ^ 2 + n.y ^ 2 = 0 := by rw [← cross_ez, ← norm_sq, h]; norm_num
  constructor
  · have : n.x ^ 2 = 0 := by nlinarith [sq_nonneg n.x, sq_nonneg n.y]
    exact pow_eq_zero_iff (by norm_num) |>.1 this
  · have : n.y ^ 2 = 0 := by nlinarith [sq_nonneg n.x, sq_nonneg n.y]
    exact pow_eq_zero_iff (by norm_num) |>.1 this

theorem mapFromReference_ok {x0 n : V3} (R : ℝ) (x : V3) (hn : norm n ≠ 0) :
    mapFromReference x0 n R x = .ok (x0 + R • rotApply
      (rotRows (rotAxis (unit n)) (dot ez (unit n)) √(1 - dot ez (unit n) ^ 2)) x) := by
  rw [mapFromReference, if_neg hn]
  have : decide (|norm ((norm n)⁻¹ • n) - 1| < 1e-13) = true := by
    have := norm_unit hn
    unfold unit at this
    rw [this]
    simp
    norm_num
  simp only [this, pyAssert_true, py_bind_ok]
  rfl

theorem mapFromReference_zero {x0 n : V3} (R : ℝ) (x : V3) (hn : norm n = 0) :
    mapFromReference x0 n R x = .error .assertion := by
  rw [mapFromReference, if_pos hn]

theorem mapPts_ok {α β : Type} {f : α → Py β} {g : α → β} : ∀ {xs : List α}, (∀ x ∈ xs, f x = .ok (g x)) →
    mapPts f xs = .ok (xs.map g)
  | [], _ => rfl
  | x :: xs, h => by
      rw [mapPts, h x (by simp), py_bind_ok, mapPts_ok (fun y hy => h y (by simp [hy]))]
      rfl

/-- The image of a point of the reference plane. -/
theorem image_facts {x0 n : V3} (hn : norm n ≠ 0) (R : ℝ) (hR : 0 ≤ R) (x : V3) (hz : x.z = 0) :
    let p := x0 + R • rotApply (rotRows (rotAxis (unit n)) (dot ez (unit n)) √(1 - dot ez (unit n) ^ 2)) x
    norm (p - x0) = R * norm x ∧ planeDist x0 n p ≤ R * norm x * 1e-13 ∧
      (NotNearlyVertical n → dot (p - x0) n = 0) := by
  intro p
  set r := rotRows (rotAxis (unit n)) (dot ez (unit n)) √(1 - dot ez (unit n) ^ 2) with hr
  have hu := unit_dot hn
  have hiso := rot_isometry (axis_unit (unit n)) (sc_one hu)
  rw [← hr] at hiso
  have hp : p - x0 = R • rotApply r x := by
    ext <;> simp [p, ← hr]
  have hnorm : norm (rotApply r x) = norm x := by rw [V3.norm, hiso, ← V3.norm]
  have hflat : norm (cross ez (unit n)) < 1e-13 → dot (rotApply r x) (unit n) =
      (rotApply r x).x * (unit n).x + (rotApply r x).y * (unit n).y ∧ (rotApply r x).z = 0 := by
    intro hlt
    have haxis : rotAxis (unit n) = ez := by unfold rotAxis; rw [if_pos hlt]
    have hzero : (rotApply r x).z = 0 := by
      rw [hr, haxis, rotApply_eq]
      simp [dot, cross, ez, hz]
    refine ⟨?_, hzero⟩
    unfold dot; rw [hzero]; ring
  have hplane : NotNearlyVertical n → dot (rotApply r x) (unit n) = 0 := by
    rintro (h0 | hv)
    · obtain ⟨hx, hy⟩ := xy_zero h0
      rw [(hflat (by rw [h0]; norm_num)).1, hx, hy]; ring
    have hez := rot_ez hu hv
    calc dot (rotApply r x) (unit n) = dot (rotApply r x) (rotApply r ez) := by rw [hez]
      _ = dot x ez := hiso x ez
      _ = 0 := by simp [dot, ez, hz]
  have hdist : |dot (rotApply r x) (unit n)| ≤ norm x * 1e-13 := by
    by_cases hv : NotNearlyVertical n
    · rw [hplane hv]; simp
      exact mul_nonneg (norm_nonneg x) (by norm_num)
    · unfold NotNearlyVertical at hv
      push Not at hv
      obtain ⟨_, hlt⟩ := hv
      obtain ⟨hd, hzero⟩ := hflat hlt
      rw [hd]
      have hsq : ((rotApply r x).x * (unit n).x + (rotApply r x).y * (unit n).y) ^ 2 ≤
          (norm x * norm (cross ez (unit n))) ^ 2 := by
        rw [mul_pow, norm_sq (cross ez (unit n)), cross_ez, ← hnorm, norm_sq (rotApply r x)]
        unfold dot
        rw [hzero]
        nlinarith [sq_nonneg ((rotApply r x).x * (unit n).y - (rotApply r x).y * (unit n).x)]
      refine (abs_le_of_sq_le_sq hsq (mul_nonneg (norm_nonneg x) (norm_nonneg _))).trans (mul_le_mul_of_nonneg_left hlt.le (norm_nonneg x))
  refine ⟨?_, ?_, fun hv => ?_⟩
  · rw [hp, norm_smul, abs_of_nonneg hR, hnorm]
  · have : planeDist x0 n p = R * |dot (rotApply r x) (unit n)| := by
      have hpos : 0 < norm n := lt_of_le_of_ne (norm_nonneg n) (Ne.symm hn)
      rw [planeDist, hp, dot_unit, abs_div, abs_of_pos hpos]
      have : dot (R • rotApply r x) n = R * dot (rotApply r x) n := by
        unfold dot; simp only [smul_x, smul_y, smul_z]; ring
      rw [this, abs_mul, abs_of_nonneg hR]
      ring
    rw [this, mul_assoc]
    exact mul_le_mul_of_nonneg_left hdist hR
  · have h := hplane hv
    rw [dot_unit, div_eq_zero_iff, or_iff_left hn] at h
    rw [hp]
    have : dot (R • rotApply r x) n = R * dot (rotApply r x) n := by
      unfold dot; simp only [smul_x, smul_y, smul_z]; ring
    rw [this, h, mul_zero]

end Verif.Shape
