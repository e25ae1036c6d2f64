import Verif.Spec.ProjCircle
import Verif.Lemmas.Shape
import Mathlib.Tactic.FieldSimp
import Mathlib.Tactic.LinearCombination
import Mathlib.Tactic.Positivity
import Mathlib.Tactic.NormNum
/-! # Lemmas about projected circles -/
namespace Verif.ProjCircle
open Verif Verif.Shape Verif.Shape.V3

theorem proj_sq {m : V3} (hm : dot m m = 1) (x : V3) :
    dot (x - dot x m • m) (x - dot x m • m) = dot x x - dot x m ^ 2 := by
  have : dot (x - dot x m • m) (x - dot x m • m) = dot x x - 2 * dot x m ^ 2 + dot x m ^ 2 * dot m m := by
    simp only [dot, sub_x, sub_y, sub_z, smul_x, smul_y, smul_z]; ring
  rw [this, hm]; ring

theorem proj_orth {m : V3} (hm : dot m m = 1) (x : V3) : dot (x - dot x m • m) m = 0 := by
  have : dot (x - dot x m • m) m = dot x m - dot x m * dot m m := by
    simp only [dot, sub_x, sub_y, sub_z, smul_x, smul_y, smul_z]; ring
  rw [this, hm]; ring

theorem proj_nonneg {m : V3} (hm : dot m m = 1) (x : V3) : 0 ≤ dot x x - dot x m ^ 2 := by
  rw [← proj_sq hm]; exact dot_self_nonneg _

theorem zero_of_dot {a : V3} (h : dot a a = 0) : a = ⟨0, 0, 0⟩ := by
  simp only [dot] at h
  have hx : a.x = 0 := by nlinarith [sq_nonneg a.x, sq_nonneg a.y, sq_nonneg a.z]
  have hy : a.y = 0 := by nlinarith [sq_nonneg a.x, sq_nonneg a.y, sq_nonneg a.z]
  have hz : a.z = 0 := by nlinarith [sq_nonneg a.x, sq_nonneg a.y, sq_nonneg a.z]
  exact V3.ext hx hy hz

theorem projected_none {m : V3} (hm : dot m m = 1) (x : V3) : projected m x = none ↔ x = dot x m • m := by
  unfold projected
  rw [ite_eq_left_iff]
  simp only [reduceCtorEq, imp_false, not_not]
  rw [Real.sqrt_eq_zero (proj_nonneg hm x)]
  constructor
  · intro h
    rw [← proj_sq hm] at h
    have h0 := zero_of_dot h
    have hx := congrArg V3.x h0
    have hy := congrArg V3.y h0
    have hz := congrArg V3.z h0
    simp at hx hy hz
    exact V3.ext (by simp; linarith) (by simp; linarith) (by simp; linarith)
  · intro h
    rw [← proj_sq hm]
    have : x - dot x m • m = ⟨0, 0, 0⟩ := by
      conv_lhs => lhs; rw [h]
      ext <;> simp
    rw [this]
    simp [dot]

theorem projected_some {m : V3} (hm : dot m m = 1) {x y : V3} (h : projected m x = some y) :
    dot y y = 1 ∧ dot y m = 0 ∧ 0 < √(dot x x - dot x m ^ 2) ∧
      x = √(dot x x - dot x m ^ 2) • y + dot x m • m := by
  unfold projected at h
  split at h
  · cases h
  · rename_i hD
    obtain rfl := Option.some.inj h
    have hpos : 0 < √(dot x x - dot x m ^ 2) := lt_of_le_of_ne (Real.sqrt_nonneg _) (Ne.symm hD)
    generalize hd : √(dot x x - dot x m ^ 2) = d at *
    have hd2 : d ^ 2 = dot x x - dot x m ^ 2 := by rw [← hd]; exact Real.sq_sqrt (proj_nonneg hm x)
    refine ⟨?_, ?_, hpos, ?_⟩
    · have e : ∀ (c : ℝ) (a : V3), dot (c • a) (c • a) = c ^ 2 * dot a a := by
        intro c a
        simp only [dot, smul_x, smul_y, smul_z]; ring
      rw [e, proj_sq hm, ← hd2]
      field_simp
    · have e : ∀ (c : ℝ) (a b : V3), dot (c • a) b = c * dot a b := by
        intro c a b
        simp only [dot, smul_x, smul_y, smul_z]; ring
      rw [e, proj_orth hm, mul_zero]
    · ext <;> simp <;> field_simp <;> ring

theorem projected_of {m x y : V3} {d c : ℝ} (hm : dot m m = 1) (hy : dot y y = 1) (ho : dot y m = 0) (hd : 0 < d)
    (hx : x = d • y + c • m) : projected m x = some y := by
  have h1 : dot x m = c := by
    have : dot x m = d * dot y m + c * dot m m := by
      rw [hx]; simp only [dot, add_x, add_y, add_z, smul_x, smul_y, smul_z]; ring
    rw [this, ho, hm]; ring
  have h2 : dot x x = d ^ 2 + c ^ 2 := by
    have : dot x x = d ^ 2 * dot y y + 2 * d * c * dot y m + c ^ 2 * dot m m := by
      rw [hx]; simp only [dot, add_x, add_y, add_z, smul_x, smul_y, smul_z]; ring
    rw [this, ho, hm, hy]; ring
  have h3 : √(dot x x - dot x m ^ 2) = d := by
    rw [h1, h2, show d ^ 2 + c ^ 2 - c ^ 2 = d ^ 2 by ring]
    exact Real.sqrt_sq hd.le
  unfold projected
  rw [h3, if_neg hd.ne', h1, hx]
  congr 1
  ext <;> simp <;> field_simp

theorem circleMap_ok {x0 n x : V3} (R : ℝ) (h : OnUnitCircle x) :
    circleMap x0 n R x = .ok (if norm n = 0 then none else (projected (unit n) x).map (fun y => x0 + R • y)) := by
  have : |dot x x - 1| < 1e-13 ∧ |x.z| < 1e-13 := by rw [h.1, h.2]; norm_num
  simp only [circleMap, decide_eq_true this, pyAssert_true, py_bind_ok]
  rfl

theorem circleMap_some {x0 n x p : V3} {R : ℝ} (h : circleMap x0 n R x = .ok (some p)) :
    norm n ≠ 0 ∧ ∃ y, projected (unit n) x = some y ∧ p = x0 + R • y := by
  simp only [circleMap, py_bind_eq_ok] at h
  obtain ⟨_, _, h⟩ := h
  split at h
  · simp at h
  · rename_i hn
    simp only [Except.ok.injEq, Option.map_eq_some_iff] at h
    obtain ⟨y, h1, h2⟩ := h
    exact ⟨hn, y, h1, h2.symm⟩

theorem diskMap_ok {x0 n x : V3} (R : ℝ) (h : InUnitDisk x) :
    diskMap x0 n R x = .ok (if norm n = 0 then none else (projected (unit n) x).map (fun y => x0 + (R * √(dot x x)) • y)) := by
  have : dot x x < 1 + 1e-13 ∧ |x.z| < 1e-13 := by rw [h.2]; exact ⟨by have := h.1; linarith, by norm_num⟩
  simp only [diskMap, decide_eq_true this, pyAssert_true, py_bind_ok]
  rfl

theorem parallel_iff {n : V3} (hn : norm n ≠ 0) (x : V3) : Parallel n x ↔ x = dot x (unit n) • unit n := by
  constructor
  · rintro ⟨c, rfl⟩
    have h : dot (c • n) (unit n) = c * norm n := by
      rw [dot_unit]
      have : dot (c • n) n = c * norm n ^ 2 := by
        rw [norm_sq]; simp only [dot, smul_x, smul_y, smul_z]; ring
      rw [this]; field_simp
    rw [h]
    unfold unit
    ext <;> simp <;> field_simp
  · intro h
    exact ⟨dot x (unit n) * (norm n)⁻¹, by
      conv_lhs => rw [h]
      unfold unit
      ext <;> simp <;> ring⟩

theorem scaled_norm {x0 y : V3} {c : ℝ} (hy : dot y y = 1) : norm (x0 + c • y - x0) = |c| := by
  apply norm_eq_of_sq (abs_nonneg c)
  rw [sq_abs]
  have : dot (x0 + c • y - x0) (x0 + c • y - x0) = c ^ 2 * dot y y := by
    simp only [dot, add_x, add_y, add_z, sub_x, sub_y, sub_z, smul_x, smul_y, smul_z]; ring
  rw [this, hy]; ring

theorem scaled_orth {x0 y n : V3} {c : ℝ} (hn : norm n ≠ 0) (hy : dot y (unit n) = 0) : dot (x0 + c • y - x0) n = 0 := by
  rw [dot_unit] at hy
  have h : dot y n = 0 := by
    rcases div_eq_zero_iff.1 hy with h | h
    · exact h
    · exact absurd h hn
  have : dot (x0 + c • y - x0) n = c * dot y n := by
    simp only [dot, add_x, add_y, add_z, sub_x, sub_y, sub_z, smul_x, smul_y, smul_z]; ring
  rw [this, h, mul_zero]

end Verif.ProjCircle
