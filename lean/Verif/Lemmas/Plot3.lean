import Verif.Lemmas.Plot2
/-! Lemmas about `radial_order_points`. -/
namespace Verif.Plot
open Verif Verif.Shape Verif.Shape.V3

theorem dot_symm (a b : V3) : dot a b = dot b a := by unfold dot; ring
theorem dot_sub_left (a b c : V3) : dot (a - b) c = dot a c - dot b c := by
  simp only [dot, sub_x, sub_y, sub_z]; ring
theorem dot_smul_left (k : ℝ) (a c : V3) : dot (k • a) c = k * dot a c := by
  simp only [dot, smul_x, smul_y, smul_z]; ring
theorem dot_smul_right (k : ℝ) (a c : V3) : dot a (k • c) = k * dot a c := by
  simp only [dot, smul_x, smul_y, smul_z]; ring

theorem projector_apply (n v : V3) : rotApply (projector n) v = v - dot n v • n := by
  ext <;> simp [rotApply, projector, dot] <;> ring

theorem dot_zero_self {a : V3} (h : dot a a = 0) : a = ⟨0, 0, 0⟩ := by
  simp only [dot] at h
  ext
  · exact pow_eq_zero_iff (two_ne_zero) |>.1 (by nlinarith [sq_nonneg a.x, sq_nonneg a.y, sq_nonneg a.z] : a.x ^ 2 = 0)
  · exact pow_eq_zero_iff (two_ne_zero) |>.1 (by nlinarith [sq_nonneg a.x, sq_nonneg a.y, sq_nonneg a.z] : a.y ^ 2 = 0)
  · exact pow_eq_zero_iff (two_ne_zero) |>.1 (by nlinarith [sq_nonneg a.x, sq_nonneg a.y, sq_nonneg a.z] : a.z ^ 2 = 0)

/-- The eigenvectors of a projector which are used span its plane, and the first eigenvalue is zero. -/
theorem eigh_projector {eigh : Eigh} {n : V3} (hn : dot n n = 1) (h : EighAt eigh (projector n)) :
    let e := eigh (projector n)
    e.1.1 = 0 ∧ dot e.2.2.1 e.2.2.1 = 1 ∧ dot e.2.2.2 e.2.2.2 = 1 ∧ dot e.2.2.1 e.2.2.2 = 0 ∧
      dot n e.2.2.1 = 0 ∧ dot n e.2.2.2 = 0 := by
  intro e
  obtain ⟨⟨p0, p1, p2⟩, ⟨u0, u1, u2⟩, ⟨o01, o02, o12⟩, l01, l12⟩ := h
  change rotApply (projector n) e.2.1 = e.1.1 • e.2.1 at p0
  change rotApply (projector n) e.2.2.1 = e.1.2.1 • e.2.2.1 at p1
  change rotApply (projector n) e.2.2.2 = e.1.2.2 • e.2.2.2 at p2
  change dot e.2.1 e.2.1 = 1 at u0
  change dot e.2.2.1 e.2.2.1 = 1 at u1
  change dot e.2.2.2 e.2.2.2 = 1 at u2
  change dot e.2.1 e.2.2.1 = 0 at o01
  change dot e.2.1 e.2.2.2 = 0 at o02
  change dot e.2.2.1 e.2.2.2 = 0 at o12
  change e.1.1 ≤ e.1.2.1 at l01
  change e.1.2.1 ≤ e.1.2.2 at l12
  generalize e.1.1 = l0 at *
  generalize e.1.2.1 = l1 at *
  generalize e.1.2.2 = l2 at *
  generalize e.2.1 = v0 at *
  generalize e.2.2.1 = v1 at *
  generalize e.2.2.2 = v2 at *
  clear e
  -- eigenvalues are 1 - (n·v)² and vanish unless v is orthogonal to n
  have val : ∀ {l : ℝ} {v : V3}, rotApply (projector n) v = l • v → dot v v = 1 → l * dot n v = 0 ∧ l = 1 - dot n v ^ 2 := by
    intro l v hv hu
    rw [projector_apply] at hv
    constructor
    · have : dot (v - dot n v • n) n = dot (l • v) n := by rw [hv]
      rw [dot_sub_left, dot_smul_left, dot_smul_left, hn, dot_symm v n] at this
      linarith
    · have : dot (v - dot n v • n) v = dot (l • v) v := by rw [hv]
      rw [dot_sub_left, dot_smul_left, dot_smul_left, hu] at this
      linarith
  obtain ⟨z0, w0⟩ := val p0 u0
  obtain ⟨z1, w1⟩ := val p1 u1
  obtain ⟨z2, w2⟩ := val p2 u2
  have hl0 : l0 = 0 := by
    by_contra hne
    have n0 : dot n v0 = 0 := by
      rcases mul_eq_zero.1 z0 with h | h
      · exact absurd h hne
      · exact h
    have hl : l0 = 1 := by rw [w0, n0]; ring
    have n1 : dot n v1 = 0 := by
      rcases mul_eq_zero.1 z1 with h | h
      · linarith
      · exact h
    have n2 : dot n v2 = 0 := by
      rcases mul_eq_zero.1 z2 with h | h
      · linarith
      · exact h
    have a1 := along_cross u1 u2 o12 n1 n2
    have a2 := along_cross u1 u2 o12 o01 o02
    set w := cross v1 v2 with hw
    have hx : dot n v0 = dot n w * dot v0 w * dot w w := by
      calc dot n v0 = dot (dot n w • w) (dot v0 w • w) := by rw [← a1, ← a2]
        _ = _ := by rw [dot_smul_left, dot_smul_right]; ring
    have h1 : dot n w * dot n w * dot w w = 1 := by
      calc dot n w * dot n w * dot w w = dot (dot n w • w) (dot n w • w) := by rw [dot_smul_left, dot_smul_right]; ring
        _ = 1 := by rw [← a1, hn]
    have h2 : dot v0 w * dot v0 w * dot w w = 1 := by
      calc dot v0 w * dot v0 w * dot w w = dot (dot v0 w • w) (dot v0 w • w) := by rw [dot_smul_left, dot_smul_right]; ring
        _ = 1 := by rw [← a2, u0]
    rw [n0] at hx
    have h3 : (dot n w * dot v0 w * dot w w) ^ 2 = 1 := by
      calc (dot n w * dot v0 w * dot w w) ^ 2 = (dot n w * dot n w * dot w w) * (dot v0 w * dot v0 w * dot w w) := by ring
        _ = 1 := by rw [h1, h2]; ring
    rw [← hx] at h3
    norm_num at h3
  refine ⟨hl0, u1, u2, o12, ?_, ?_⟩
  · rw [projector_apply, hl0] at p0
    have : dot (v0 - dot n v0 • n) v1 = dot ((0 : ℝ) • v0) v1 := by rw [p0]
    rw [dot_sub_left, dot_smul_left, dot_smul_left, o01] at this
    have hn0 : dot n v0 ≠ 0 := by
      intro hc; rw [hl0, hc] at w0; norm_num at w0
    have : dot n v0 * dot n v1 = 0 := by linarith
    exact (mul_eq_zero.1 this).resolve_left hn0
  · rw [projector_apply, hl0] at p0
    have : dot (v0 - dot n v0 • n) v2 = dot ((0 : ℝ) • v0) v2 := by rw [p0]
    rw [dot_sub_left, dot_smul_left, dot_smul_left, o02] at this
    have hn0 : dot n v0 ≠ 0 := by
      intro hc; rw [hl0, hc] at w0; norm_num at w0
    have : dot n v0 * dot n v2 = 0 := by linarith
    exact (mul_eq_zero.1 this).resolve_left hn0

/-- Coordinates in the plane of a vector in it. -/
theorem plane_coordinates {n t0 t1 w : V3} (hn : dot n n ≠ 0) (h0 : dot t0 t0 = 1) (h1 : dot t1 t1 = 1)
    (h01 : dot t0 t1 = 0) (hn0 : dot n t0 = 0) (hn1 : dot n t1 = 0) (hw : dot w n = 0) :
    dot w w = dot w t0 ^ 2 + dot w t1 ^ 2 := by
  have a1 := along_cross h0 h1 h01 hn0 hn1
  have hnw : dot n (cross t0 t1) ≠ 0 := by
    intro hc
    rw [hc] at a1
    apply hn
    rw [a1, dot_smul_left]; ring
  have hwc : dot w (cross t0 t1) = 0 := by
    rw [a1, dot_smul_right] at hw
    exact (mul_eq_zero.1 hw).resolve_left hnw
  set x := w - (dot w t0 • t0 + dot w t1 • t1) with hx
  have e : ∀ y, dot x y = dot w y - (dot w t0 * dot t0 y + dot w t1 * dot t1 y) := by
    intro y
    rw [hx]
    generalize dot w t0 = a; generalize dot w t1 = b
    simp only [dot, sub_x, sub_y, sub_z, add_x, add_y, add_z, smul_x, smul_y, smul_z]; ring
  have x0 : dot x t0 = 0 := by rw [e, h0, dot_symm t1 t0, h01]; ring
  have x1 : dot x t1 = 0 := by rw [e, h1, h01]; ring
  have x2 : dot x (cross t0 t1) = 0 := by
    rw [e, hwc, show dot t0 (cross t0 t1) = 0 by simp only [dot, cross]; ring,
      show dot t1 (cross t0 t1) = 0 by simp only [dot, cross]; ring]; ring
  have hz := along_cross h0 h1 h01 x0 x1
  rw [x2] at hz
  have : dot x w = 0 := by rw [hz, dot_smul_left]; ring
  rw [e] at this
  rw [dot_symm t0 w, dot_symm t1 w] at this
  linarith

/-- Three different points of a sphere are not on a line. -/
theorem not_on_line {v0 v1 v2 c : V3} {R : ℝ} (h0 : dot (v0 - c) (v0 - c) = R) (h1 : dot (v1 - c) (v1 - c) = R)
    (h2 : dot (v2 - c) (v2 - c) = R) (d01 : v0 ≠ v1) (d02 : v0 ≠ v2) (d12 : v1 ≠ v2) :
    dot (cross (v1 - v0) (v2 - v0)) (cross (v1 - v0) (v2 - v0)) ≠ 0 := by
  intro hc
  have sub0 : ∀ {a b : V3}, dot (a - b) (a - b) = 0 → b = a := by
    intro a b h
    have := dot_zero_self h
    have e1 := congrArg V3.x this; have e2 := congrArg V3.y this; have e3 := congrArg V3.z this
    simp only [sub_x, sub_y, sub_z] at e1 e2 e3
    ext <;> linarith
  have k := dot_zero_self hc
  set u := v1 - v0 with hu
  set w := v2 - v0 with hw
  set e := v0 - c with he
  have hue : 2 * dot u e = - dot u u := by
    have : dot (v1 - c) (v1 - c) = dot u u + 2 * dot u e + dot e e := by
      simp only [hu, he, dot, sub_x, sub_y, sub_z]; ring
    linarith
  have hwe : 2 * dot w e = - dot w w := by
    have : dot (v2 - c) (v2 - c) = dot w w + 2 * dot w e + dot e e := by
      simp only [hw, he, dot, sub_x, sub_y, sub_z]; ring
    linarith
  have huu : dot u u ≠ 0 := fun h => d01 (sub0 h)
  have hww : dot w w ≠ 0 := fun h => d02 (sub0 h)
  have tri : cross u (cross u w) = dot u w • u - dot u u • w := by
    ext <;> simp [dot, cross] <;> ring
  rw [k] at tri
  have hz : ∀ y : V3, dot u w * dot u y = dot u u * dot w y := by
    intro y
    have : dot (cross u ⟨0, 0, 0⟩) y = dot (dot u w • u - dot u u • w) y := by rw [tri]
    rw [dot_sub_left, dot_smul_left, dot_smul_left] at this
    have z : dot (cross u ⟨0, 0, 0⟩) y = 0 := by simp [dot, cross]
    linarith
  have q1 : dot w w = dot u w := by
    have := hz e
    have h3 : dot u u * (dot w w - dot u w) = 0 := by linear_combination (2 : ℝ) * this - dot u w * hue + dot u u * hwe
    have := (mul_eq_zero.1 h3).resolve_left huu
    linarith
  have q2 : dot u u = dot u w := by
    have := hz w
    rw [← q1] at this
    have h3 : dot w w * (dot w w - dot u u) = 0 := by linear_combination this
    have := (mul_eq_zero.1 h3).resolve_left hww
    linarith
  refine d12 (sub0 (a := v2) (b := v1) ?_)
  have : dot (v2 - v1) (v2 - v1) = dot w w - 2 * dot u w + dot u u := by
    simp only [hu, hw, dot, sub_x, sub_y, sub_z]; ring
  rw [this, q1, q2]; ring

theorem parallel_dot {a b x : V3} (h : cross a b = ⟨0, 0, 0⟩) : dot a a * dot x b = dot a b * dot x a := by
  have tri : cross a (cross a b) = dot a b • a - dot a a • b := by
    ext <;> simp [dot, cross] <;> ring
  rw [h] at tri
  have : dot (cross a ⟨0, 0, 0⟩) x = dot (dot a b • a - dot a a • b) x := by rw [tri]
  rw [dot_sub_left, dot_smul_left, dot_smul_left] at this
  have z : dot (cross a ⟨0, 0, 0⟩) x = 0 := by simp [dot, cross]
  rw [dot_symm x b, dot_symm x a]
  linarith

/-- The mean is in the plane of the points. -/
theorem mean_in_plane {points : List V3} {m : V3} {h : ℝ} (hne : points ≠ []) (hp : ∀ p ∈ points, dot p m = h) :
    dot (mean points) m = h := by
  have hs : ∀ ps : List V3, (∀ p ∈ ps, dot p m = h) → dot (ps.foldr (· + ·) ⟨0, 0, 0⟩) m = ps.length * h := by
    intro ps
    induction ps with
    | nil => intro _; simp [dot]
    | cons p ps ih =>
      intro hp
      rw [List.foldr_cons, show ∀ a b : V3, dot (a + b) m = dot a m + dot b m from fun a b => by
        simp only [dot, add_x, add_y, add_z]; ring, ih (fun q hq => hp q (by simp [hq])), hp p (by simp),
        List.length_cons]
      push_cast; ring
  rw [mean, dot_smul_left, hs points hp]
  have : (points.length : ℝ) ≠ 0 := by
    simp [hne]
  field_simp

end Verif.Plot
