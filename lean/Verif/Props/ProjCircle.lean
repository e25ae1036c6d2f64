import Verif.Spec.ProjCircle
import Verif.Lemmas.ProjCircle
import Mathlib.Analysis.SpecialFunctions.Integrals.Basic
/-! # Circles and disks by projection -/
namespace Verif.ProjCircle
open Verif Verif.Shape Verif.Shape.V3

/-- **C118**.  What `C` gives for a point of the unit circle: nan iff the normal is zero or the point is a multiple of it, otherwise a point of the
    circle. -/
theorem circle_map_exact {x : V3} (hx : OnUnitCircle x) (x0 n : V3) (R : ℝ) :
    ∃ o, circleMap x0 n R x = .ok o ∧ (o = none ↔ norm n = 0 ∨ Parallel n x) ∧ ∀ p, o = some p → OnCircle x0 n |R| p := by
  refine ⟨_, circleMap_ok R hx, ?_, ?_⟩
  · by_cases hn : norm n = 0
    · simp [hn]
    · simp only [hn, if_false, Option.map_eq_none_iff, false_or]
      rw [projected_none (unit_dot hn), parallel_iff hn]
  · intro p hp
    split at hp
    · cases hp
    · rename_i hn
      obtain ⟨y, h1, h2⟩ := Option.map_eq_some_iff.1 hp
      obtain ⟨hy, ho, _⟩ := projected_some (unit_dot hn) h1
      subst h2
      exact ⟨scaled_norm hy, scaled_orth hn ho⟩

/-- If the normal is not in the plane `z = 0`, `C` is a bijection of the unit circle and the circle. -/
theorem circle_map_bijective {x0 n : V3} {R : ℝ} (hR : 0 < R) (hz : n.z ≠ 0) {p : V3} (hp : OnCircle x0 n R p) :
    ∃! x, OnUnitCircle x ∧ circleMap x0 n R x = .ok (some p) := by
  have hn : norm n ≠ 0 := by
    intro h
    have h2 : dot n n = 0 := by rw [← norm_sq, h]; ring
    exact hz (congrArg V3.z (zero_of_dot h2))
  have hm := unit_dot hn
  have hmz : (unit n).z ≠ 0 := by
    unfold unit
    simpa using ⟨hn, hz⟩
  generalize hq : R⁻¹ • (p - x0) = q
  have hpq : p = x0 + R • q := by
    rw [← hq]
    ext <;> simp <;> field_simp <;> ring
  have hqq : dot q q = 1 := by
    have h1 := norm_sq (p - x0)
    rw [hp.1] at h1
    have : dot q q = (R⁻¹) ^ 2 * dot (p - x0) (p - x0) := by
      rw [← hq]; simp only [dot, smul_x, smul_y, smul_z]; ring
    rw [this, ← h1]
    field_simp
  have hqm : dot q (unit n) = 0 := by
    rw [dot_unit]
    have : dot q n = R⁻¹ * dot (p - x0) n := by
      rw [← hq]; simp only [dot, smul_x, smul_y, smul_z]; ring
    rw [this, hp.2]
    simp
  generalize hmm : unit n = m at *
  generalize hk : q.z / m.z = k
  have hkz : q.z = k * m.z := by rw [← hk]; field_simp
  have hN : 0 < √(1 + k ^ 2) := Real.sqrt_pos.2 (by positivity)
  have hN2 : √(1 + k ^ 2) ^ 2 = 1 + k ^ 2 := Real.sq_sqrt (by positivity)
  generalize √(1 + k ^ 2) = N at hN hN2
  have hdot : ∀ c : ℝ, dot (c • q + (-(c * k)) • m) (c • q + (-(c * k)) • m) = c ^ 2 * N ^ 2 := by
    intro c
    have : dot (c • q + (-(c * k)) • m) (c • q + (-(c * k)) • m) =
        c ^ 2 * dot q q - 2 * c ^ 2 * k * dot q m + c ^ 2 * k ^ 2 * dot m m := by
      simp only [dot, add_x, add_y, add_z, smul_x, smul_y, smul_z]; ring
    rw [this, hqq, hqm, hm, hN2]; ring
  have hunit : OnUnitCircle (N⁻¹ • q + (-(N⁻¹ * k)) • m) := by
    refine ⟨?_, ?_⟩
    · rw [hdot]; field_simp
    · simp [hkz]; ring
  refine ⟨N⁻¹ • q + (-(N⁻¹ * k)) • m, ⟨hunit, ?_⟩, ?_⟩
  · rw [circleMap_ok R hunit, if_neg hn, hmm, projected_of hm hqq hqm (inv_pos.2 hN) rfl, hpq]
    rfl
  · rintro x ⟨hx, hxc⟩
    obtain ⟨_, y, h1, h2⟩ := circleMap_some hxc
    rw [hmm] at h1
    have hyq : y = q := by
      rw [hpq] at h2
      have hx := congrArg V3.x h2
      have hy := congrArg V3.y h2
      have hz := congrArg V3.z h2
      simp [hR.ne'] at hx hy hz
      exact V3.ext hx.symm hy.symm hz.symm
    subst hyq
    obtain ⟨_, _, hd, hxe⟩ := projected_some hm h1
    generalize √(dot x x - dot x m ^ 2) = d at hd hxe
    have hc : dot x m = -(d * k) := by
      have h0 := congrArg V3.z hxe
      rw [hx.2] at h0
      simp [hkz] at h0
      have : (d * k + dot x m) * m.z = 0 := by linear_combination -h0
      rcases mul_eq_zero.1 this with h | h
      · linarith
      · exact absurd h hmz
    have hdN : d = N⁻¹ := by
      have h1 := hx.1
      rw [hxe, hc, hdot] at h1
      have : (d * N) ^ 2 = 1 := by linear_combination h1
      have hpos : 0 < d * N := mul_pos hd hN
      have : d * N = 1 := by nlinarith
      field_simp
      exact this
    rw [hxe, hc, hdN]

/-- **The circle is not reached** if the normal is in the plane `z = 0`: only two points are, whatever the point of the unit circle. -/
theorem circle_map_collapses {x0 n : V3} {R : ℝ} (hz : n.z = 0) {x p : V3} (hx : x.z = 0) (h : circleMap x0 n R x = .ok (some p)) :
    p = x0 + R • cross ez (unit n) ∨ p = x0 - R • cross ez (unit n) := by
  obtain ⟨hn, y, h1, rfl⟩ := circleMap_some h
  have hm := unit_dot hn
  have hmz : (unit n).z = 0 := by unfold unit; simp [hz]
  generalize unit n = m at *
  obtain ⟨hy, ho, hd, hxe⟩ := projected_some hm h1
  have hyz : y.z = 0 := by
    have h0 := congrArg V3.z hxe
    rw [hx] at h0
    simp [hmz] at h0
    rcases h0 with h0 | h0
    · exact absurd h0 hd.ne'
    · exact h0
  have e1 : m.x ^ 2 + m.y ^ 2 = 1 := by simp only [dot, hmz] at hm; linarith
  have e2 : y.x ^ 2 + y.y ^ 2 = 1 := by simp only [dot, hyz] at hy; linarith
  have e3 : y.x * m.x + y.y * m.y = 0 := by simp only [dot, hyz, hmz] at ho; linarith
  have hs : (m.x * y.y - m.y * y.x) ^ 2 = 1 := by
    have : (m.x * y.y - m.y * y.x) ^ 2 = (m.x ^ 2 + m.y ^ 2) * (y.x ^ 2 + y.y ^ 2) - (y.x * m.x + y.y * m.y) ^ 2 := by ring
    rw [this, e1, e2, e3]; ring
  have hyx : y.x = -(m.x * y.y - m.y * y.x) * m.y := by linear_combination (-y.x) * e1 + m.x * e3
  have hyy : y.y = (m.x * y.y - m.y * y.x) * m.x := by linear_combination (-y.y) * e1 + m.y * e3
  generalize hσ : m.x * y.y - m.y * y.x = σ at hs hyx hyy
  have hσ1 : σ = 1 ∨ σ = -1 := by
    have : (σ - 1) * (σ + 1) = 0 := by linear_combination hs
    rcases mul_eq_zero.1 this with h | h
    · exact .inl (by linarith)
    · exact .inr (by linarith)
  rcases hσ1 with rfl | rfl
  · left
    ext
    · simp [cross, ez, hyx]
    · simp [cross, ez, hyy]
    · simp [cross, ez, hyz]
  · right
    ext
    · simp [cross, ez, hyx]
    · simp [cross, ez, hyy]; ring
    · simp [cross, ez, hyz]

/-- **Integrals over circles are wrong** if the normal is in the plane `z = 0`: the integral of the square of the height above the centre is zero for
    every rule, if it is a number. -/
theorem circle_quad_wrong {x0 n : V3} {R : ℝ} (hz : n.z = 0) (xq wq : List ℝ) {s : ℝ}
    (h : circleQuad x0 n R xq wq (fun y => (y.z - x0.z) ^ 2) = .ok (some s)) : s = 0 := by
  simp only [circleQuad, py_bind_eq_ok, Except.ok.injEq] at h
  obtain ⟨pts, h1, h2⟩ := h
  have hpts : ∀ o ∈ pts, ∀ p, o = some p → p.z = x0.z := by
    unfold circlePoints at h1
    clear h2
    induction xq generalizing pts with
    | nil =>
        cases h1
        simp
    | cons t xq ih =>
        simp only [List.map_cons, mapPts, py_bind_eq_ok, Except.ok.injEq] at h1
        obtain ⟨y, hy, ys, hys, rfl⟩ := h1
        intro o ho p hp
        rcases List.mem_cons.1 ho with rfl | ho
        · subst hp
          rcases circle_map_collapses hz rfl hy with rfl | rfl <;> simp [cross, ez]
        · exact ih ys hys o ho p hp
  clear h1
  induction pts generalizing wq s with
  | nil => simpa using h2.symm
  | cons o pts ih =>
      cases wq with
      | nil => simpa using h2.symm
      | cons w wq =>
          simp only [List.zip_cons_cons, List.foldr_cons, Option.bind_eq_some_iff, Option.map_eq_some_iff] at h2
          obtain ⟨y, hy, s', hs', rfl⟩ := h2
          rw [ih wq hs' (fun o ho => hpts o (List.mem_cons_of_mem _ ho)), hpts o (by simp) y hy]
          ring

/-- What `circle_quad` computes if the normal is not zero and no point of the rule is parallel to it: the sum of values in points of the circle,
    with weights multiplied by half of the length of the circle. -/
theorem circle_quad_value {x0 n : V3} (R : ℝ) (hn : norm n ≠ 0) {xq wq : List ℝ}
    (hp : ∀ t ∈ xq, ¬ Parallel n ⟨Real.cos (Real.pi * t), Real.sin (Real.pi * t), 0⟩) :
    ∃ pts : List V3, pts.length = xq.length ∧ (∀ p ∈ pts, OnCircle x0 n |R| p) ∧
      ∀ f, circleQuad x0 n R xq wq f = .ok (some (Real.pi * R * ((pts.zip wq).map (fun p => p.2 * f p.1)).sum)) := by
  have hpts : ∃ pts : List V3, pts.length = xq.length ∧ (∀ p ∈ pts, OnCircle x0 n |R| p) ∧ circlePoints x0 n R xq = .ok (pts.map some) := by
    clear wq
    unfold circlePoints
    induction xq with
    | nil => exact ⟨[], rfl, by simp, rfl⟩
    | cons t xq ih =>
        obtain ⟨pts, h1, h2, h3⟩ := ih fun t ht => hp t (List.mem_cons_of_mem _ ht)
        have hu : OnUnitCircle ⟨Real.cos (Real.pi * t), Real.sin (Real.pi * t), 0⟩ := by
          refine ⟨?_, rfl⟩
          simp only [dot]
          linear_combination Real.sin_sq_add_cos_sq (Real.pi * t)
        obtain ⟨o, ho, hnone, hon⟩ := circle_map_exact hu x0 n R
        cases o with
        | none =>
            rcases hnone.1 rfl with h | h
            · exact absurd h hn
            · exact absurd h (hp t (by simp))
        | some p =>
            refine ⟨p :: pts, by simp [h1], ?_, ?_⟩
            · intro q hq
              rcases List.mem_cons.1 hq with rfl | hq
              · exact hon _ rfl
              · exact h2 q hq
            · rw [List.map_cons, mapPts, ho, py_bind_ok, h3]
              rfl
  obtain ⟨pts, h1, h2, h3⟩ := hpts
  refine ⟨pts, h1, h2, fun f => ?_⟩
  rw [circleQuad, h3, py_bind_ok]
  congr 1
  clear h1 h2 h3 hp
  induction pts generalizing wq with
  | nil => simp
  | cons p pts ih =>
      cases wq with
      | nil => simp
      | cons w wq =>
          simp only [List.map_cons, List.zip_cons_cons, List.foldr_cons, ih, Option.bind_some, Option.map_some, List.sum_cons]
          congr 1
          ring

/-- The length of the circle is right. -/
example {x0 n : V3} (R : ℝ) (hn : norm n ≠ 0) {xq wq : List ℝ} (hl : xq.length = wq.length) (hw : wq.sum = 2)
    (hp : ∀ t ∈ xq, ¬ Parallel n ⟨Real.cos (Real.pi * t), Real.sin (Real.pi * t), 0⟩) :
    circleQuad x0 n R xq wq (fun _ => 1) = .ok (some (2 * Real.pi * R)) := by
  obtain ⟨pts, h1, _, h3⟩ := circle_quad_value (x0 := x0) R hn (wq := wq) hp
  have : ((pts.zip wq).map (fun p => p.2 * 1)) = wq := by
    simp only [mul_one]
    exact List.map_snd_zip (by omega)
  rw [h3, this, hw]
  congr 2
  ring

/-- The rule with the point `(1, 0, 0)` and the normal `(0, 1, 0)`. -/
example : circleQuad ⟨1, 2, 3⟩ ⟨0, 1, 0⟩ 5 [0] [2] (fun y => (y.z - 3) ^ 2) = .ok (some 0) := by
  have hu : OnUnitCircle ⟨1, 0, 0⟩ := ⟨by simp [dot], rfl⟩
  have hn : norm (⟨0, 1, 0⟩ : V3) = 1 := norm_eq_of_sq (by norm_num) (by simp [dot])
  have hun : unit (⟨0, 1, 0⟩ : V3) = ⟨0, 1, 0⟩ := by unfold unit; rw [hn]; ext <;> simp
  have h : circleMap ⟨1, 2, 3⟩ ⟨0, 1, 0⟩ 5 ⟨1, 0, 0⟩ = .ok (some ((⟨1, 2, 3⟩ : V3) + (5 : ℝ) • (⟨1, 0, 0⟩ : V3))) := by
    rw [circleMap_ok 5 hu, if_neg (by rw [hn]; norm_num), hun,
      projected_of (y := ⟨1, 0, 0⟩) (d := 1) (c := 0) (by simp [dot]) (by simp [dot]) (by simp [dot]) one_pos (by ext <;> simp)]
    rfl
  simp [circleQuad, circlePoints, mapPts, h]

/-- But the integral over a circle is `pi*R^3` for some: the circle around `x0` with the normal `(1, 0, 0)` and points `x0 + R(0, cos t, sin t)`. -/
theorem circle_height_integral (x0 : V3) (R : ℝ) :
    (∀ t : ℝ, OnCircle x0 ⟨1, 0, 0⟩ |R| (x0 + R • (⟨0, Real.cos t, Real.sin t⟩ : V3))) ∧
    ∫ t in (-Real.pi)..Real.pi, ((x0 + R • (⟨0, Real.cos t, Real.sin t⟩ : V3)).z - x0.z) ^ 2 * R = Real.pi * R ^ 3 := by
  constructor
  · intro t
    refine ⟨scaled_norm ?_, by simp [dot]⟩
    simp only [dot]
    have := Real.sin_sq_add_cos_sq t
    linear_combination this
  · have : ∀ t : ℝ, ((x0 + R • (⟨0, Real.cos t, Real.sin t⟩ : V3)).z - x0.z) ^ 2 * R = R ^ 3 * Real.sin t ^ 2 := by
      intro t
      simp
      ring
    simp_rw [this]
    rw [intervalIntegral.integral_const_mul, integral_sin_sq]
    simp
    ring

/-- **C118**.  What `D` gives for a point of the unit disk: nan iff the normal is zero or the point is a multiple of it (as the centre is), otherwise a
    point of the disk, as far from its centre, in units of the radius, as the given one. -/
theorem disk_map_exact {x : V3} (hx : InUnitDisk x) (x0 n : V3) {R : ℝ} (hR : 0 ≤ R) :
    ∃ o, diskMap x0 n R x = .ok o ∧ (o = none ↔ norm n = 0 ∨ Parallel n x) ∧ ∀ p, o = some p → OnCircle x0 n (R * norm x) p := by
  refine ⟨_, diskMap_ok R hx, ?_, ?_⟩
  · by_cases hn : norm n = 0
    · simp [hn]
    · simp only [hn, if_false, Option.map_eq_none_iff, false_or]
      rw [projected_none (unit_dot hn), parallel_iff hn]
  · intro p hp
    split at hp
    · cases hp
    · rename_i hn
      obtain ⟨y, h1, h2⟩ := Option.map_eq_some_iff.1 hp
      obtain ⟨hy, ho, _⟩ := projected_some (unit_dot hn) h1
      subst h2
      refine ⟨?_, scaled_orth hn ho⟩
      rw [scaled_norm hy, abs_of_nonneg (mul_nonneg hR (Real.sqrt_nonneg _))]
      rfl

/-- **The centre of a disk is mapped to nan**. -/
theorem disk_center_nan (x0 n : V3) (R : ℝ) : diskMap x0 n R ⟨0, 0, 0⟩ = .ok none := by
  rw [diskMap_ok R ⟨by simp [dot], rfl⟩]
  split
  · rfl
  · rename_i hn
    rw [(projected_none (unit_dot hn) _).2 (by ext <;> simp [dot])]
    rfl

/-- The point `(1, 0, 0)` of the unit circle and the normal `(0, 0, 1)`. -/
example : circleMap ⟨1, 2, 3⟩ ⟨0, 0, 2⟩ 5 ⟨1, 0, 0⟩ = .ok (some ⟨6, 2, 3⟩) := by
  have hu : OnUnitCircle ⟨1, 0, 0⟩ := ⟨by simp [dot], rfl⟩
  have hn : norm (⟨0, 0, 2⟩ : V3) = 2 := norm_eq_of_sq (by norm_num) (by simp [dot]; norm_num)
  have hun : unit (⟨0, 0, 2⟩ : V3) = ⟨0, 0, 1⟩ := by unfold unit; rw [hn]; ext <;> simp
  rw [circleMap_ok 5 hu, if_neg (by rw [hn]; norm_num), hun,
    projected_of (y := ⟨1, 0, 0⟩) (d := 1) (c := 0) (by simp [dot]) (by simp [dot]) (by simp [dot]) one_pos (by ext <;> simp)]
  simp only [Option.map_some]
  congr 2
  ext <;> simp
  norm_num

end Verif.ProjCircle
