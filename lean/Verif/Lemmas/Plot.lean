import Verif.Spec.Plot
import Verif.Lemmas.Shape
import Verif.Lemmas.BlockOps
import Mathlib.Tactic.FieldSimp
/-! Lemmas about drawings. -/
namespace Verif.Plot
open Verif Verif.Shape Verif.Shape.V3

/-! ## Points of a circle seen from inside -/

/-- A point of the circle is not inside of the triangle of two others and a point inside. -/
theorem not_inside {p1 p2 q1 q2 r1 r2 a b R l m : ℝ} (hp : (p1 - a) ^ 2 + (p2 - b) ^ 2 = R ^ 2)
    (hq : (q1 - a) ^ 2 + (q2 - b) ^ 2 = R ^ 2) (hr : (r1 - a) ^ 2 + (r2 - b) ^ 2 = R ^ 2)
    (ho : a ^ 2 + b ^ 2 < R ^ 2) (hl : 0 ≤ l) (hm : 0 ≤ m) (hlm : l + m < 1)
    (h1 : r1 = l * p1 + m * q1) (h2 : r2 = l * p2 + m * q2) : False := by
  have key : (r1 - a) ^ 2 + (r2 - b) ^ 2 - R ^ 2 =
      (1 - l - m) * (a ^ 2 + b ^ 2 - R ^ 2) - l * m * ((p1 - q1) ^ 2 + (p2 - q2) ^ 2) -
        (1 - l - m) * (l * (p1 ^ 2 + p2 ^ 2) + m * (q1 ^ 2 + q2 ^ 2)) := by
    subst h1 h2
    linear_combination l * hp + m * hq
  have a1 : (1 - l - m) * (a ^ 2 + b ^ 2 - R ^ 2) < 0 := mul_neg_of_pos_of_neg (by linarith) (by linarith)
  have a2 : 0 ≤ l * m * ((p1 - q1) ^ 2 + (p2 - q2) ^ 2) := by positivity
  have a3 : 0 ≤ (1 - l - m) * (l * (p1 ^ 2 + p2 ^ 2) + m * (q1 ^ 2 + q2 ^ 2)) :=
    mul_nonneg (by linarith) (by positivity)
  linarith

theorem not_inside' {p1 p2 q1 q2 r1 r2 a b R : ℝ} (hp : (p1 - a) ^ 2 + (p2 - b) ^ 2 = R ^ 2)
    (hq : (q1 - a) ^ 2 + (q2 - b) ^ 2 = R ^ 2) (hr : (r1 - a) ^ 2 + (r2 - b) ^ 2 = R ^ 2)
    (ho : a ^ 2 + b ^ 2 < R ^ 2) (hB : 0 ≤ q1 * r2 - q2 * r1) (hC : 0 ≤ r1 * p2 - r2 * p1) :
    0 ≤ (p1 * q2 - p2 * q1) + (q1 * r2 - q2 * r1) + (r1 * p2 - r2 * p1) := by
  by_contra hlt
  push Not at hlt
  have hA : p1 * q2 - p2 * q1 < 0 := by linarith
  have hD : 0 < -(p1 * q2 - p2 * q1) := by linarith
  refine not_inside (l := (q1 * r2 - q2 * r1) / -(p1 * q2 - p2 * q1)) (m := (r1 * p2 - r2 * p1) / -(p1 * q2 - p2 * q1))
    hp hq hr ho (by positivity) (by positivity) ?_ ?_ ?_
  · rw [← add_div, div_lt_one hD]; linarith
  · rw [div_mul_eq_mul_div, div_mul_eq_mul_div, ← add_div, eq_div_iff hD.ne']; ring
  · rw [div_mul_eq_mul_div, div_mul_eq_mul_div, ← add_div, eq_div_iff hD.ne']; ring

/-- Three points of a circle which one sees from inside in this order around form a triangle passed to the left. -/
theorem turn_left {a b R rp rq rr x y z : ℝ} (hrp : 0 ≤ rp) (hrq : 0 ≤ rq) (hrr : 0 ≤ rr)
    (hp : (rp * Real.cos x - a) ^ 2 + (rp * Real.sin x - b) ^ 2 = R ^ 2)
    (hq : (rq * Real.cos y - a) ^ 2 + (rq * Real.sin y - b) ^ 2 = R ^ 2)
    (hr : (rr * Real.cos z - a) ^ 2 + (rr * Real.sin z - b) ^ 2 = R ^ 2)
    (ho : a ^ 2 + b ^ 2 < R ^ 2) (hxy : x ≤ y) (hyz : y ≤ z) (hzx : z ≤ x + 2 * Real.pi) :
    0 ≤ (rq * Real.cos y - rp * Real.cos x) * (rr * Real.sin z - rp * Real.sin x) -
      (rq * Real.sin y - rp * Real.sin x) * (rr * Real.cos z - rp * Real.cos x) := by
  have hA : rp * Real.cos x * (rq * Real.sin y) - rp * Real.sin x * (rq * Real.cos y) = rp * rq * Real.sin (y - x) := by
    rw [Real.sin_sub]; ring
  have hB : rq * Real.cos y * (rr * Real.sin z) - rq * Real.sin y * (rr * Real.cos z) = rq * rr * Real.sin (z - y) := by
    rw [Real.sin_sub]; ring
  have hC : rr * Real.cos z * (rp * Real.sin x) - rr * Real.sin z * (rp * Real.cos x) =
      rr * rp * Real.sin (x + 2 * Real.pi - z) := by
    rw [show x + 2 * Real.pi - z = (x - z) + 2 * Real.pi by ring, Real.sin_add_two_pi, Real.sin_sub]; ring
  have nn : ∀ {u v s : ℝ}, 0 ≤ u → 0 ≤ v → 0 ≤ s → s ≤ Real.pi → 0 ≤ u * v * Real.sin s := fun hu hv h0 h1 =>
    mul_nonneg (mul_nonneg hu hv) (Real.sin_nonneg_of_nonneg_of_le_pi h0 h1)
  have goal : (rq * Real.cos y - rp * Real.cos x) * (rr * Real.sin z - rp * Real.sin x) -
      (rq * Real.sin y - rp * Real.sin x) * (rr * Real.cos z - rp * Real.cos x) =
      (rp * Real.cos x * (rq * Real.sin y) - rp * Real.sin x * (rq * Real.cos y)) +
      (rq * Real.cos y * (rr * Real.sin z) - rq * Real.sin y * (rr * Real.cos z)) +
      (rr * Real.cos z * (rp * Real.sin x) - rr * Real.sin z * (rp * Real.cos x)) := by ring
  rw [goal]
  by_cases h1 : Real.pi < y - x
  · exact not_inside' hp hq hr ho (by rw [hB]; exact nn hrq hrr (by linarith) (by linarith))
      (by rw [hC]; exact nn hrr hrp (by linarith) (by linarith))
  by_cases h2 : Real.pi < z - y
  · have := not_inside' hq hr hp ho (by rw [hC]; exact nn hrr hrp (by linarith) (by linarith))
      (by rw [hA]; exact nn hrp hrq (by linarith) (by linarith))
    linarith
  by_cases h3 : Real.pi < x + 2 * Real.pi - z
  · have := not_inside' hr hp hq ho (by rw [hA]; exact nn hrp hrq (by linarith) (by linarith))
      (by rw [hB]; exact nn hrq hrr (by linarith) (by linarith))
    linarith
  push Not at h1 h2 h3
  rw [hA, hB, hC]
  have e1 := nn hrp hrq (by linarith : 0 ≤ y - x) h1
  have e2 := nn hrq hrr (by linarith : 0 ≤ z - y) h2
  have e3 := nn hrr hrp (by linarith : 0 ≤ x + 2 * Real.pi - z) h3
  linarith

/-- Points of a circle sorted by the angles at which one sees them from inside. -/
theorem turns_left {len : Nat} {rho theta : Nat → ℝ} {a b R : ℝ} (ho : a ^ 2 + b ^ 2 < R ^ 2)
    (hrho : ∀ i < len, 0 ≤ rho i)
    (hc : ∀ i < len, (rho i * Real.cos (theta i) - a) ^ 2 + (rho i * Real.sin (theta i) - b) ^ 2 = R ^ 2)
    (mono : ∀ i j, i ≤ j → j < len → theta i ≤ theta j) (span : ∀ i j, i < len → j < len → theta j ≤ theta i + 2 * Real.pi)
    {i j : Nat} (hi : i < len) (hj : j < len) :
    let k := (j + 1) % len
    0 ≤ (rho k * Real.cos (theta k) - rho j * Real.cos (theta j)) *
        (rho i * Real.sin (theta i) - rho j * Real.sin (theta j)) -
      (rho k * Real.sin (theta k) - rho j * Real.sin (theta j)) *
        (rho i * Real.cos (theta i) - rho j * Real.cos (theta j)) := by
  intro k
  have pc : ∀ x : ℝ, Real.cos x = Real.cos (x + 2 * Real.pi) := fun x => (Real.cos_add_two_pi x).symm
  have ps : ∀ x : ℝ, Real.sin x = Real.sin (x + 2 * Real.pi) := fun x => (Real.sin_add_two_pi x).symm
  have hk : k < len := Nat.mod_lt _ (by omega)
  by_cases hlast : j + 1 < len
  · have hkj : k = j + 1 := Nat.mod_eq_of_lt hlast
    by_cases hij : i ≤ j
    · have h := turn_left (z := theta i + 2 * Real.pi) (hrho j hj) (hrho k hk) (hrho i hi) (hc j hj) (hc k hk)
        (by rw [← pc, ← ps]; exact hc i hi) ho (mono j k (by omega) hk) (span i k hi hk)
        (by linarith [mono i j hij hj])
      rw [← pc, ← ps] at h
      exact h
    · exact turn_left (hrho j hj) (hrho k hk) (hrho i hi) (hc j hj) (hc k hk) (hc i hi) ho
        (mono j k (by omega) hk) (mono k i (by omega) hi) (span j i hj hi)
  · have hk0 : k = 0 := by
      have : j + 1 = len := by omega
      simp only [k, this, Nat.mod_self]
    have h := turn_left (y := theta k + 2 * Real.pi) (z := theta i + 2 * Real.pi) (hrho j hj) (hrho k hk) (hrho i hi)
      (hc j hj) (by rw [← pc, ← ps]; exact hc k hk) (by rw [← pc, ← ps]; exact hc i hi) ho (span k j hk hj)
      (by linarith [mono k i (by omega) hi]) (by linarith [mono i j (by omega) hj])
    rw [← pc, ← ps, ← pc, ← ps] at h
    exact h

theorem cross_dot_cross (u v s t : V3) : dot (cross u v) (cross s t) = dot u s * dot v t - dot u t * dot v s := by
  simp only [dot, cross]; ring

/-- A vector orthogonal to two orthonormal ones is along their product. -/
theorem along_cross {n t0 t1 : V3} (h0 : dot t0 t0 = 1) (h1 : dot t1 t1 = 1) (h01 : dot t0 t1 = 0)
    (hn0 : dot n t0 = 0) (hn1 : dot n t1 = 0) : n = dot n (cross t0 t1) • cross t0 t1 := by
  have hw : dot (cross t0 t1) (cross t0 t1) = 1 := by
    rw [cross_dot_cross, h0, h1, h01]; ring
  have hx : cross n (cross t0 t1) = dot n t1 • t0 - dot n t0 • t1 := by
    ext <;> simp [dot, cross] <;> ring
  have ht : dot (cross t0 t1) (cross t0 t1) • n - dot n (cross t0 t1) • cross t0 t1 =
      cross (cross t0 t1) (cross n (cross t0 t1)) := by
    ext <;> simp [dot, cross] <;> ring
  rw [hx, hn0, hn1, hw] at ht
  have hz : cross (cross t0 t1) ((0 : ℝ) • t0 - (0 : ℝ) • t1) = ⟨0, 0, 0⟩ := by
    ext <;> simp [cross]
  rw [hz] at ht
  have e1 := congrArg V3.x ht
  have e2 := congrArg V3.y ht
  have e3 := congrArg V3.z ht
  simp only [sub_x, sub_y, sub_z, smul_x, smul_y, smul_z, one_mul] at e1 e2 e3
  ext
  · simp only [smul_x]; linarith
  · simp only [smul_y]; linarith
  · simp only [smul_z]; linarith

theorem mem_polygon {P : Type} {pts : List P} {p q : P} (h : [some p, some q] ∈ polygon pts) :
    ∃ j < pts.length, pts[j]? = some p ∧ pts[(j + 1) % pts.length]? = some q := by
  simp only [polygon, List.mem_map, List.mem_range, List.cons.injEq, and_true] at h
  obtain ⟨j, hj, h1, h2⟩ := h
  exact ⟨j, hj, h1, h2⟩

/-- Points of a circle sorted by the angles at which one sees them from a point `o` inside of it. -/
theorem outline_of_angles {pts : List V3} {n t0 t1 o : V3} (h0 : dot t0 t0 = 1) (h1 : dot t1 t1 = 1)
    (h01 : dot t0 t1 = 0) (hn0 : dot n t0 = 0) (hn1 : dot n t1 = 0) {rho theta : Nat → ℝ} {a b R : ℝ}
    (ho : a ^ 2 + b ^ 2 < R ^ 2) (hrho : ∀ i < pts.length, 0 ≤ rho i)
    (hp : ∀ i p, pts[i]? = some p → dot (p - o) t0 = rho i * Real.cos (theta i) ∧ dot (p - o) t1 = rho i * Real.sin (theta i))
    (hc : ∀ p ∈ pts, (dot (p - o) t0 - a) ^ 2 + (dot (p - o) t1 - b) ^ 2 = R ^ 2)
    (mono : ∀ i j, i ≤ j → j < pts.length → theta i ≤ theta j)
    (span : ∀ i j, i < pts.length → j < pts.length → theta j ≤ theta i + 2 * Real.pi) : Outline n pts := by
  have key : ∀ p q, [some p, some q] ∈ polygon pts → ∀ r ∈ pts, 0 ≤ dot (cross (q - p) (r - p)) (cross t0 t1) := by
    intro p q hpq r hr
    obtain ⟨j, hj, hpj, hqj⟩ := mem_polygon hpq
    obtain ⟨i, hi, hri⟩ := List.getElem_of_mem hr
    have hri : pts[i]? = some r := by rw [List.getElem?_eq_getElem hi, hri]
    have h := turns_left (len := pts.length) ho hrho (fun i hi => by
      obtain ⟨e1, e2⟩ := hp i pts[i] (List.getElem?_eq_getElem hi)
      rw [← e1, ← e2]; exact hc _ (List.getElem_mem hi)) mono span hi hj
    simp only at h
    rw [← (hp _ _ hpj).1, ← (hp _ _ hpj).2, ← (hp _ _ hqj).1, ← (hp _ _ hqj).2, ← (hp _ _ hri).1, ← (hp _ _ hri).2] at h
    rw [cross_dot_cross]
    refine h.trans (le_of_eq ?_)
    simp only [dot, sub_x, sub_y, sub_z]; ring
  have hn := along_cross h0 h1 h01 hn0 hn1
  by_cases hs : 0 ≤ dot n (cross t0 t1)
  · refine ⟨n, Or.inl rfl, fun p q hpq r hr => ?_⟩
    rw [hn, show dot (cross (q - p) (r - p)) (dot n (cross t0 t1) • cross t0 t1) =
      dot n (cross t0 t1) * dot (cross (q - p) (r - p)) (cross t0 t1) by
        generalize cross t0 t1 = w; generalize dot n w = k; simp only [dot, smul_x, smul_y, smul_z]; ring]
    exact mul_nonneg hs (key p q hpq r hr)
  · refine ⟨(-1 : ℝ) • n, Or.inr rfl, fun p q hpq r hr => ?_⟩
    rw [hn, show dot (cross (q - p) (r - p)) ((-1 : ℝ) • (dot n (cross t0 t1) • cross t0 t1)) =
      (-dot n (cross t0 t1)) * dot (cross (q - p) (r - p)) (cross t0 t1) by
        generalize cross t0 t1 = w; generalize dot n w = k; simp only [dot, smul_x, smul_y, smul_z]; ring]
    exact mul_nonneg (by linarith) (key p q hpq r hr)

end Verif.Plot
