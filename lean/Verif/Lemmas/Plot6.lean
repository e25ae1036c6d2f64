import Verif.Lemmas.Plot5
/-! Lemmas about four sorted points, and vectors orthogonal to a given one. -/
namespace Verif.Plot
open Verif Verif.Shape Verif.Shape.V3

theorem no_two_gaps {x y z : ℝ} (hxy : x ≤ y) (hyz : y ≤ z) (hzx : z ≤ x + 2 * Real.pi) :
    0 ≤ Real.sin (y - x) ∨ 0 ≤ Real.sin (z - y) := by
  rcases le_or_gt (y - x) Real.pi with h | h
  · exact Or.inl (Real.sin_nonneg_of_nonneg_of_le_pi (by linarith) h)
  · exact Or.inr (Real.sin_nonneg_of_nonneg_of_le_pi (by linarith) (by linarith))

theorem cross_arg {z w : ℂ} (h : 0 ≤ Real.sin (w.arg - z.arg)) : 0 ≤ z.re * w.im - z.im * w.re := by
  have := mul_nonneg (mul_nonneg (_root_.norm_nonneg z) (_root_.norm_nonneg w)) h
  rw [Real.sin_sub] at this
  have e : z.re * w.im - z.im * w.re =
      (‖z‖ * Real.cos z.arg) * (‖w‖ * Real.sin w.arg) - (‖z‖ * Real.sin z.arg) * (‖w‖ * Real.cos w.arg) := by
    rw [Complex.norm_mul_cos_arg, Complex.norm_mul_sin_arg, Complex.norm_mul_cos_arg, Complex.norm_mul_sin_arg]
  rw [e]
  refine this.trans (le_of_eq ?_)
  ring

/-- The product of coordinates by angles. -/
theorem cross_angles (t0 t1 p q : V3) (u v : ℝ) (hu : u = (⟨dot p t0, dot p t1⟩ : ℂ).arg)
    (hv : ∃ k : ℤ, v = (⟨dot q t0, dot q t1⟩ : ℂ).arg + k * (2 * Real.pi)) (h : 0 ≤ Real.sin (v - u)) :
    0 ≤ dot p t0 * dot q t1 - dot p t1 * dot q t0 := by
  obtain ⟨k, rfl⟩ := hv
  refine cross_arg (z := ⟨dot p t0, dot p t1⟩) (w := ⟨dot q t0, dot q t1⟩) ?_
  rw [show (⟨dot q t0, dot q t1⟩ : ℂ).arg + k * (2 * Real.pi) - u = (⟨dot q t0, dot q t1⟩ : ℂ).arg - u + k * (2 * Real.pi) by ring,
    Real.sin_add_int_mul_two_pi, hu] at h
  exact h

/-- In a sorted list of four no two gaps after another are more than half a turn. -/
theorem sorted_four {t0 t1 p q r s : V3} (h : ([p, q, r, s].map (angleOf t0 t1)).Pairwise (· ≤ ·)) :
    let C := fun x y : V3 => dot x t0 * dot y t1 - dot x t1 * dot y t0
    (0 ≤ C p q ∨ 0 ≤ C q r) ∧ (0 ≤ C q r ∨ 0 ≤ C r s) ∧ (0 ≤ C r s ∨ 0 ≤ C s p) ∧ (0 ≤ C s p ∨ 0 ≤ C p q) := by
  intro C
  have hpi := Real.pi_pos
  let A : V3 → ℝ := fun x => (⟨dot x t0, dot x t1⟩ : ℂ).arg
  have hA : ∀ x, -Real.pi < A x ∧ A x ≤ Real.pi := fun x => ⟨Complex.neg_pi_lt_arg _, Complex.arg_le_pi _⟩
  have le : ∀ {x y}, angleOf t0 t1 x ≤ angleOf t0 t1 y → A x ≤ A y := by
    intro x y hxy
    simp only [angleOf] at hxy
    rw [div_le_div_iff_of_pos_right hpi] at hxy
    simpa [A] using hxy
  simp only [List.map_cons, List.map_nil, List.pairwise_cons, List.mem_cons, List.not_mem_nil, or_false] at h
  obtain ⟨h1, h2, h3, -⟩ := h
  have pq := le (h1 _ (Or.inl rfl))
  have qr := le (h2 _ (Or.inl rfl))
  have rs := le (h3 _ rfl)
  have a1 := hA p; have a2 := hA q; have a3 := hA r; have a4 := hA s
  have same : ∀ {x y}, 0 ≤ Real.sin (A y - A x) → 0 ≤ C x y := fun {x y} h =>
    cross_angles t0 t1 x y (A x) (A y) rfl ⟨0, by simp [A]⟩ h
  have wrap : ∀ {x y}, 0 ≤ Real.sin (A y + 2 * Real.pi - A x) → 0 ≤ C x y := fun {x y} h =>
    cross_angles t0 t1 x y (A x) (A y + 2 * Real.pi) rfl ⟨1, by simp [A]⟩ h
  have both : ∀ {x y}, 0 ≤ Real.sin (A y + 2 * Real.pi - (A x + 2 * Real.pi)) → 0 ≤ C x y := fun {x y} h =>
    same (by rwa [show A y + 2 * Real.pi - (A x + 2 * Real.pi) = A y - A x by ring] at h)
  refine ⟨?_, ?_, ?_, ?_⟩
  · exact (no_two_gaps pq qr (by linarith)).imp same same
  · exact (no_two_gaps qr rs (by linarith)).imp same same
  · exact (no_two_gaps (z := A p + 2 * Real.pi) rs (by linarith) (by linarith)).imp same wrap
  · exact (no_two_gaps (x := A s) (y := A p + 2 * Real.pi) (z := A q + 2 * Real.pi) (by linarith) (by linarith)
      (by linarith)).imp wrap both

/-- A unit vector orthogonal to a given one. -/
theorem exists_orthogonal (n : V3) : ∃ t, dot t t = 1 ∧ dot n t = 0 := by
  by_cases h : n.x ^ 2 + n.y ^ 2 = 0
  · refine ⟨⟨1, 0, 0⟩, by simp [dot], ?_⟩
    have : n.x ^ 2 = 0 := by nlinarith [sq_nonneg n.x, sq_nonneg n.y]
    simp [dot, pow_eq_zero_iff (two_ne_zero) |>.1 this]
  · have hpos : 0 < n.x ^ 2 + n.y ^ 2 := lt_of_le_of_ne (by positivity) (Ne.symm h)
    have hs : √(n.x ^ 2 + n.y ^ 2) ^ 2 = n.x ^ 2 + n.y ^ 2 := Real.sq_sqrt hpos.le
    have hne : √(n.x ^ 2 + n.y ^ 2) ≠ 0 := (Real.sqrt_pos.2 hpos).ne'
    refine ⟨(√(n.x ^ 2 + n.y ^ 2))⁻¹ • ⟨-n.y, n.x, 0⟩, ?_, ?_⟩
    · have : dot ((√(n.x ^ 2 + n.y ^ 2))⁻¹ • (⟨-n.y, n.x, 0⟩ : V3)) ((√(n.x ^ 2 + n.y ^ 2))⁻¹ • (⟨-n.y, n.x, 0⟩ : V3)) =
          (n.x ^ 2 + n.y ^ 2) / √(n.x ^ 2 + n.y ^ 2) ^ 2 := by
        simp only [dot, smul_x, smul_y, smul_z]; field_simp; ring
      rw [this, hs, div_self hpos.ne']
    · rw [dot_smul_right]; simp only [dot]; ring

end Verif.Plot
