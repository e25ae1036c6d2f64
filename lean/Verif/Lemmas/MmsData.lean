import Verif.Model.MmsData
import Verif.Lemmas.Mms

/-! # Values and derivatives of the manufactured solutions -/

namespace Verif.Mms

theorem sides_vanish (f : Sm) (h1 : ∀ y, f.1 (0, y) = 0) (h2 : ∀ y, f.1 (1, y) = 0)
    (h3 : ∀ x, f.1 (x, 0) = 0) (h4 : ∀ x, f.1 (x, 1) = 0) :
    ∀ t ∈ [1, 2, 3, 4], Vanishes unitSquare.side t f := by
  simp only [List.mem_cons, List.not_mem_nil, or_false, forall_eq_or_imp, forall_eq]
  exact ⟨vert_vanishes h1, vert_vanishes h2, horz_vanishes h3, horz_vanishes h4⟩

theorem outer_vanish (f : Sm) (h1 : ∀ y, f.1 (0, y) = 0) (h2 : ∀ y, f.1 (1, y) = 0)
    (h3 : ∀ x, f.1 (x, 0) = 0) (h4 : ∀ x, f.1 (x, 1) = 0) :
    ∀ t ∈ [5, 6, 7, 8], Vanishes immersed.side t f := by
  simp only [List.mem_cons, List.not_mem_nil, or_false, forall_eq_or_imp, forall_eq]
  exact ⟨vert_vanishes h1, vert_vanishes h2, horz_vanishes h3, horz_vanishes h4⟩

theorem inner_vanish (f : Sm) (h1 : ∀ y, f.1 (1/4, y) = 0) (h2 : ∀ y, f.1 (3/4, y) = 0)
    (h3 : ∀ x, f.1 (x, 1/4) = 0) (h4 : ∀ x, f.1 (x, 3/4) = 0) :
    ∀ t ∈ [1, 2, 3, 4], Vanishes immersed.side t f := by
  simp only [List.mem_cons, List.not_mem_nil, or_false, forall_eq_or_imp, forall_eq]
  exact ⟨vert_vanishes h1, vert_vanishes h2, horz_vanishes h3, horz_vanishes h4⟩

theorem sinS_zero (w : Sm) (p : ℝ × ℝ) (h : w.1 p = 0) : (sinS w).1 p = 0 := by
  show Real.sin (w.1 p) = 0
  rw [h, Real.sin_zero]

theorem bubble_apply (p : ℝ × ℝ) : bubble.1 p = p.1 * (1 - p.1) * p.2 * (1 - p.2) := rfl

theorem c_apply (r : ℝ) (p : ℝ × ℝ) : (c r : Sm).1 p = r := rfl

theorem bubble_cos (r : ℝ) : ∀ t ∈ [1, 2, 3, 4],
    VanishesV unitSquare.side t (grad (cosS (c r * bubble))) := by
  have hs := sides_vanish (sinS (c r * bubble))
    (fun y => sinS_zero _ _ (by show r * bubble.1 _ = 0; simp [bubble_apply]))
    (fun y => sinS_zero _ _ (by show r * bubble.1 _ = 0; simp [bubble_apply]))
    (fun y => sinS_zero _ _ (by show r * bubble.1 _ = 0; simp [bubble_apply]))
    (fun y => sinS_zero _ _ (by show r * bubble.1 _ = 0; simp [bubble_apply]))
  intro t ht
  simp only [VanishesV, grad, dx_cosS, dy_cosS]
  exact ⟨((hs t ht).mul' _).neg, ((hs t ht).mul' _).neg⟩

theorem innerBubble_apply (p : ℝ × ℝ) :
    innerBubble.1 p = (p.1 - 1/4) * (p.1 - 3/4) * (p.2 - 1/4) * (p.2 - 3/4) := rfl

theorem innerBubble_cos (r : ℝ) : ∀ t ∈ [1, 2, 3, 4],
    VanishesV immersed.side t (grad (cosS (c r * innerBubble))) := by
  have hs := inner_vanish (sinS (c r * innerBubble))
    (fun y => sinS_zero _ _ (by show r * innerBubble.1 _ = 0; simp [innerBubble_apply]))
    (fun y => sinS_zero _ _ (by show r * innerBubble.1 _ = 0; simp [innerBubble_apply]))
    (fun y => sinS_zero _ _ (by show r * innerBubble.1 _ = 0; simp [innerBubble_apply]))
    (fun y => sinS_zero _ _ (by show r * innerBubble.1 _ = 0; simp [innerBubble_apply]))
  intro t ht
  simp only [VanishesV, grad, dx_cosS, dy_cosS]
  exact ⟨((hs t ht).mul' _).neg, ((hs t ht).mul' _).neg⟩

theorem dx_cross : dx cross = cosS (c Real.pi * (Y * (X - c (1/2)))) * (c Real.pi * Y) := by
  rw [cross, dx_sinS]
  simp [Derivation.leibniz, dx_X, dx_Y]

theorem lm_cross (k y : ℝ) :
    (TwoOneOne.lm k cross (- cross)).1 (1/2, y) = - (2 * k * Real.pi * y) := by
  have e : TwoOneOne.lm k cross (- cross) = - (c (2 * k) * dx cross) := by
    have h2 : (c (2 * k) : Sm) = c k + c k := by rw [c, ← map_add]; congr 1; ring
    simp only [TwoOneOne.lm, dot, grad, cvec, c, map_one, map_zero, map_neg, h2]
    ring
  rw [e, dx_cross]
  show - (2 * k * (Real.cos (Real.pi * (y * (1/2 - 1/2))) * (Real.pi * y))) = _
  simp; ring

theorem dx_wave : dx wave = c Real.pi := by
  simp [wave, Derivation.leibniz, dx_X, dx_Y]

theorem dy_wave : dy wave = - (c 2 * c Real.pi) := by
  simp [wave, Derivation.leibniz, dy_X, dy_Y]
  ring

theorem dxy_stream : dy (dx stream) = c 2 * c Real.pi * c Real.pi * sinS wave := by
  rw [stream, dx_sinS, dx_wave]
  simp only [Derivation.leibniz, Derivation.map_algebraMap, dy_cosS, dy_wave, smul_eq_mul]
  ring

theorem dxx_stream : dx (dx stream) = - (c Real.pi * c Real.pi * sinS wave) := by
  rw [stream, dx_sinS, dx_wave]
  simp only [Derivation.leibniz, Derivation.map_algebraMap, dx_cosS, dx_wave, smul_eq_mul]
  ring

theorem dyy_stream : dy (dy stream) = - (c 2 * c 2 * (c Real.pi * c Real.pi * sinS wave)) := by
  rw [stream, dy_sinS, dy_wave]
  simp only [Derivation.leibniz, map_neg, Derivation.map_algebraMap, dy_cosS, dy_wave, smul_eq_mul]
  ring

theorem wave_end (y : ℝ) (hy : y = 0 ∨ y = 1) : (sinS wave).1 (0, y) = 0 := by
  show Real.sin (Real.pi * (0 - 2 * y)) = 0
  rcases hy with rfl | rfl
  · simp
  · rw [show Real.pi * (0 - 2 * 1) = - (2 * Real.pi) by ring, Real.sin_neg, Real.sin_two_pi,
      neg_zero]

section
variable {A : Type} [CommRing A] [Algebra ℝ A] [Smooth A]

theorem lmN_eq (phi p : A) :
    Stokes.lmN (Stokes.velocity phi) p = - (c 2 * dy (dx phi)) + p := by
  simp [Stokes.lmN, Stokes.stress, Stokes.velocity, normals_eq.1, dot, cvec, mul, sym, gradV, grad,
    Smooth.comm]
  ring

theorem lmT_eq (phi p : A) :
    Stokes.lmT (Stokes.velocity phi) p = dx (dx phi) - dy (dy phi) := by
  have h : (c 2 : A) * c (1 / 2) = 1 := by rw [c, c, ← map_mul]; norm_num
  have h' : (c (2 * 1) : A) = c 2 := by norm_num
  simp only [Stokes.lmT, Stokes.stress, Stokes.velocity, normals_eq.1, dot, cvec, mul, sym, gradV,
    grad, rotateB, h', map_neg, c, map_one, map_zero] at h ⊢
  linear_combination (dx (dx phi) - dy (dy phi)) * h
end

theorem dx_heatU (t y : ℝ) : (dx (heatU t)).1 (0, y) = Real.pi * t * (y * y) := by
  have e : dx (heatU t) = cosS (c (Real.pi * t) * (X * (X * X + Y * Y))) *
      (c (Real.pi * t) * (X * (2 * X) + (X * X + Y * Y))) := by
    rw [heatU, dx_sinS]
    congr 1
    simp only [Derivation.leibniz, Derivation.map_algebraMap, map_add, dx_X, dx_Y, smul_eq_mul]
    ring
  rw [e]
  show Real.cos (Real.pi * t * (0 * (0 * 0 + y * y))) *
    (Real.pi * t * (0 * (2 * 0) + (0 * 0 + y * y))) = _
  simp

end Verif.Mms
