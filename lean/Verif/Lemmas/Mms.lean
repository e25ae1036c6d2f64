import Verif.Model.Mms
import Mathlib.Tactic.Ring
import Mathlib.Tactic.LinearCombination
import Mathlib.Tactic.Linarith

/-! # Integration by parts for the weak equations of the demos -/

namespace Verif.Mms

variable {A : Type} [CommRing A] [Algebra ℝ A] [Smooth A]

omit [Smooth A] in
theorem dot_out1 (F : Vec A) : dot F (cvec (outward 1)) = - F.1 := by
  simp [dot, cvec, outward]

omit [Smooth A] in
theorem dot_out2 (F : Vec A) : dot F (cvec (outward 2)) = F.1 := by
  simp [dot, cvec, outward]

omit [Smooth A] in
theorem dot_out3 (F : Vec A) : dot F (cvec (outward 3)) = - F.2 := by
  simp [dot, cvec, outward]

omit [Smooth A] in
theorem dot_out4 (F : Vec A) : dot F (cvec (outward 4)) = F.2 := by
  simp [dot, cvec, outward]

theorem Square.green' (D : Square A) (F : Vec A) :
    D.vol (div F) = - D.side 1 F.1 + D.side 2 F.1 - D.side 3 F.2 + D.side 4 F.2 := by
  rw [D.green, dot_out1, dot_out2, dot_out3, dot_out4, map_neg, map_neg]; ring

theorem Immersed.greenI (D : Immersed A) (F : Vec A) :
    D.inner (div F) = - D.side 1 F.1 + D.side 2 F.1 - D.side 3 F.2 + D.side 4 F.2 := by
  rw [D.greenInner, dot_out1, dot_out2, dot_out3, dot_out4, map_neg, map_neg]; ring

theorem Immersed.greenO (D : Immersed A) (F : Vec A) :
    D.outer (div F) = - D.side 5 F.1 + D.side 6 F.1 - D.side 7 F.2 + D.side 8 F.2
      - (- D.side 1 F.1 + D.side 2 F.1 - D.side 3 F.2 + D.side 4 F.2) := by
  rw [D.greenOuter]
  simp only [dot_out1, dot_out2, dot_out3, dot_out4, map_neg]; ring

/-- the coefficients on the edges, explicitly -/
theorem normals_eq : normals 1 = (-1, 0) ∧ normals 2 = (1, 0) ∧ normals 3 = (0, -1) ∧
    normals 4 = (0, 1) := ⟨rfl, rfl, rfl, rfl⟩

theorem normalsI_eq : normalsI 1 = (1, 0) ∧ normalsI 2 = (-1, 0) ∧ normalsI 3 = (0, 1) ∧
    normalsI 4 = (0, -1) := ⟨rfl, rfl, rfl, rfl⟩

theorem normalsS_eq : normalsS 7 = (0, -1) ∧ normalsS 8 = (0, 1) := ⟨rfl, rfl⟩

/-- Integration by parts for a scalar. -/
theorem div_scale (v : A) (F : Vec A) : div (scale v F) = dot F (grad v) + div F * v := by
  simp only [div, scale, dot, grad, Derivation.leibniz, smul_eq_mul]; ring

/-- The vector `s v` for a matrix `s`: transposed product -/
def tmul (s : Ten A) (v : Vec A) : Vec A :=
  (s.1.1 * v.1 + s.2.1 * v.2, s.1.2 * v.1 + s.2.2 * v.2)

theorem div_tmul (s : Ten A) (v : Vec A) :
    div (tmul s v) = inner s (gradV v) + dot (divT s) v := by
  simp only [div, tmul, inner, dot, gradV, grad, divT, Derivation.leibniz, smul_eq_mul, map_add]
  ring

omit [Smooth A] in
theorem half_mul : (c (1 / 2) : A) * 2 = 1 := by
  have h : (2 : A) = c 2 := (map_ofNat (algebraMap ℝ A) 2).symm
  rw [h, c, c, ← map_mul]
  norm_num

omit [Smooth A] in
theorem inner_sym (s r : Ten A) : inner (sym s) (sym r) = inner (sym s) r := by
  have h := half_mul (A := A)
  simp only [inner, sym, dot]
  linear_combination (c (1 / 2) * (s.1.2 + s.2.1) * (r.1.2 + r.2.1)) * h

theorem stokes_bulk (vol : A →ₗ[ℝ] ℝ) (mu : ℝ) (u : Vec A) (p : A) (v : Vec A) :
    Stokes.bulk vol mu u p v =
      vol (div (tmul (Stokes.stress mu u p) v)) + vol (dot (Stokes.force mu u p) v) := by
  rw [div_tmul, Stokes.bulk, inner_sym, ← map_add, ← map_add]
  congr 1
  simp only [Stokes.force, Stokes.stress, inner, dot, div, gradV, grad]
  ring

theorem stress_symm (mu : ℝ) (u : Vec A) (p : A) :
    (Stokes.stress mu u p).1.2 = (Stokes.stress mu u p).2.1 := by
  simp [Stokes.stress, sym, add_comm]

theorem velocity_div (phi : A) : div (Stokes.velocity phi) = 0 := by
  simp [Stokes.velocity, div, Smooth.comm]

omit [Smooth A] in
theorem Vanishes.add {side : ℕ → A →ₗ[ℝ] ℝ} {t : ℕ} {f g : A} (hf : Vanishes side t f)
    (hg : Vanishes side t g) : Vanishes side t (f + g) := by
  intro w; rw [mul_add, map_add, hf, hg, add_zero]

omit [Smooth A] in
theorem Vanishes.mul {side : ℕ → A →ₗ[ℝ] ℝ} {t : ℕ} {f : A} (hf : Vanishes side t f) (g : A) :
    Vanishes side t (g * f) := by
  intro w; rw [← mul_assoc]; exact hf _

omit [Smooth A] in
theorem Vanishes.mul' {side : ℕ → A →ₗ[ℝ] ℝ} {t : ℕ} {f : A} (hf : Vanishes side t f) (g : A) :
    Vanishes side t (f * g) := by
  rw [mul_comm]; exact hf.mul g

omit [Smooth A] in
theorem Vanishes.eq_zero {side : ℕ → A →ₗ[ℝ] ℝ} {t : ℕ} {f : A} (hf : Vanishes side t f) :
    side t f = 0 := by simpa using hf 1

omit [Smooth A] in
theorem Vanishes.neg {side : ℕ → A →ₗ[ℝ] ℝ} {t : ℕ} {f : A} (hf : Vanishes side t f) :
    Vanishes side t (- f) := by
  intro w; rw [mul_neg, map_neg, hf, neg_zero]

theorem VanishesV.const {side : ℕ → A →ₗ[ℝ] ℝ} {t : ℕ} {u : A} (r : ℝ)
    (h : VanishesV side t (grad u)) : VanishesV side t (grad (c r * u)) := by
  have e (D : Derivation ℝ A A) : D (c r * u) = c r * D u := by
    rw [Derivation.leibniz, c, Derivation.map_algebraMap, smul_zero, add_zero, smul_eq_mul]
  simp only [VanishesV, grad, e] at h ⊢
  exact ⟨h.1.mul _, h.2.mul _⟩

theorem traction_vanishes {side : ℕ → A →ₗ[ℝ] ℝ} (mu lmbda : ℝ) (u v : Vec A) (t : ℕ)
    (h : VanishesV side t (grad u.1) ∧ VanishesV side t (grad u.2)) :
    side t (tmul (Elasticity.stress mu lmbda u) v).1 = 0 ∧
      side t (tmul (Elasticity.stress mu lmbda u) v).2 = 0 := by
  obtain ⟨⟨h1, h2⟩, h3, h4⟩ := h
  simp only [grad] at h1 h2 h3 h4
  have hd : Vanishes side t (div u) := h1.add h4
  exact ⟨((((h1.mul _).add (hd.mul _)).mul' _).add ((((h3.add h2).mul _).mul _).mul' _)).eq_zero,
    (((((h2.add h3).mul _).mul _).mul' _).add (((h4.mul _).add (hd.mul _)).mul' _)).eq_zero⟩

theorem inner_stress_sym (mu lmbda : ℝ) (u : Vec A) (r : Ten A) :
    inner (Elasticity.stress mu lmbda u) (sym r) = inner (Elasticity.stress mu lmbda u) r := by
  have h := half_mul (A := A)
  simp only [Elasticity.stress, inner, sym, dot, gradV, grad]
  linear_combination (c (2 * mu) * c (1 / 2) * (dy u.1 + dx u.2) * (r.1.2 + r.2.1)) * h

end Verif.Mms
