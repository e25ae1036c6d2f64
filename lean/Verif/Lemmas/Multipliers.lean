import Verif.Lemmas.Solvable
import Mathlib.Tactic.FieldSimp
import Mathlib.Tactic.Positivity

/-! # Existence of multipliers -/

namespace Verif.Multipliers

theorem linear_zero {s k : ℝ} (h : ∀ t : ℝ, 0 ≤ t * s + t ^ 2 * k) : s = 0 := by
  by_contra hs
  have hk : 0 < |k| + 1 := by positivity
  have h1 := h (-(s / (|k| + 1)))
  have h2 : (-(s / (|k| + 1))) ^ 2 * k ≤ (s / (|k| + 1)) ^ 2 * |k| := by
    rw [neg_sq]
    exact mul_le_mul_of_nonneg_left (le_abs_self k) (sq_nonneg _)
  have h3 : -(s / (|k| + 1)) * s + (s / (|k| + 1)) ^ 2 * |k| = - (s / (|k| + 1)) ^ 2 := by
    field_simp
    ring
  have h4 : 0 < (s / (|k| + 1)) ^ 2 := by positivity
  linarith

variable {W M : Type} [AddCommGroup W] [Module ℝ W] [AddCommGroup M] [Module ℝ M]

/-- A functional which is zero where the constraints are is a combination of them. -/
theorem exists_multiplier [FiniteDimensional ℝ M] (b : W →ₗ[ℝ] M →ₗ[ℝ] ℝ) (s : W →ₗ[ℝ] ℝ)
    (h : ∀ w, (∀ q, b w q = 0) → s w = 0) : ∃ p, ∀ w, s w = b w p := by
  have hs : s ∈ (LinearMap.ker b).dualAnnihilator := by
    rw [Submodule.mem_dualAnnihilator]
    intro w hw
    exact h w fun q => by rw [LinearMap.mem_ker.1 hw]; rfl
  rw [← LinearMap.range_dualMap_eq_dualAnnihilator_ker] at hs
  obtain ⟨e, rfl⟩ := hs
  refine ⟨(Module.evalEquiv ℝ M).symm e, fun w => ?_⟩
  have : e = Module.evalEquiv ℝ M ((Module.evalEquiv ℝ M).symm e) := (LinearEquiv.apply_symm_apply _ e).symm
  show e (b w) = _
  rw [this]
  simp

/-- The condition of first order: `s` and `k` are the slope and curvature at the minimiser. -/
theorem first_order [FiniteDimensional ℝ M] (b : W →ₗ[ℝ] M →ₗ[ℝ] ℝ) (s : W →ₗ[ℝ] ℝ) (k : W → ℝ)
    (h : ∀ w, (∀ q, b w q = 0) → ∀ t : ℝ, 0 ≤ t * s w + t ^ 2 * k w) : ∃ p, ∀ w, s w + b w p = 0 := by
  obtain ⟨p, hp⟩ := exists_multiplier b s fun w hw => linear_zero (h w hw)
  exact ⟨-p, fun w => by rw [map_neg, hp]; ring⟩

/-- A functional which is zero on the kernel of a symmetric form is represented by it. -/
theorem exists_of_symm [FiniteDimensional ℝ W] (a : W →ₗ[ℝ] W →ₗ[ℝ] ℝ) (symm : ∀ x y, a x y = a y x)
    (F : W →ₗ[ℝ] ℝ) (h : ∀ w, (∀ q, a w q = 0) → F w = 0) : ∃ x, ∀ y, a x y = F y := by
  obtain ⟨x, hx⟩ := exists_multiplier a F h
  exact ⟨x, fun y => by rw [hx, symm]⟩

/-- Elements without energy are orthogonal to all others. -/
theorem energy_zero {a : W →ₗ[ℝ] W →ₗ[ℝ] ℝ} (h : Verif.Apps.Energy a) {w : W} (hw : a w w = 0) (v : W) :
    a w v = 0 := by
  have : 2 * a w v = 0 := linear_zero (k := a v v) fun t => by
    have := h.nonneg (w + t • v)
    simp only [map_add, map_smul, LinearMap.add_apply, LinearMap.smul_apply, smul_eq_mul, hw,
      h.symm v w] at this
    linarith
  linarith

/-- A saddle point problem has a solution if its constraints can be met and there is no load on
elements without energy. -/
theorem exists_saddle [FiniteDimensional ℝ W] [FiniteDimensional ℝ M] (a : W →ₗ[ℝ] W →ₗ[ℝ] ℝ)
    (b : W →ₗ[ℝ] M →ₗ[ℝ] ℝ) (ha : Verif.Apps.Energy a) (F : W →ₗ[ℝ] ℝ)
    (hF : ∀ w, a w w = 0 → (∀ q, b w q = 0) → F w = 0) (G : M →ₗ[ℝ] ℝ) (w0 : W)
    (h0 : ∀ q, b w0 q = G q) : ∃ x, Solvable.Saddle a b F G x := by
  let B : (W × M) →ₗ[ℝ] (W × M) →ₗ[ℝ] ℝ :=
    LinearMap.mk₂ ℝ (fun x y => a x.1 y.1 + b y.1 x.2 + b x.1 y.2)
      (fun x x' y => by simp only [Prod.fst_add, Prod.snd_add, map_add, LinearMap.add_apply]; ring)
      (fun c x y => by
        simp only [Prod.smul_fst, Prod.smul_snd, map_smul, LinearMap.smul_apply, smul_eq_mul]; ring)
      (fun x y y' => by simp only [Prod.fst_add, Prod.snd_add, map_add, LinearMap.add_apply]; ring)
      (fun c x y => by
        simp only [Prod.smul_fst, Prod.smul_snd, map_smul, LinearMap.smul_apply, smul_eq_mul]; ring)
  have eB : ∀ x y, B x y = a x.1 y.1 + b y.1 x.2 + b x.1 y.2 := fun _ _ => rfl
  obtain ⟨x, hx⟩ := exists_of_symm B (fun x y => by
    rw [eB, eB, ha.symm x.1 y.1]; ring) (F.coprod G) (fun x hx => by
    have h1 : ∀ q, b x.1 q = 0 := fun q => by
      have := hx (0, q)
      rw [eB] at this
      simpa using this
    have h2 : a x.1 x.1 = 0 := by
      have := hx (x.1, 0)
      rw [eB] at this
      simpa [h1] using this
    have h3 : b w0 x.2 = 0 := by
      have := hx (w0, 0)
      rw [eB] at this
      simpa [energy_zero ha h2] using this
    show F x.1 + G x.2 = 0
    rw [hF _ h2 h1, ← h0, h3, add_zero])
  refine ⟨x, fun v => ?_, fun q => ?_⟩
  · have : a x.1 v + b v x.2 + b x.1 (0 : M) = F v + G 0 := hx (v, 0)
    simpa using this
  · have : a x.1 (0 : W) + b (0 : W) x.2 + b x.1 q = F 0 + G q := hx (0, q)
    simpa using this

end Verif.Multipliers
