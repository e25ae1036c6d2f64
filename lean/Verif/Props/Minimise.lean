import Verif.Lemmas.Minimise
import Verif.Lemmas.MmsSmooth

/-!
# The discrete solutions of some demos are constrained minimisers

`V`, `Q`, `B`, ... are the finite element spaces, arbitrary subspaces here.
-/

namespace Verif.Minimise
open Verif.Mms

variable {A : Type} [CommRing A] [Algebra ℝ A] [Smooth A]

/-! ### demo/optim_control_L2.py -/

/-- demo/optim_control_L2.py: a solution of the block system is the best control and state in the
spaces of the demo, and how much worse another one is. -/
theorem optim_minimises (vol bdry : A →ₗ[ℝ] ℝ) (hv : SqNonneg vol) (hb : SqNonneg bdry) (eps : ℝ)
    (he : 0 ≤ eps) (f : A) (Q V B : Submodule ℝ A) {p u l : A} (hp : p ∈ Q) (hu : u ∈ V) (hl : l ∈ B)
    (h0 : ∀ q ∈ Q, Optim.row0 vol eps p l q = 0)
    (h1 : ∀ v ∈ V, Optim.row1 vol bdry u l v = Optim.rhs1 bdry f v)
    (h2 : ∀ b ∈ B, Optim.row2 vol p u b = 0) :
    Minimises (Controlled vol Q V B) (controlCost vol bdry eps f) (p, u) ∧
      ∀ y ∈ Controlled vol Q V B, controlCost vol bdry eps f y =
        controlCost vol bdry eps f (p, u) + 1 / 2 * bdry ((y.2 - u) * (y.2 - u))
          + eps / 2 * vol ((y.1 - p) * (y.1 - p)) := by
  have hx : (p, u) ∈ Controlled vol Q V B := ⟨hp, hu, fun b hb => by
    have := h2 b hb
    rw [Optim.row2] at this
    show vol (dot (grad u) (grad b)) + vol (u * b) = - vol (p * b)
    linarith⟩
  have gap : ∀ y ∈ Controlled vol Q V B, controlCost vol bdry eps f y =
      controlCost vol bdry eps f (p, u) + 1 / 2 * bdry ((y.2 - u) * (y.2 - u))
        + eps / 2 * vol ((y.1 - p) * (y.1 - p)) := by
    rintro ⟨p', u'⟩ ⟨hp', hu', hs'⟩
    obtain ⟨r, rfl⟩ : ∃ r, p' = p + r := ⟨p' - p, by ring⟩
    obtain ⟨w, rfl⟩ : ∃ w, u' = u + w := ⟨u' - u, by ring⟩
    have hr : r ∈ Q := by have := Q.sub_mem hp' hp; rwa [add_sub_cancel_left] at this
    have hw : w ∈ V := by have := V.sub_mem hu' hu; rwa [add_sub_cancel_left] at this
    have e0 := h0 r hr
    have e1 := h1 w hw
    have e2 := hs' l hl
    have e3 := hx.2.2 l hl
    simp only [Optim.row0, Optim.row1, Optim.rhs1, vol_c, vol_dot, map_add, add_mul] at e0 e1 e2 e3
    have a : u + w - f = (u - f) + w := by ring
    simp only [controlCost, a, vol_sq_add, add_sub_cancel_left]
    rw [sub_mul u f w, map_sub, mul_comm f w]
    simp only [mul_comm (dx w), mul_comm (dy w), mul_comm w l, mul_comm r l] at e0 e1 e2 e3 ⊢
    linarith
  refine ⟨⟨hx, fun y hy => ?_⟩, gap⟩
  rw [gap y hy]
  have := hb (y.2 - u)
  have := mul_nonneg he (hv (y.1 - p))
  linarith

/-! ### demo/layer_2d.py -/

/-- demo/layer_2d.py: a solution of the block system minimises the energy subject to the constraint,
and how much more energy other functions have. -/
theorem layer_minimises (vol1 vol2 volO : A →ₗ[ℝ] ℝ) (hv1 : SqNonneg vol1) (hv2 : SqNonneg vol2)
    (k1 k2 : ℝ) (hk1 : 0 ≤ k1) (hk2 : 0 ≤ k2) (f1 f2 g : A) (V1 V2 Q : Submodule ℝ A) {u1 u2 p : A}
    (hu1 : u1 ∈ V1) (hu2 : u2 ∈ V2) (hp : p ∈ Q)
    (h0 : ∀ v ∈ V1, Layer.row0 vol1 volO k1 u1 p v = Layer.rhs vol1 f1 v)
    (h1 : ∀ v ∈ V2, Layer.row1 vol2 volO k2 u2 p v = Layer.rhs vol2 f2 v)
    (h2 : ∀ q ∈ Q, Layer.row2 volO u1 u2 q = Layer.rhs2 volO g q) :
    Minimises (Coupled volO V1 V2 Q g) (layerEnergy vol1 vol2 k1 k2 f1 f2) (u1, u2) ∧
      ∀ y ∈ Coupled volO V1 V2 Q g, layerEnergy vol1 vol2 k1 k2 f1 f2 y =
        layerEnergy vol1 vol2 k1 k2 f1 f2 (u1, u2) + 1 / 2 * normSq vol1 k1 (y.1 - u1)
          + 1 / 2 * normSq vol2 k2 (y.2 - u2) := by
  have hx : (u1, u2) ∈ Coupled volO V1 V2 Q g := ⟨hu1, hu2, fun q hq => by
    have := h2 q hq
    rw [Layer.row2, Layer.rhs2] at this
    show volO ((u1 - u2) * q) = _
    rw [sub_mul, map_sub, this]⟩
  have gap : ∀ y ∈ Coupled volO V1 V2 Q g, layerEnergy vol1 vol2 k1 k2 f1 f2 y =
      layerEnergy vol1 vol2 k1 k2 f1 f2 (u1, u2) + 1 / 2 * normSq vol1 k1 (y.1 - u1)
        + 1 / 2 * normSq vol2 k2 (y.2 - u2) := by
    rintro ⟨y1, y2⟩ ⟨hy1, hy2, hs⟩
    obtain ⟨r, rfl⟩ : ∃ r, y1 = u1 + r := ⟨y1 - u1, by ring⟩
    obtain ⟨w, rfl⟩ : ∃ w, y2 = u2 + w := ⟨y2 - u2, by ring⟩
    have hr : r ∈ V1 := by have := V1.sub_mem hy1 hu1; rwa [add_sub_cancel_left] at this
    have hw : w ∈ V2 := by have := V2.sub_mem hy2 hu2; rwa [add_sub_cancel_left] at this
    have e0 := h0 r hr
    have e1 := h1 w hw
    have e2 := hs p hp
    have e3 := hx.2.2 p hp
    simp only [Layer.row0, Layer.row1, Layer.rhs, sub_mul, add_mul, map_sub, map_add] at e0 e1 e2 e3
    simp only [layerEnergy, normSq_add, add_sub_cancel_left, mul_add, map_add]
    linarith
  refine ⟨⟨hx, fun y hy => ?_⟩, gap⟩
  rw [gap y hy]
  have := normSq_nonneg hv1 hk1 (y.1 - u1)
  have := normSq_nonneg hv2 hk2 (y.2 - u2)
  linarith

/-! ### demo/poisson_babuska.py -/

/-- demo/poisson_babuska.py (where `d` is zero) and demo/poisson_babuska_3d.py: a solution of the
block system minimises the energy among the functions with the prescribed boundary values, and how
much more energy the others have. -/
theorem babuska_minimises (vol bdry : A →ₗ[ℝ] ℝ) (hv : SqNonneg vol) (f d g : A)
    (V Q : Submodule ℝ A) {u p : A} (hu : u - d ∈ V) (hp : p ∈ Q)
    (h0 : ∀ v ∈ V, Babuska.row0 vol bdry u p v = Babuska.rhs0 vol f v)
    (h1 : ∀ q ∈ Q, Babuska.row1 bdry u q = Babuska.rhs1 bdry g q) :
    Minimises (Prescribed bdry V Q d g) (energy vol f) u ∧
      ∀ y ∈ Prescribed bdry V Q d g, energy vol f y = energy vol f u + 1 / 2 * normSq vol 1 (y - u) := by
  have hx : u ∈ Prescribed bdry V Q d g := ⟨hu, h1⟩
  have gap : ∀ y ∈ Prescribed bdry V Q d g,
      energy vol f y = energy vol f u + 1 / 2 * normSq vol 1 (y - u) := by
    rintro y ⟨hy, hs⟩
    obtain ⟨w, rfl⟩ : ∃ w, y = u + w := ⟨y - u, by ring⟩
    have hw : w ∈ V := by
      have := V.sub_mem hy hu
      rwa [show u + w - d - (u - d) = w by ring] at this
    have e0 := h0 w hw
    have e1 := hs p hp
    have e2 := hx.2 p hp
    simp only [Babuska.row0, Babuska.rhs0, add_mul, map_add] at e0 e1 e2
    simp only [energy, normSq_add, add_sub_cancel_left, mul_add, map_add, vol_c]
    linarith
  refine ⟨⟨hx, fun y hy => ?_⟩, gap⟩
  rw [gap y hy]
  have := normSq_nonneg hv zero_le_one (y - u)
  linarith

/-! ### demo/time_dep.py -/

/-- demo/time_dep.py: each step minimises the energy among the functions with the prescribed
boundary values; `d` has those of line 39. -/
theorem heat_step_minimises (vol bdry : A →ₗ[ℝ] ℝ) (hv : SqNonneg vol) (dt : ℝ) (hdt : 0 < dt)
    (u0 f d g : A) (V Q : Submodule ℝ A) {u p : A} (hu : u - d ∈ V) (hp : p ∈ Q)
    (h0 : ∀ v ∈ V, Heat.row0 vol bdry dt u p v = Heat.rhs0 vol dt u0 f v)
    (h1 : ∀ q ∈ Q, Babuska.row1 bdry u q = Babuska.rhs1 bdry g q) :
    Minimises (Prescribed bdry V Q d g) (stepEnergy vol dt u0 f) u := by
  refine ⟨⟨hu, h1⟩, ?_⟩
  rintro y ⟨hy, hs⟩
  obtain ⟨w, rfl⟩ : ∃ w, y = u + w := ⟨y - u, by ring⟩
  have hw : w ∈ V := by
    have := V.sub_mem hy hu
    rwa [show u + w - d - (u - d) = w by ring] at this
  have e0 := h0 w hw
  have e1 := hs p hp
  have e2 : bdry (u * p) = bdry (g * p) := h1 p hp
  simp only [Heat.row0, Heat.rhs0, add_mul, map_add, vol_c, vol_dot, mul_comm p] at e0 e1 e2
  have a : u + w - u0 = (u - u0) + w := by ring
  have b : 1 / (2 * dt) = 1 / 2 * (1 / dt) := by ring
  rw [stepEnergy, stepEnergy, map_add dx, map_add dy, a, vol_sq_add, vol_sq_add, vol_sq_add,
    mul_add f, map_add, sub_mul u u0 w, map_sub, b]
  have p1 := hv (dx w)
  have p2 := hv (dy w)
  have p3 := mul_nonneg (one_div_nonneg.2 hdt.le) (hv w)
  linarith

/-! ### The header of demo/optim_control_L2.py -/

/-- The constant functions. -/
def constants : Smooth ℝ := ⟨0, 0, fun _ => rfl⟩

theorem constants_dot (u v : ℝ) :
    letI := constants
    dot (grad u) (grad v) = 0 := by
  letI := constants
  show (0 : ℝ) * 0 + 0 * 0 = 0
  norm_num

/-- The solution of the block system is in general not the minimiser of the objective in the header
with `alpha = eps`, already among constant functions on the unit square, whose boundary has
length 4. -/
theorem optim_header_wrong :
    letI := constants
    ∃ p u l : ℝ, (∀ q, Optim.row0 LinearMap.id 4 p l q = 0) ∧
      (∀ v, Optim.row1 LinearMap.id ((4 : ℝ) • LinearMap.id) u l v =
        Optim.rhs1 ((4 : ℝ) • LinearMap.id) 1 v) ∧
      (∀ b, Optim.row2 LinearMap.id p u b = 0) ∧
      ¬ Minimises (Controlled LinearMap.id ⊤ ⊤ ⊤)
        (headerCost LinearMap.id ((4 : ℝ) • LinearMap.id) 4 1) (p, u) := by
  letI := constants
  refine ⟨-1/2, 1/2, 2, fun q => ?_, fun v => ?_, fun b => ?_, fun h => ?_⟩
  · simp [Optim.row0, c]; ring
  · simp only [Optim.row1, Optim.rhs1, constants_dot]
    simp; ring
  · simp only [Optim.row2, constants_dot]
    simp; ring
  · have := h.2 (-2/3, 2/3) ⟨trivial, trivial, fun b _ => by
      simp only [constants_dot]
      simp; ring⟩
    norm_num [headerCost] at this

/-! ### The hypotheses can be met -/

-- constants on the unit square and on both halves of an overlap
example : letI := constants
    SqNonneg (LinearMap.id : ℝ →ₗ[ℝ] ℝ) ∧ SqNonneg ((4 : ℝ) • LinearMap.id : ℝ →ₗ[ℝ] ℝ) ∧
      (∀ v, Layer.row0 LinearMap.id LinearMap.id 5 2 (-1) v = Layer.rhs LinearMap.id 1 v) ∧
      (∀ v, Layer.row1 LinearMap.id LinearMap.id 1 (-1) (-1) v = Layer.rhs LinearMap.id 0 v) ∧
      (∀ q, Layer.row2 LinearMap.id 2 (-1) q = Layer.rhs2 LinearMap.id 3 q) ∧
      (∀ v, Babuska.row0 LinearMap.id ((4 : ℝ) • LinearMap.id) 3 (-1/2) v =
        Babuska.rhs0 LinearMap.id 1 v) ∧
      (∀ v, Heat.row0 LinearMap.id ((4 : ℝ) • LinearMap.id) (1/10) 3 (-19/4) v =
        Heat.rhs0 LinearMap.id (1/10) 1 1 v) ∧
      ∀ q, Babuska.row1 ((4 : ℝ) • LinearMap.id) 3 q =
        Babuska.rhs1 ((4 : ℝ) • LinearMap.id) 3 q := by
  letI := constants
  refine ⟨fun f => mul_self_nonneg f, fun f => ?_, ?_, ?_, ?_, ?_, ?_, ?_⟩
  · simp [mul_self_nonneg]
  all_goals
    intro v
    simp only [Layer.row0, Layer.row1, Layer.row2, Layer.rhs, Layer.rhs2, Babuska.row0, Babuska.rhs0,
      Babuska.row1, Babuska.rhs1, Heat.row0, Heat.rhs0, constants_dot]
    try simp [c]
    try ring

-- smooth functions with the integral over the unit square
example : SqNonneg unitSquare.vol := fun _ =>
  intervalIntegral.integral_nonneg zero_le_one fun _ _ =>
    intervalIntegral.integral_nonneg zero_le_one fun _ _ => mul_self_nonneg _

end Verif.Minimise
