import Mathlib.LinearAlgebra.BilinearMap
import Mathlib.Data.Real.Basic
import Verif.Spec.Minimise

/-!
# Projections and coupled functions

The spaces of functions on the domains of different dimensions are real vector spaces, integrals of
products are bilinear forms.
-/

namespace Verif.Apps

variable {X Y : Type} [AddCommGroup X] [Module ℝ X] [AddCommGroup Y] [Module ℝ Y]

/-- Integrals of products do not depend on the order and those of squares are positive. -/
structure Inner (m : Y →ₗ[ℝ] Y →ₗ[ℝ] ℝ) : Prop where
  symm : ∀ y z, m y z = m z y
  pos : ∀ y, y ≠ 0 → 0 < m y y

/-- `w` is the projection of `y` to `Q`. -/
def IsProj (m : Y →ₗ[ℝ] Y →ₗ[ℝ] ℝ) (Q : Submodule ℝ Y) (y w : Y) : Prop :=
  w ∈ Q ∧ ∀ q ∈ Q, m w q = m y q

/-- Integrals of the products of gradients do not depend on the order and those of squares are not
negative. -/
structure Energy (e : X →ₗ[ℝ] X →ₗ[ℝ] ℝ) : Prop where
  symm : ∀ u v, e u v = e v u
  nonneg : ∀ u, 0 ≤ e u u

variable {Z : Type} [AddCommGroup Z] [Module ℝ Z]

/-- Triples of functions on the volume, the surface and the curve, where the difference of the first
two vanishes on the surface and that of the last two is `f` on the curve, as far as the multipliers
can tell. -/
def Nest (mS : Y →ₗ[ℝ] Y →ₗ[ℝ] ℝ) (mG : Z →ₗ[ℝ] Z →ₗ[ℝ] ℝ) (tS : X →ₗ[ℝ] Y) (tG : Y →ₗ[ℝ] Z)
    (V3 : Submodule ℝ X) (V2 Q2 : Submodule ℝ Y) (V1 Q1 : Submodule ℝ Z) (f : Z) :
    Set (X × Y × Z) :=
  {x | x.1 ∈ V3 ∧ x.2.1 ∈ V2 ∧ x.2.2 ∈ V1 ∧ (∀ q ∈ Q2, mS q (tS x.1 - x.2.1) = 0) ∧
    ∀ q ∈ Q1, mG q (tG x.2.1 - x.2.2) = mG q f}

/-- Half the sum of the squares of the norms of the gradients. -/
noncomputable def nestEnergy (e3 : X →ₗ[ℝ] X →ₗ[ℝ] ℝ) (e2 : Y →ₗ[ℝ] Y →ₗ[ℝ] ℝ)
    (e1 : Z →ₗ[ℝ] Z →ₗ[ℝ] ℝ) (x : X × Y × Z) : ℝ :=
  1 / 2 * (e3 x.1 x.1 + e2 x.2.1 x.2.1 + e1 x.2.2 x.2.2)

end Verif.Apps
