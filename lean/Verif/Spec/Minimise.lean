import Verif.Spec.Mms
import Mathlib.Data.Set.Basic
import Mathlib.Algebra.Module.Submodule.Defs

/-!
# Constrained minimisation

Functions, their derivatives and integrals are those of `Verif.Spec.Mms`; discrete functions need not
be smooth, so nothing is assumed of the integrals but that those of squares are not negative.
-/

namespace Verif.Minimise
open Verif.Mms

/-- `x` minimises `J` among the elements of `S`. -/
def Minimises {X : Type} (S : Set X) (J : X → ℝ) (x : X) : Prop := x ∈ S ∧ ∀ y ∈ S, J x ≤ J y

variable {A : Type} [CommRing A] [Algebra ℝ A]

/-- The integral of a square is not negative. -/
def SqNonneg (vol : A →ₗ[ℝ] ℝ) : Prop := ∀ f, 0 ≤ vol (f * f)

variable [Smooth A]

/-- The square of the norm with weight `k` of the gradient. -/
def normSq (vol : A →ₗ[ℝ] ℝ) (k : ℝ) (u : A) : ℝ :=
  k * (vol (dx u * dx u) + vol (dy u * dy u)) + vol (u * u)

/-- The objective: distance of the trace from the data and cost of the control. -/
noncomputable def controlCost (vol bdry : A →ₗ[ℝ] ℝ) (eps : ℝ) (f : A) (x : A × A) : ℝ :=
  1 / 2 * bdry ((x.2 - f) * (x.2 - f)) + eps / 2 * vol (x.1 * x.1)

/-- Pairs of a control and a state which satisfy the discrete state equation, the weak form of
`-Δu + u + p = 0` with zero flux on the boundary. -/
def Controlled (vol : A →ₗ[ℝ] ℝ) (Q V B : Submodule ℝ A) : Set (A × A) :=
  {x | x.1 ∈ Q ∧ x.2 ∈ V ∧ ∀ b ∈ B, vol (dot (grad x.2) (grad b)) + vol (x.2 * b) = - vol (x.1 * b)}

/-- The energy in the header of demo/layer_2d.py, with the weights of line 37. -/
noncomputable def layerEnergy (vol1 vol2 : A →ₗ[ℝ] ℝ) (k1 k2 : ℝ) (f1 f2 : A) (x : A × A) : ℝ :=
  1 / 2 * normSq vol1 k1 x.1 + 1 / 2 * normSq vol2 k2 x.2 - vol1 (f1 * x.1) - vol2 (f2 * x.2)

/-- Pairs which differ by `g` on the overlap, as far as the multipliers can tell. -/
def Coupled (volO : A →ₗ[ℝ] ℝ) (V1 V2 Q : Submodule ℝ A) (g : A) : Set (A × A) :=
  {x | x.1 ∈ V1 ∧ x.2 ∈ V2 ∧ ∀ q ∈ Q, volO ((x.1 - x.2) * q) = volO (g * q)}

/-- The energy of `-Δu + u = f`. -/
noncomputable def energy (vol : A →ₗ[ℝ] ℝ) (f u : A) : ℝ := 1 / 2 * normSq vol 1 u - vol (f * u)

/-- Functions which differ from `d` by an element of `V` (the functions which are zero where values
are prescribed by `DirichletBC`) and agree with `g` on the rest of the boundary, as far as the
multipliers can tell. -/
def Prescribed (bdry : A →ₗ[ℝ] ℝ) (V Q : Submodule ℝ A) (d g : A) : Set A :=
  {u | u - d ∈ V ∧ ∀ q ∈ Q, bdry (u * q) = bdry (g * q)}

/-- The energy which a step of the backward Euler method minimises. -/
noncomputable def stepEnergy (vol : A →ₗ[ℝ] ℝ) (dt : ℝ) (u0 f u : A) : ℝ :=
  1 / 2 * (vol (dx u * dx u) + vol (dy u * dy u)) + 1 / (2 * dt) * vol ((u - u0) * (u - u0))
    - vol (f * u)

/-- The objective in demo/optim_control_L2.py:1: the first term has no factor 1/2. -/
noncomputable def headerCost (vol bdry : A →ₗ[ℝ] ℝ) (alpha : ℝ) (f : A) (x : A × A) : ℝ :=
  bdry ((x.2 - f) * (x.2 - f)) + alpha / 2 * vol (x.1 * x.1)

end Verif.Minimise
