import Mathlib.Data.Real.Basic
import Mathlib.Algebra.Module.Submodule.Defs
import Mathlib.Algebra.Module.LinearMap.Defs

/-! # Discrete problems with exactly one solution for all right hand sides -/

namespace Verif.Nonsingular

/-- Whatever the right hand side, there is exactly one element of `S` which satisfies the equations
tested with all elements of `S`. -/
def Nonsingular {W : Type} [AddCommGroup W] [Module ℝ W] (S : Submodule ℝ W) (B : W → W → ℝ) : Prop :=
  ∀ F : W →ₗ[ℝ] ℝ, ∃! x, x ∈ S ∧ ∀ y ∈ S, B x y = F y

end Verif.Nonsingular
