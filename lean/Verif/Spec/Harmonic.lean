import Verif.Model.Harmonic
import Mathlib.LinearAlgebra.Matrix.NonsingularInverse
/-!
# What the harmonic extension is
-/
namespace Verif.Harmonic
open Verif Matrix
variable {K : Type} [CommRing K] {n t v x q : Nat}

/-- The linear solver solves regular systems. -/
def SolvesRegular (solve : Solver K) : Prop :=
  ∀ (k : Nat) (A : Matrix (Fin k) (Fin k) K) (b : Fin k → K), IsUnit A.det →
    ∃ y, solve k A b = .ok y ∧ A *ᵥ y = b

/-- The load of `f`: the integral over the curve of `f` times the trace of each basis function. -/
def load (F : Forms K n t v x q) (f : Fin v → K) : Fin n → K := F.traceCurveᵀ *ᵥ (F.curve *ᵥ f)

/-- `w` is the projection to `EV` of the trace of `u` on the extended mesh. -/
def IsTraceOf (F : Forms K n t v x q) (w : Fin q → K) (u : Fin n → K) : Prop :=
  F.extMass *ᵥ w = F.ext *ᵥ (F.traceExt *ᵥ u)

/-- `u` solves the problem `u - Delta u = delta f` with natural boundary conditions. -/
def SolvesScreened (F : Forms K n t v x q) (f : Fin v → K) (u : Fin n → K) : Prop :=
  F.stiffness *ᵥ u + F.mass *ᵥ u = load F f

/-- `u` solves the documented problem: `- Delta u = delta f` with `u = 0` at the degrees of freedom `dirichlet` of
    the marked facets. -/
def SolvesDocumented (F : Forms K n t v x q) (dirichlet : Fin n → Prop) (f : Fin v → K) (u : Fin n → K) : Prop :=
  (∀ i, dirichlet i → u i = 0) ∧ ∀ i, ¬ dirichlet i → (F.stiffness *ᵥ u) i = load F f i

end Verif.Harmonic
