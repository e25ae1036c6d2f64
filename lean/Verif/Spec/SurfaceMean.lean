import Verif.Spec.DofMat
import Mathlib.Algebra.Field.Defs
/-!
# What a mean over a surface is
-/
namespace Verif.SurfaceMean
open Verif Verif.DofMat Finset
variable {K X : Type}

/-- Integrals over cells are linear. -/
structure LinearIntegral [CommRing K] (int : Nat → (X → K) → K) : Prop where
  add : ∀ t f g, int t (fun x => f x + g x) = int t f + int t g
  smul : ∀ t a f, int t (fun x => a * f x) = a * int t f

/-- The integral over the cell `t` of a function is that of its interpolant in the space. -/
def Reproduces [CommRing K] (TV : Space K X) (int : Nat → (X → K) → K) (t : Nat) (f : X → K) : Prop :=
  int t (fun x => ∑ l ∈ range TV.spaceDim, TV.dofs t l f * TV.basis t l x) = int t f

/-- The area of a surface with `n` cells. -/
def area [AddCommMonoid K] (n : Nat) (vol : Nat → K) : K := ∑ t ∈ range n, vol t

/-- The mean over a surface with `n` cells of the function which is `f t` on the cell `t`. -/
def mean [Field K] (n : Nat) (int : Nat → (X → K) → K) (vol : Nat → K) (f : Nat → X → K) : K :=
  (∑ t ∈ range n, int t (f t)) / area n vol

end Verif.SurfaceMean
