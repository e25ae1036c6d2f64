import Verif.Model.PointTrace
import Verif.Spec.Average
/-!
# Point values, directional derivatives and fluxes
-/
namespace Verif.PointTrace
open Verif Verif.DofMat Verif.Average Finset
variable {K P : Type}

/-- Derivative in direction `i`, at a point of the cell `c`, of the function with coefficients `u`. -/
def gradOn [CommRing K] (V : Space K (P × Nat)) (grad : Nat → Nat → P → Nat → K) (u : Nat → K) (c : Nat) (x : P) (i : Nat) : K :=
  ∑ l ∈ range V.spaceDim, u ((V.cellDofs c).getD l 0) * grad c l x i

/-- Derivative along `tau`. -/
def dirOn [CommRing K] (V : Space K (P × Nat)) (gdim : Nat) (grad : Nat → Nat → P → Nat → K) (u : Nat → K) (c : Nat) (x : P)
    (tau : Nat → K) : K := ∑ i ∈ range gdim, gradOn V grad u c x i * tau i

/-- Normal component of the function with coefficients `u`, on the cell found by collision. -/
def normalAt [CommRing K] (V : Space K (P × Nat)) (size : Nat) (collide : P → Nat) (u : Nat → K) (p : P) (n : Nat → K) : K :=
  ∑ k ∈ range size, valueAt V collide u k p * n k

/-- `∑ w f(p, n)` for the points, weights and normals of a rule. -/
def fluxSum [CommRing K] (f : P → (Nat → K) → K) : List P → List (Nat → K) → List K → K
  | p :: ps, n :: ns, w :: ws => w * f p n + fluxSum f ps ns ws
  | _, _, _ => 0

/-- A space of constants with one component. -/
structure Real.One (TV : Real) : Prop where
  dim : TV.dim = 1
  dofs : ∀ c, TV.dofs c = [0]

end Verif.PointTrace
