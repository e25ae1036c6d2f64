import Verif.Spec.DofMat
/-!
# Coefficient vectors of the same function
-/
namespace Verif.DofMat
open Verif Finset
variable {K X : Type}

/-- The functions with coefficients `v` in `TV` and `u` in `V` agree at the points `pts t` of every cell `t` of the mesh of
    `TV`; `u` is evaluated on the cell `parent t`. -/
def SameFunction [CommRing K] (V TV : Space K X) (parent : Nat → Nat) (pts : Nat → X → Prop) (u v : Nat → K) : Prop :=
  ∀ t, t < TV.numCells → ∀ x, pts t x → fnOn TV v t x = fnOn V u (parent t) x

/-- On the cell `t` the functions of `TV` include the functions of `V` on `parent t`: a basis function of `V` is the
    combination of basis functions of `TV` whose coefficients are its degrees of freedom. -/
def LocallyContains [CommRing K] (V TV : Space K X) (parent : Nat → Nat) (pts : Nat → X → Prop) : Prop :=
  ∀ t, t < TV.numCells → ∀ l, l < V.spaceDim → ∀ x, pts t x →
    ∑ i ∈ range TV.spaceDim, TV.dofs t i (V.basis (parent t) l) * TV.basis t i x = V.basis (parent t) l x

end Verif.DofMat
