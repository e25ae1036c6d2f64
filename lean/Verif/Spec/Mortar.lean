import Verif.Model.Mortar
import Verif.Spec.Embedded
/-!
# The interface between subdomains
-/
namespace Verif.Mortar
open Verif Verif.Embedded

/-- The facet `f` lies between the cells `v.1`, `v.2` with the tags `key.1 < key.2`, both among the markers. -/
def Between (f2c : Nat → List Nat) (tags markers : List Nat) (f : Nat) (key v : Nat × Nat) : Prop :=
  (f2c f = [v.1, v.2] ∨ f2c f = [v.2, v.1]) ∧ key.1 < key.2 ∧ key.1 ∈ markers ∧ key.2 ∈ markers ∧
    tags[v.1]? = some key.1 ∧ tags[v.2]? = some key.2

/-- A facet of a conforming mesh has at most two cells. -/
def Manifold (f2c : Nat → List Nat) (numCells numFacets : Nat) : Prop :=
  ∀ f, f < numFacets → (f2c f).length ≤ 2 ∧ (f2c f).Nodup ∧ ∀ c ∈ f2c f, c < numCells

end Verif.Mortar
