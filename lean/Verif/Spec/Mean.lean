import Verif.Model.Mean
import Verif.Spec.DofMat
import Mathlib.Algebra.Field.Defs
/-! # What a mean over a domain is -/
namespace Verif.Mean
open Verif Verif.DofMat Finset
variable {K X : Type}

/-- A measure: linear integrals over (parts of) cells of the mesh. -/
structure IsMeasure [CommRing K] (cells : Nat) (m : Measure K X) : Prop where
  cell : ∀ p ∈ m, p.1 < cells
  add : ∀ p ∈ m, ∀ f g, p.2 (fun x => f x + g x) = p.2 f + p.2 g
  smul : ∀ p ∈ m, ∀ a f, p.2 (fun x => a * f x) = a * p.2 f

/-- Integral of a function which is `f c` on the cell `c`. -/
def integral [CommRing K] (m : Measure K X) (f : Nat → X → K) : K := (m.map (fun p => p.2 (f p.1))).sum

/-- Volume of the domain. -/
def volume [CommRing K] (m : Measure K X) : K := integral m (fun _ _ => 1)

/-- The mean over the domain. -/
def mean [Field K] (m : Measure K X) (f : Nat → X → K) : K := integral m f / volume m

/-- Constants are in the space. -/
def HasConstants [CommRing K] (V : Space K X) : Prop := ∃ u, ∀ c x, fnOn V u c x = 1

end Verif.Mean
