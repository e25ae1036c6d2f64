import Verif.Model.Segment
import Verif.Spec.Shape
import Mathlib.Order.Bounds.Defs
/-! # Distance to segments -/
namespace Verif.Segment
open Verif Verif.Shape Verif.Shape.V3

/-- Points of the segment. -/
def OnSegment (A B q : V3) : Prop := ∃ s : ℝ, 0 ≤ s ∧ s ≤ 1 ∧ q = A + s • (B - A)

/-- The distances from `P` to the points of the segment. -/
def Distances (P A B : V3) : Set ℝ := {d | ∃ q, OnSegment A B q ∧ d = norm (P - q)}

end Verif.Segment
