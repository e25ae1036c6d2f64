import Verif.Model.ProjCircle
import Verif.Spec.Shape
/-! # The reference circle and disk -/
namespace Verif.ProjCircle
open Verif Verif.Shape Verif.Shape.V3

/-- Points of the unit circle in the plane `z = 0`. -/
def OnUnitCircle (x : V3) : Prop := dot x x = 1 ∧ x.z = 0

/-- Points of the unit disk in the plane `z = 0`. -/
def InUnitDisk (x : V3) : Prop := dot x x ≤ 1 ∧ x.z = 0

/-- `x` is a multiple of `n`. -/
def Parallel (n x : V3) : Prop := ∃ c : ℝ, x = c • n

end Verif.ProjCircle
