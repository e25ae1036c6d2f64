import Verif.Model.Shape
/-!
# Geometry of the shapes
-/
namespace Verif.Shape
open V3

/-- A rule on `[-1, 1]` as returned by `leggauss`: nodes in the interval, weights summing to 2. -/
structure GaussRule (xq wq : List ℝ) : Prop where
  len : xq.length = wq.length
  mem : ∀ t ∈ xq, -1 ≤ t ∧ t ≤ 1
  sum : wq.sum = 2

/-- Distance of a point from the plane through `x0` with normal `n`. -/
noncomputable def planeDist (x0 n p : V3) : ℝ := |dot (p - x0) n| / norm n

/-- `p` is on the circle with centre `x0`, radius `R`, in the plane with normal `n`. -/
def OnCircle (x0 n : V3) (R : ℝ) (p : V3) : Prop := norm (p - x0) = R ∧ dot (p - x0) n = 0

/-- The unit normal. -/
noncomputable def unit (n : V3) : V3 := (norm n)⁻¹ • n

/-- Points of the square with centre `c` and corner `P` in the plane with unit normal `m`, the corners
    being `c ± w` and `c ± m × w` for `w = P - c`. -/
def InSquare (c m P q : V3) : Prop :=
  ∃ a b : ℝ, |a| + |b| ≤ 1 ∧ q = c + a • (P - c) + b • cross m (P - c)

/-- Points of its boundary. -/
def OnSquare (c m P q : V3) : Prop :=
  ∃ a b : ℝ, |a| + |b| = 1 ∧ q = c + a • (P - c) + b • cross m (P - c)

/-- The normal is not closer to the z-axis than the tolerance of the code, unless it is parallel to it. -/
def NotNearlyVertical (n : V3) : Prop :=
  norm (cross ez (unit n)) = 0 ∨ 1e-13 ≤ norm (cross ez (unit n))

/-- The point which the argument `P` stands for: given as a tuple or list, as an array, or as a function of the centre. -/
inductive CornerIs (x0 : V3) : Corner → V3 → Prop
  | sequence (p : V3) : CornerIs x0 (.sequence p) p
  | array (p : V3) : CornerIs x0 (.array p) p
  | function (f : V3 → V3) : CornerIs x0 (.function f) (f x0)

end Verif.Shape
