import Verif.Model.Shape
/-!
# Circles and disks by projection (sandbox/transforms.py)

Exact real arithmetic; `none` stands for an array with nan.
-/
namespace Verif.ProjCircle
open Verif Verif.Shape Verif.Shape.V3

/-- `y = x - n*np.dot(x, n); y = y / np.sqrt(norm - np.dot(x, n)**2)`, sandbox/transforms.py:15-16, 32-33, for the normalised normal.  Zero divided
    by zero is nan. -/
noncomputable def projected (n x : V3) : Option V3 :=
  if √(dot x x - dot x n ^ 2) = 0 then none
  else some ((√(dot x x - dot x n ^ 2))⁻¹ • (x - dot x n • n))

/-- `C(x0, n, R)` applied to a point, sandbox/transforms.py:5-19.  With `n = 0` the normal is nan. -/
noncomputable def circleMap (x0 n : V3) (R : ℝ) (x : V3) : Py (Option V3) := do
  pyAssert (decide (|dot x x - 1| < 1e-13 ∧ |x.z| < 1e-13))
  .ok (if norm n = 0 then none else (projected ((norm n)⁻¹ • n) x).map (fun y => x0 + R • y))

/-- `D(x0, n, R)` applied to a point, sandbox/transforms.py:22-36. -/
noncomputable def diskMap (x0 n : V3) (R : ℝ) (x : V3) : Py (Option V3) := do
  pyAssert (decide (dot x x < 1 + 1e-13 ∧ |x.z| < 1e-13))
  .ok (if norm n = 0 then none else (projected ((norm n)⁻¹ • n) x).map (fun y => x0 + (R * √(dot x x)) • y))

/-- `list(map(T, xq))` for points on the unit circle, sandbox/transforms.py:100-110, 120-123; the angles are `pi*t`. -/
noncomputable def circlePoints (x0 n : V3) (R : ℝ) (xq : List ℝ) : Py (List (Option V3)) :=
  mapPts (circleMap x0 n R) (xq.map (fun t => ⟨Real.cos (Real.pi * t), Real.sin (Real.pi * t), 0⟩))

/-- `circle_quad(x0, n, R, degree)(f)`, sandbox/transforms.py:118-128, with the rule `xq`, `wq` of numpy; nan if a point is. -/
noncomputable def circleQuad (x0 n : V3) (R : ℝ) (xq wq : List ℝ) (f : V3 → ℝ) : Py (Option ℝ) := do
  let pts ← circlePoints x0 n R xq
  .ok ((List.zip pts wq).foldr (fun p s => p.1.bind (fun y => s.map (fun s => p.2 * (R * Real.pi) * f y + s))) (some 0))

end Verif.ProjCircle
