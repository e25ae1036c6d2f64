import Verif.Model.Shape
/-!
# Distance to segments (sandbox/line_distance.py)

Exact real arithmetic; `none` stands for nan.
-/
namespace Verif.Segment
open Verif Verif.Shape Verif.Shape.V3

/-- `segment_distance(P, A, B)`, sandbox/line_distance.py:4-21.  If the ends coincide `t` is nan, both comparisons are false and the
    result is nan. -/
noncomputable def segmentDistance (P A B : V3) : Option ℝ :=
  let u := B - A
  let v := P - A
  let l := norm (B - A)
  if l = 0 then none
  else
    let t := dot u v / l ^ 2
    if t < 0 then some (norm (A - P))
    else if 1 < t then some (norm (B - P))
    else some (norm (cross u v) / l)

/-- `np.minimum`: nan if one of the numbers is. -/
noncomputable def minimum : Option ℝ → Option ℝ → Option ℝ
  | some a, some b => some (min a b)
  | _, _ => none

/-- The loop of sandbox/line_distance.py:43-44 for one point, which starts with 3 (lines 40-41). -/
noncomputable def distanceField (segs : List (V3 × V3)) (P : V3) : Option ℝ :=
  segs.foldl (fun d s => minimum d (segmentDistance P s.1 s.2)) (some 3)

end Verif.Segment
