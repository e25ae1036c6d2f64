import Verif.Spec.Segment
import Verif.Lemmas.Segment
/-! # Distance to segments -/
namespace Verif.Segment
open Verif Verif.Shape Verif.Shape.V3

/-- **C117**.  If the ends differ the result is the least of the distances to the points of the segment; otherwise it is nan. -/
theorem segment_distance_exact (P A B : V3) :
    (A = B → segmentDistance P A B = none) ∧
    (A ≠ B → ∃ d, segmentDistance P A B = some d ∧ IsLeast (Distances P A B) d) :=
  segment_least P A B

/-- The field of distances has the least of 3 and of the distances to all points of the segments: the distances are right up to 3. -/
theorem distance_field_exact (segs : List (V3 × V3)) (hne : ∀ s ∈ segs, s.1 ≠ s.2) (P : V3) :
    ∃ d, distanceField segs P = some d ∧ IsLeast ({3} ∪ {d | ∃ s ∈ segs, d ∈ Distances P s.1 s.2}) d :=
  field_step P segs 3 {3} isLeast_singleton hne

/-- If one of the segments is a point the field is nan everywhere. -/
theorem distance_field_nan (segs : List (V3 × V3)) (h : ∃ s ∈ segs, s.1 = s.2) (P : V3) : distanceField segs P = none := by
  unfold distanceField
  generalize (some 3 : Option ℝ) = d
  induction segs generalizing d with
  | nil => simp at h
  | cons s segs ih =>
      rw [List.foldl_cons]
      by_cases hs : s.1 = s.2
      · rw [(segment_distance_exact P s.1 s.2).1 hs]
        have h0 : minimum d none = none := by cases d <;> rfl
        rw [h0]
        clear ih h
        induction segs with
        | nil => rfl
        | cons t segs ih => exact ih
      · obtain ⟨t, ht, he⟩ := h
        rcases List.mem_cons.1 ht with rfl | ht
        · exact absurd he hs
        · exact ih ⟨t, ht, he⟩ _

example : distanceField [(⟨0, 0, 0⟩, ⟨1, 0, 0⟩), (⟨2, 0, 0⟩, ⟨2, 0, 0⟩)] ⟨0, 0, 0⟩ = none :=
  distance_field_nan _ ⟨(⟨2, 0, 0⟩, ⟨2, 0, 0⟩), by simp, rfl⟩ _

/-- The point `(4, 4, 0)` and the segment from the origin to `(1, 0, 0)`: the nearest point is the end `(1, 0, 0)`. -/
example : segmentDistance ⟨4, 4, 0⟩ ⟨0, 0, 0⟩ ⟨1, 0, 0⟩ = some 5 := by
  have hl : norm ((⟨1, 0, 0⟩ : V3) - ⟨0, 0, 0⟩) = 1 := norm_eq_of_sq (by norm_num) (by simp [dot])
  simp only [segmentDistance, hl]
  rw [if_neg (by norm_num), if_neg (by simp [dot]), if_pos (by simp [dot])]
  rw [norm_eq_of_sq (r := 5) (by norm_num) (by simp [dot]; norm_num)]

end Verif.Segment
