import Verif.Props.Collide
import Verif.Props.CollideExact
import Verif.Props.Contour
import Verif.Props.ContourExact
import Verif.Props.Harmonic
/-!
# Collisions, contours and the harmonic extension

The theorems of C47, C49, C66, C77, C95 and C96 for segments, a triangle, contours, line meshes and matrices of linear elements.
-/
namespace Verif.Collide.Examples
open Verif Matrix Collide

/-- The diagonals of the unit square. -/
theorem crossing : Crossing (![0, 0] : Fin 2 → ℝ) ![1, 1] ![0, 1] ![1, 0] := by
  intro s t e
  have h0 := congrFun e 0
  have h1 := congrFun e 1
  simp at h0 h1
  constructor <;> linarith

/-- A triangle and a line through it. -/
theorem piercing : Piercing (![0, 0, 0] : Fin 3 → ℝ) ![1, 0, 0] ![0, 1, 0] ![1 / 4, 1 / 4, 1] ![1 / 4, 1 / 4, -1] := by
  intro r s t e
  have h0 := congrFun e 0
  have h1 := congrFun e 1
  have h2 := congrFun e 2
  simp at h0 h1 h2
  exact ⟨h0, h1, h2.resolve_right (by norm_num)⟩

theorem segments : collidesCell (exact 2) [![0, 0], ![1, 1]] ![0, 1] ![1, 0] (1 / 10 ^ 13) = .ok true := by
  refine segments_found (exact_solves 2) (by norm_num) crossing
    ⟨![1 / 2, 1 / 2], ⟨1 / 2, by norm_num, by norm_num, ?_⟩, 1 / 2, by norm_num, by norm_num, ?_⟩
  · funext i; fin_cases i <;> norm_num
  · funext i; fin_cases i <;> norm_num

theorem triangle : collidesCell (exact 3) [![0, 0, 0], ![1, 0, 0], ![0, 1, 0]] ![1 / 4, 1 / 4, 1] ![1 / 4, 1 / 4, -1] (1 / 10 ^ 13) =
    .ok true := by
  refine triangle_found (exact_solves 3) (by norm_num) piercing
    ⟨![1 / 4, 1 / 4, 0], ⟨1 / 4, 1 / 4, by norm_num, by norm_num, by norm_num, ?_⟩, 1 / 2, by norm_num, by norm_num, ?_⟩
  · funext i; fin_cases i <;> norm_num
  · funext i; fin_cases i <;> norm_num

example := segments_near (exact_solves 2) segments
example := segments_exact_partial (exact_solves 2) crossing
example := segments_symmetric (exact_solves 2) ![0, 0] ![1, 1] ![0, 1] ![1, 0] 1
example := triangle_near (exact_solves 3) triangle
example := triangle_exact (exact_solves 3) piercing
/-- Parallel segments. -/
example := segments_never (exact_solves 2) (A := ![0, 0]) (B := ![1, 1]) (X := ![0, 0]) (Y := ![2, 2])
  (.inr fun h => by simpa using (h 2 (-1) (by funext i; fin_cases i <;> norm_num)).1) 1
/-- A triangle in the plane. -/
example := triangle_never (exact_solves 2) (A := ![0, 0]) (B := ![1, 0]) (C := ![0, 1]) (X := ![0, 0]) (Y := ![2, 2]) (.inl (by omega)) 1
example := overlap_missed (exact_solves 2) ![0, 0] ![1, 1] 1
example := space_missed (exact_solves 3) 1
example := plane_missed (exact_solves 2) 1
example := triangle_answer (exact_solves 3) ![0, 0, 0] ![1, 0, 0] ![0, 1, 0] ![1 / 4, 1 / 4, 1] ![1 / 4, 1 / 4, -1] 1
/-- A tetrahedron. -/
example := other_cells_refused (exact 3) [![0, 0, 0], ![1, 0, 0], ![0, 1, 0], ![0, 0, 1]] 0 ![1, 1, 1] 1 (by simp) (by simp)

end Verif.Collide.Examples

namespace Verif.Contour.Examples
open Verif Contour

example := refine_contour_partial (K := ℚ) [((0, 0) : ℚ × ℚ), (1, 0), (0, 2), (0, 0)] (0, 0) rfl rfl 3
example := refine_contour_negative (K := ℚ) [((0, 0) : ℚ × ℚ), (1, 0), (0, 2), (0, 0)] (-1) (by omega)
example := refine_open (K := ℚ) [((0, 0) : ℚ × ℚ), (1, 0), (0, 2)] (0, 0) (0, 2) rfl rfl (by decide)

/-- The distance on the plane. -/
def dist (p q : ℚ × ℚ) : ℚ := |p.1 - q.1| + |p.2 - q.2|

/-- Two branches with the same ends. -/
def branches : List (List (ℚ × ℚ)) := [[(0, 0), (1, 0), (2, 0)], [(2, 0), (1, 1), (0, 0)]]

theorem separate (p q : ℚ × ℚ) (hp : IsEnd branches p) (hq : IsEnd branches q) : dist p q ≤ 1 / 10 ^ 13 ↔ p = q := by
  have h : ∀ p, IsEnd branches p → p = (0, 0) ∨ p = (2, 0) := by
    rintro p ⟨b, hb, h⟩
    simp only [branches, List.mem_cons, List.not_mem_nil, or_false] at hb
    rcases hb with rfl | rfl <;> rcases h with h | h <;> simp at h <;> simp [← h]
  rcases h p hp with rfl | rfl <;> rcases h q hq with rfl | rfl <;> decide +kernel

example := line_mesh_partial dist (1 / 10 ^ 13) branches (by simp [branches]) (by simp [branches]) separate
  (by rintro b ⟨⟩; decide)

/-- What it gives is what the other theorems need. -/
example : ∃ vms : List (List Nat), ∃ coords, List.Forall₂ (Traces coords) branches vms ∧
    ((branches.zip vms).flatMap (fun x => if x.1.length = 2 then [] else pairs x.2)).length = 4 := by
  obtain ⟨ends, vms, _, _, _, hT, _, _⟩ := line_mesh_partial dist (1 / 10 ^ 13) branches (by simp [branches])
    (by simp [branches]) separate (by rintro b ⟨⟩; decide)
  exact ⟨vms, _, hT, line_mesh_cells branches vms _ hT (by simp [branches])⟩
example := line_mesh_shared (vms := [[0, 2, 1], [1, 3, 0]]) (a := 2) (n := 2) rfl (by simp) (k := 0) (k' := 1) (i := 2) (i' := 0)
  (v := 1) rfl rfl rfl rfl

example := straight_line_partial (fun p q : ℚ => |p - q|) (1 / 10 ^ 13) 1 2 4 (by omega)

end Verif.Contour.Examples

namespace Verif.Harmonic.Examples
open Verif Harmonic

example := harmonic_solves_screened_partial inverseSolver_ok sampleForms_regular.1 sampleForms_regular.2 (by decide)
  (marks := [0, 1]) (by simp)
example := harmonic_ignores_marks inverseSolver sampleForms 0 (marks := [0, 1]) (marks' := [1, 1]) (by simp) (by simp)
example := harmonic_refuses inverseSolver sampleForms 0 3 3 3 [0, 1] (by simp)

end Verif.Harmonic.Examples
