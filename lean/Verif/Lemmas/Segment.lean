import Verif.Spec.Segment
import Verif.Lemmas.Shape
import Mathlib.Tactic.FieldSimp
import Mathlib.Tactic.LinearCombination
import Mathlib.Tactic.Positivity
import Mathlib.Tactic.NormNum
/-! # Lemmas about distances to segments -/
namespace Verif.Segment
open Verif Verif.Shape Verif.Shape.V3

theorem norm_le_norm {a b : V3} (h : dot a a ≤ dot b b) : norm a ≤ norm b := Real.sqrt_le_sqrt h

/-- `|P - q|` for the point `q = A + s (B - A)`. -/
theorem dist_sq (P A B : V3) (s : ℝ) (hl : norm (B - A) ≠ 0) :
    dot (P - (A + s • (B - A))) (P - (A + s • (B - A))) =
      dot (P - A) (P - A) + ((s - dot (B - A) (P - A) / norm (B - A) ^ 2) ^ 2 - (dot (B - A) (P - A) / norm (B - A) ^ 2) ^ 2) *
        norm (B - A) ^ 2 := by
  have e : dot (P - (A + s • (B - A))) (P - (A + s • (B - A))) =
      dot (P - A) (P - A) - 2 * s * dot (B - A) (P - A) + s ^ 2 * norm (B - A) ^ 2 := by
    rw [norm_sq]
    simp only [dot, add_x, add_y, add_z, sub_x, sub_y, sub_z, smul_x, smul_y, smul_z]
    ring
  rw [e]
  field_simp
  ring

theorem segment_least (P A B : V3) :
    (A = B → segmentDistance P A B = none) ∧
    (A ≠ B → ∃ d, segmentDistance P A B = some d ∧ IsLeast (Distances P A B) d) := by
  have hzero : norm (B - A) = 0 ↔ A = B := by
    constructor
    · intro h
      have h2 : dot (B - A) (B - A) = 0 := by rw [← norm_sq, h]; ring
      simp only [dot, sub_x, sub_y, sub_z] at h2
      have hx : B.x - A.x = 0 := by nlinarith [sq_nonneg (B.x - A.x), sq_nonneg (B.y - A.y), sq_nonneg (B.z - A.z)]
      have hy : B.y - A.y = 0 := by nlinarith [sq_nonneg (B.x - A.x), sq_nonneg (B.y - A.y), sq_nonneg (B.z - A.z)]
      have hz : B.z - A.z = 0 := by nlinarith [sq_nonneg (B.x - A.x), sq_nonneg (B.y - A.y), sq_nonneg (B.z - A.z)]
      exact V3.ext (by linarith) (by linarith) (by linarith)
    · rintro rfl
      exact norm_eq_of_sq (le_refl 0) (by simp [dot])
  refine ⟨fun h => by simp [segmentDistance, hzero.2 h], fun h => ?_⟩
  have hl : norm (B - A) ≠ 0 := fun h0 => h (hzero.1 h0)
  have hl2 : 0 < norm (B - A) ^ 2 := by positivity
  simp only [segmentDistance, if_neg hl]
  split
  · rename_i ht
    refine ⟨_, rfl, ⟨A, ⟨0, le_refl _, by norm_num, by ext <;> simp⟩, ?_⟩, ?_⟩
    · unfold V3.norm
      congr 1
      simp only [dot, sub_x, sub_y, sub_z]
      ring
    · rintro d ⟨q, ⟨s, h0, h1, rfl⟩, rfl⟩
      apply norm_le_norm
      rw [dist_sq P A B s hl]
      have e : dot (A - P) (A - P) = dot (P - A) (P - A) := by simp only [dot, sub_x, sub_y, sub_z]; ring
      rw [e]
      have : 0 ≤ ((s - dot (B - A) (P - A) / norm (B - A) ^ 2) ^ 2 - (dot (B - A) (P - A) / norm (B - A) ^ 2) ^ 2) := by nlinarith
      nlinarith
  · split
    · rename_i ht1 ht
      refine ⟨_, rfl, ⟨B, ⟨1, by norm_num, le_refl _, by ext <;> simp⟩, ?_⟩, ?_⟩
      · unfold V3.norm
        congr 1
        simp only [dot, sub_x, sub_y, sub_z]
        ring
      · rintro d ⟨q, ⟨s, h0, h1, rfl⟩, rfl⟩
        apply norm_le_norm
        have e : dot (B - P) (B - P) = dot (P - (A + (1 : ℝ) • (B - A))) (P - (A + (1 : ℝ) • (B - A))) := by
          simp only [dot, add_x, add_y, add_z, sub_x, sub_y, sub_z, smul_x, smul_y, smul_z]; ring
        rw [e, dist_sq P A B s hl, dist_sq P A B 1 hl]
        have : (1 - dot (B - A) (P - A) / norm (B - A) ^ 2) ^ 2 ≤ (s - dot (B - A) (P - A) / norm (B - A) ^ 2) ^ 2 := by nlinarith
        nlinarith
    · rename_i ht1 ht2
      rw [not_lt] at ht1 ht2
      have hcross : norm (cross (B - A) (P - A)) / norm (B - A) = norm (P - (A + (dot (B - A) (P - A) / norm (B - A) ^ 2) • (B - A))) := by
        symm
        apply norm_eq_of_sq (div_nonneg (Shape.norm_nonneg _) (Shape.norm_nonneg _))
        rw [dist_sq P A B _ hl, div_pow (V3.norm _), norm_sq (cross _ _)]
        have lagrange : dot (cross (B - A) (P - A)) (cross (B - A) (P - A)) =
            norm (B - A) ^ 2 * dot (P - A) (P - A) - dot (B - A) (P - A) ^ 2 := by
          rw [norm_sq]
          simp only [dot, cross, sub_x, sub_y, sub_z]
          ring
        rw [lagrange]
        field_simp
        ring
      refine ⟨_, rfl, ⟨_, ⟨_, ht1, ht2, rfl⟩, hcross⟩, ?_⟩
      rintro d ⟨q, ⟨s, h0, h1, rfl⟩, rfl⟩
      rw [hcross]
      apply norm_le_norm
      rw [dist_sq P A B s hl, dist_sq P A B _ hl]
      nlinarith [mul_nonneg (sq_nonneg (s - dot (B - A) (P - A) / norm (B - A) ^ 2)) hl2.le]

theorem field_step (P : V3) : ∀ (segs : List (V3 × V3)) (d0 : ℝ) (S : Set ℝ), IsLeast S d0 → (∀ s ∈ segs, s.1 ≠ s.2) →
    ∃ d, segs.foldl (fun d s => minimum d (segmentDistance P s.1 s.2)) (some d0) = some d ∧
      IsLeast (S ∪ {d | ∃ s ∈ segs, d ∈ Distances P s.1 s.2}) d
  | [], d0, S, h, _ => ⟨d0, rfl, by simpa using h⟩
  | s :: segs, d0, S, h, hne => by
      obtain ⟨d1, h1, h1'⟩ := (segment_least P s.1 s.2).2 (hne s (by simp))
      obtain ⟨d, h2, h2'⟩ := field_step P segs (min d0 d1) (S ∪ Distances P s.1 s.2)
        (h.union h1') (fun q hq => hne q (by simp [hq]))
      refine ⟨d, by simpa [minimum, h1] using h2, ?_⟩
      convert! h2' using 1
      ext e
      simp [or_assoc]

end Verif.Segment
