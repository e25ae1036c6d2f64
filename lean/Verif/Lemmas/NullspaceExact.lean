import Verif.Props.Nullspace
import Verif.Spec.NullspaceExact
/-! # Lemmas on accepted vectors -/
namespace Verif.Nullspace
open Verif
open scoped InnerProductSpace
variable {E : Type} [NormedAddCommGroup E] [InnerProductSpace ℝ E]

theorem rest_cons {b : E} {B : List E} (h : ON (b :: B)) (v : E) (i : Nat) :
    rest (b :: B.take i) v = rest (B.take i) (v - ⟪v, b⟫_ℝ • b) := by
  rw [rest, rest, List.map_cons, List.sum_cons, ← sub_sub]
  congr 2
  refine List.map_congr_left (fun c hc => ?_)
  rw [inner_sub_left, inner_smul_left, h.head c (List.mem_of_mem_take hc)]
  simp

theorem angle_iff {b v : E} (hb : ⟪b, b⟫_ℝ = 1) (h0 : ‖v‖ ≠ 0) (tol : ℝ) :
    tol < |(|⟪v, b⟫_ℝ / ‖v‖| - 1)| ↔ |⟪v, b⟫_ℝ| < (1 - tol) * ‖v‖ := by
  have hpos : 0 < ‖v‖ := lt_of_le_of_ne (norm_nonneg v) (Ne.symm h0)
  have hb1 : ‖b‖ = 1 := by
    have : ‖b‖ ^ 2 = 1 := by rw [← real_inner_self_eq_norm_sq, hb]
    exact (pow_eq_one_iff_of_nonneg (norm_nonneg b) two_ne_zero).1 this
  have hle : |⟪v, b⟫_ℝ| ≤ ‖v‖ := by simpa [hb1] using abs_real_inner_le_norm v b
  have hq : |⟪v, b⟫_ℝ| / ‖v‖ ≤ 1 := (div_le_one hpos).2 hle
  rw [abs_div, abs_of_pos hpos, abs_of_nonpos (by linarith), lt_neg, sub_lt_iff_lt_add, div_lt_iff₀ hpos]
  rw [show (-tol + 1) = 1 - tol by ring]

theorem addLoop_iff (tol : ℝ) : ∀ {B : List E}, ON B → ∀ v : E,
    (∃ w, addLoop tol (B.zip (angles B v)) v = .ok w) ↔
      ∀ (i : Nat) (b : E), B[i]? = some b → |⟪v, b⟫_ℝ| < (1 - tol) * ‖rest (B.take i) v‖
  | [], _, v => by simp [addLoop, angles]
  | b :: B, h, v => by
      have hr0 : rest ([] : List E) v = v := by simp [rest]
      by_cases h0 : ‖v‖ = 0
      · constructor
        · rintro ⟨w, hw⟩
          simp [angles, addLoop, h0] at hw
        · intro hall
          have := hall 0 b rfl
          rw [List.take_zero, hr0, h0, mul_zero] at this
          exact absurd this (not_lt.2 (abs_nonneg _))
      · by_cases hc : tol < |(|⟪v, b⟫_ℝ / ‖v‖| - 1)|
        · rw [addLoop_cons tol h v h0 hc, addLoop_iff tol h.tail]
          constructor
          · intro hall i c hi
            rcases i with _ | i
            · obtain rfl : b = c := by simpa using hi
              rw [List.take_zero, hr0]
              exact (angle_iff (h.unit b (by simp)) h0 tol).1 hc
            · have hi' : B[i]? = some c := by simpa using hi
              have := hall i c hi'
              rw [List.take_succ_cons, rest_cons h]
              rw [inner_sub_left, inner_smul_left, h.head c (List.mem_of_getElem? hi')] at this
              simpa using this
          · intro hall i c hi
            have := hall (i + 1) c (by simpa using hi)
            rw [List.take_succ_cons, rest_cons h] at this
            rw [inner_sub_left, inner_smul_left, h.head c (List.mem_of_getElem? hi)]
            simpa using this
        · constructor
          · rintro ⟨w, hw⟩
            simp [angles, addLoop, h0, hc] at hw
          · intro hall
            have := hall 0 b rfl
            rw [List.take_zero, hr0] at this
            exact absurd ((angle_iff (h.unit b (by simp)) h0 tol).2 this) hc

theorem orthogonalize_rest : ∀ {B : List E}, ON B → ∀ v : E, orthogonalize B v = rest B v
  | [], _, v => by simp [orthogonalize, rest, angles]
  | b :: B, h, v => by
      have := rest_cons h v B.length
      rw [List.take_length] at this
      rw [orthogonalize_cons h, orthogonalize_rest h.tail, this]

end Verif.Nullspace
