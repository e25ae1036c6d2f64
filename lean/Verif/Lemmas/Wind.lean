import Verif.Lemmas.Tangent
import Mathlib.Analysis.Real.Pi.Bounds
import Mathlib.Tactic.Positivity
/-!
# Lemmas on winding numbers
-/
namespace Verif.Tangent
open Verif Matrix

theorem last_eq {p q : Fin 2 → ℝ} {l : List (Fin 2 → ℝ)} : (p :: l ++ [q]).getLastD 0 = q := by
  rw [List.getLastD_eq_getLast?, List.getLast?_concat]
  rfl

open Classical in
theorem closed_check {p : Fin 2 → ℝ} {l : List (Fin 2 → ℝ)} :
    decide (norm ((p :: l ++ [p]).getD 0 0 - (p :: l ++ [p]).getLastD 0) < 1 / 10 ^ 13) = true := by
  rw [decide_eq_true_iff, last_eq]
  simp [norm]

theorem wind_closed {p : Fin 2 → ℝ} {l : List (Fin 2 → ℝ)} {c : Fin 2 → ℝ} :
    contourWindNumber (p :: l ++ [p]) c = .ok (((edges (p :: l ++ [p])).map (term c)).sum / 2 / Real.pi) := by
  unfold contourWindNumber
  rw [closed_check]
  rfl

/-- The term without square roots. -/
noncomputable def edgeTerm (c m e : Fin 2 → ℝ) : ℝ :=
  ((m 0 - c 0) * e 1 - (m 1 - c 1) * e 0) / ((m 0 - c 0) * (m 0 - c 0) + (m 1 - c 1) * (m 1 - c 1))

theorem term_eq (c m e : Fin 2 → ℝ) : term c (m, e) = edgeTerm c m e := by
  have hn : norm (m - c) ^ 2 = (m 0 - c 0) * (m 0 - c 0) + (m 1 - c 1) * (m 1 - c 1) := by
    unfold norm
    rw [Real.sq_sqrt (dot_self_nonneg _)]
    simp [dotProduct, Fin.sum_univ_two]
  unfold term edgeTerm
  dsimp only
  rw [hn]
  by_cases he : e = 0
  · subst he
    simp [norm]
  · have : norm e ≠ 0 := (Real.sqrt_pos.2 (dot_self_pos he)).ne'
    rw [dotProduct_smul, smul_eq_mul, ← mul_assoc, mul_one_div_cancel this, one_mul]
    congr 1
    simp [dotProduct, Fin.sum_univ_two]
    ring

theorem term_reverse (c p q : Fin 2 → ℝ) : term c (q + (1 / 2 : ℝ) • (p - q), p - q) = - term c (p + (1 / 2 : ℝ) • (q - p), q - p) := by
  rw [term_eq, term_eq]
  have : q + (1 / 2 : ℝ) • (p - q) = p + (1 / 2 : ℝ) • (q - p) := by
    funext i
    simp
    ring
  rw [this]
  unfold edgeTerm
  rw [← neg_div]
  congr 1
  simp
  ring

theorem sum_append_two (c : Fin 2 → ℝ) : ∀ (l : List (Fin 2 → ℝ)) (p q : Fin 2 → ℝ),
    ((edges (l ++ [p, q])).map (term c)).sum = ((edges (l ++ [p])).map (term c)).sum + term c (p + (1 / 2 : ℝ) • (q - p), q - p)
  | [], p, q => by simp [edges]
  | [a], p, q => by simp [edges]
  | a :: b :: l, p, q => by
      have := sum_append_two c (b :: l) p q
      simp only [List.cons_append, edges, List.map_cons, List.sum_cons] at this ⊢
      rw [this]
      ring

theorem sum_reverse (c : Fin 2 → ℝ) : ∀ l : List (Fin 2 → ℝ),
    ((edges l.reverse).map (term c)).sum = - ((edges l).map (term c)).sum
  | [] => by simp [edges]
  | [a] => by simp [edges]
  | a :: b :: l => by
      have := sum_reverse c (b :: l)
      rw [List.reverse_cons] at this
      rw [List.reverse_cons, List.reverse_cons, List.append_assoc, show [b] ++ [a] = [b, a] from rfl, sum_append_two, this, term_reverse]
      simp only [edges, List.map_cons, List.sum_cons]
      ring

theorem sum_translate (c v : Fin 2 → ℝ) : ∀ l : List (Fin 2 → ℝ),
    ((edges (l.map (· + v))).map (term (c + v))).sum = ((edges l).map (term c)).sum
  | [] => by simp [edges]
  | [a] => by simp [edges]
  | a :: b :: l => by
      have := sum_translate c v (b :: l)
      simp only [List.map_cons] at this
      simp only [edges, List.map_cons, List.sum_cons]
      rw [this]
      congr 1
      rw [term_eq, term_eq]
      unfold edgeTerm
      congr 1 <;> simp <;> ring

end Verif.Tangent
