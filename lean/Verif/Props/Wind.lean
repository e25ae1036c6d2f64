import Verif.Lemmas.Wind
import Mathlib.Tactic.FinCases
import Mathlib.Tactic.NormNum
/-!
# C65: winding numbers of contours
-/
namespace Verif.Tangent
open Verif Matrix

/-- C65.  Contours which are not closed are refused. -/
theorem wind_open_refused {p q : Fin 2 → ℝ} {l : List (Fin 2 → ℝ)} (h : 1 / 10 ^ 13 ≤ Real.sqrt ((p - q) ⬝ᵥ (p - q))) (c : Fin 2 → ℝ) :
    contourWindNumber (p :: l ++ [q]) c = .error .assertion := by
  unfold contourWindNumber norm
  rw [last_eq, decide_eq_false]
  · rfl
  · simpa using h

/-- C65.  Contours which are closed are not. -/
theorem wind_total {p : Fin 2 → ℝ} {l : List (Fin 2 → ℝ)} (c : Fin 2 → ℝ) : ∃ w, contourWindNumber (p :: l ++ [p]) c = .ok w := by
  unfold contourWindNumber
  rw [closed_check]
  exact ⟨_, rfl⟩

/-- C65.  Reversing the contour changes the sign. -/
theorem wind_reverse {p : Fin 2 → ℝ} {l : List (Fin 2 → ℝ)} {c : Fin 2 → ℝ} {w : ℝ}
    (h : contourWindNumber (p :: l ++ [p]) c = .ok w) : contourWindNumber (p :: l ++ [p]).reverse c = .ok (- w) := by
  rw [wind_closed] at h
  injection h with h
  rw [show (p :: l ++ [p]).reverse = p :: l.reverse ++ [p] by simp, wind_closed,
    show p :: l.reverse ++ [p] = (p :: l ++ [p]).reverse by simp, sum_reverse, ← h]
  congr 1
  ring

/-- C65.  The decision does not depend on the direction of the contour. -/
theorem inside_reverse_partial {p : Fin 2 → ℝ} {l : List (Fin 2 → ℝ)} (c : Fin 2 → ℝ) (tol : ℝ) :
    isInsideContour (p :: l ++ [p]).reverse tol c = isInsideContour (p :: l ++ [p]) tol c := by
  obtain ⟨w, h⟩ := wind_total (p := p) (l := l) c
  unfold isInsideContour
  rw [wind_reverse h, h]
  dsimp only [bind, Except.bind]
  rw [abs_neg]

/-- C65.  Neither the number nor the decision depend on the point where the contour starts. -/
theorem wind_start {p q : Fin 2 → ℝ} {l : List (Fin 2 → ℝ)} (c : Fin 2 → ℝ) (tol : ℝ) :
    contourWindNumber (p :: q :: l ++ [p]) c = contourWindNumber (q :: l ++ [p, q]) c ∧
    isInsideContour (p :: q :: l ++ [p]) tol c = isInsideContour (q :: l ++ [p, q]) tol c := by
  have h : contourWindNumber (p :: q :: l ++ [p]) c = contourWindNumber (q :: l ++ [p, q]) c := by
    rw [show q :: l ++ [p, q] = q :: (l ++ [p]) ++ [q] by simp, show p :: q :: l ++ [p] = p :: (q :: l) ++ [p] by simp,
      wind_closed, wind_closed]
    congr 2
    rw [show q :: (l ++ [p]) ++ [q] = (q :: l) ++ [p, q] by simp, sum_append_two]
    simp only [edges, List.cons_append, List.map_cons, List.sum_cons]
    ring
  exact ⟨h, by unfold isInsideContour; rw [h]⟩

/-- C65.  Translating contour and point changes nothing. -/
theorem wind_translate {p : Fin 2 → ℝ} {l : List (Fin 2 → ℝ)} (c v : Fin 2 → ℝ) (tol : ℝ) :
    contourWindNumber ((p :: l ++ [p]).map (· + v)) (c + v) = contourWindNumber (p :: l ++ [p]) c ∧
    isInsideContour ((p :: l ++ [p]).map (· + v)) tol (c + v) = isInsideContour (p :: l ++ [p]) tol c := by
  have h : contourWindNumber ((p :: l ++ [p]).map (· + v)) (c + v) = contourWindNumber (p :: l ++ [p]) c := by
    rw [show (p :: l ++ [p]).map (· + v) = (p + v) :: l.map (· + v) ++ [p + v] by simp, wind_closed, wind_closed,
      show (p + v) :: l.map (· + v) ++ [p + v] = (p :: l ++ [p]).map (· + v) by simp, sum_translate]
  exact ⟨h, by unfold isInsideContour; rw [h]⟩

/-- C65 is false of points outside: a point outside of a square is taken to be inside. -/
theorem outside_accepted :
    isInsideContour [![-1, -1], ![1, -1], ![1, 1], ![-1, 1], ![-1, -1]] (1 / 100) ![3, 0] = .ok true ∧
    OutsideHull [![-1, -1], ![1, -1], ![1, 1], ![-1, 1], ![-1, -1]] ![3, 0] := by
  constructor
  · have h := wind_closed (p := ![-1, -1]) (l := [![1, -1], ![1, 1], ![-1, 1]]) (c := ![3, 0])
    have e : (((edges (![-1, -1] :: [![1, -1], ![1, 1], ![-1, 1]] ++ [![-1, -1]])).map (term ![3, 0])).sum) = - (1 / 10) := by
      simp only [edges, List.cons_append, List.nil_append, List.map_cons, List.map_nil, List.sum_cons, List.sum_nil, term_eq]
      norm_num [edgeTerm]
    rw [e] at h
    unfold isInsideContour
    rw [show [![-1, -1], ![1, -1], ![1, 1], ![-1, 1], ![-1, -1]] = (![-1, -1] : Fin 2 → ℝ) :: [![1, -1], ![1, 1], ![-1, 1]] ++ [![-1, -1]]
      from rfl, h]
    dsimp only [bind, Except.bind]
    congr 1
    rw [decide_eq_true_iff]
    have hp := Real.pi_pos
    have hp4 := Real.pi_le_four
    rw [show - (1 / 10 : ℝ) / 2 / Real.pi = - (1 / (20 * Real.pi)) by field_simp; ring, abs_neg, abs_of_pos (by positivity), gt_iff_lt,
      div_lt_div_iff₀ (by norm_num) (by positivity)]
    linarith
  · refine ⟨![1, 0], ?_⟩
    intro p hp
    simp at hp
    rcases hp with rfl | rfl | rfl | rfl | rfl <;> norm_num [dotProduct, Fin.sum_univ_two]

/-- C65 is false of points inside: a point inside of a thin rectangle is taken to be outside. -/
theorem inside_missed :
    isInsideContour [![-1, -1 / 1000], ![1, -1 / 1000], ![1, 1 / 1000], ![-1, 1 / 1000], ![-1, -1 / 1000]] (1 / 100) ![1 / 2, 0] = .ok false ∧
    InsideHull [![-1, -1 / 1000], ![1, -1 / 1000], ![1, 1 / 1000], ![-1, 1 / 1000], ![-1, -1 / 1000]] ![1 / 2, 0] := by
  constructor
  · have h := wind_closed (p := ![-1, -1 / 1000]) (l := [![1, -1 / 1000], ![1, 1 / 1000], ![-1, 1 / 1000]]) (c := ![1 / 2, 0])
    obtain ⟨t, e, h0, h1⟩ : ∃ t : ℝ, (((edges (![-1, -1 / 1000] :: [![1, -1 / 1000], ![1, 1 / 1000], ![-1, 1 / 1000]] ++
        [![-1, -1 / 1000]])).map (term ![1 / 2, 0])).sum) = t ∧ 0 ≤ t ∧ t ≤ 1 / 40 := by
      refine ⟨_, rfl, ?_⟩
      simp only [edges, List.cons_append, List.nil_append, List.map_cons, List.map_nil, List.sum_cons, List.sum_nil, term_eq]
      norm_num [edgeTerm]
    rw [e] at h
    unfold isInsideContour
    rw [show [![-1, -1 / 1000], ![1, -1 / 1000], ![1, 1 / 1000], ![-1, 1 / 1000], ![-1, -1 / 1000]] =
      (![-1, -1 / 1000] : Fin 2 → ℝ) :: [![1, -1 / 1000], ![1, 1 / 1000], ![-1, 1 / 1000]] ++ [![-1, -1 / 1000]] from rfl, h]
    dsimp only [bind, Except.bind]
    congr 1
    rw [decide_eq_false_iff_not, gt_iff_lt, not_lt, abs_of_nonneg (by have := Real.pi_pos; positivity), div_le_iff₀ Real.pi_pos]
    have := Real.pi_gt_three
    linarith
  · intro u hu
    by_contra hcon
    push Not at hcon
    have h1 := hcon ![-1, -1 / 1000] (by simp)
    have h2 := hcon ![1, -1 / 1000] (by simp)
    have h3 := hcon ![1, 1 / 1000] (by simp)
    have h4 := hcon ![-1, 1 / 1000] (by simp)
    simp [dotProduct, Fin.sum_univ_two] at h1 h2 h3 h4
    apply hu
    funext i
    fin_cases i <;> simp <;> linarith

example : ∃ w, contourWindNumber (![0, 0] :: [![1, 0], ![0, 1]] ++ [![0, 0]]) ![1 / 4, 1 / 4] = .ok w := wind_total _

example : contourWindNumber (![0, 0] :: [![1, 0]] ++ [![0, 1]]) ![1 / 4, 1 / 4] = .error .assertion := by
  refine wind_open_refused ?_ _
  rw [show ((![0, 0] - ![0, 1] : Fin 2 → ℝ) ⬝ᵥ (![0, 0] - ![0, 1])) = 1 from by norm_num [dotProduct, Fin.sum_univ_two]]
  norm_num

end Verif.Tangent
