import Verif.Props.Collide
import Verif.Spec.CollideExact
/-!
# C95: what `collides_cell` answers, for all cells and segments
-/
namespace Verif.Collide
open Verif Matrix
variable {g : Nat}

/-- **C95**.  Two segments are reported to collide exactly if they are in the plane, not parallel and the
prolonged segments have a common point. -/
theorem segments_answer {solve : Solver g} (hs : Solves solve) (A B X Y : Fin g → ℝ) (tol : ℝ) :
    ∃ r, collidesCell solve [A, B] X Y tol = .ok r ∧
      (r = true ↔ g = 2 ∧ Crossing A B X Y ∧ ∃ p, Near1 tol A B p ∧ Near1 tol X Y p) := by
  obtain ⟨r, h1, h2⟩ := segments_iff hs A B X Y tol
  refine ⟨r, h1, h2.trans ?_⟩
  simp only [zero_sub]
  constructor
  · rintro ⟨hg, hc, s, t, a, b, e⟩
    exact ⟨hg, hc, _, ⟨s, a.1, a.2, rfl⟩, t, b.1, b.2, e⟩
  · rintro ⟨hg, hc, p, ⟨s, a, a', rfl⟩, t, b, b', e⟩
    exact ⟨hg, hc, s, t, ⟨a, a'⟩, ⟨b, b'⟩, e⟩

/-- **C95**.  A triangle and a segment are reported to collide exactly if they are in space, the segment
is not parallel to the plane of the triangle and the prolonged ones have a common point. -/
theorem triangle_answer {solve : Solver g} (hs : Solves solve) (A B C X Y : Fin g → ℝ) (tol : ℝ) :
    ∃ r, collidesCell solve [A, B, C] X Y tol = .ok r ∧
      (r = true ↔ g = 3 ∧ Piercing A B C X Y ∧ ∃ p, Near2 tol A B C p ∧ Near1 tol X Y p) := by
  obtain ⟨r, h1, h2⟩ := triangle_iff hs A B C X Y tol
  refine ⟨r, h1, h2.trans ?_⟩
  simp only [zero_sub]
  constructor
  · rintro ⟨hg, hc, r, s, t, a, b, c, d, e⟩
    exact ⟨hg, hc, _, ⟨r, s, a, b, d, rfl⟩, t, c.1, c.2, e⟩
  · rintro ⟨hg, hc, p, ⟨r, s, a, b, d, rfl⟩, t, c, c', e⟩
    exact ⟨hg, hc, r, s, t, a, b, ⟨c, c'⟩, d, e⟩

/-- **C95**.  Cells with another number of vertices are refused. -/
theorem other_cells_refused (solve : Solver g) (cell : List (Fin g → ℝ)) (X Y : Fin g → ℝ) (tol : ℝ)
    (h2 : cell.length ≠ 2) (h3 : cell.length ≠ 3) : ∃ e, collidesCell solve cell X Y tol = .error e := by
  match cell, h2, h3 with
  | [], _, _ => exact ⟨_, rfl⟩
  | [_], _, _ => exact ⟨_, rfl⟩
  | _ :: _ :: _ :: _ :: _, _, _ => exact ⟨_, rfl⟩

/-- The diagonals of the unit square meet. -/
example {solve : Solver 2} (hs : Solves solve) :
    collidesCell solve [![0, 0], ![1, 1]] ![1, 0] ![0, 1] (1 / 10) = .ok true := by
  obtain ⟨r, h1, h2⟩ := segments_answer hs ![0, 0] ![1, 1] ![1, 0] ![0, 1] (1 / 10)
  rw [h1, h2.2]
  refine ⟨rfl, ?_, ![1 / 2, 1 / 2], ⟨1 / 2, by norm_num, by norm_num, ?_⟩, 1 / 2, by norm_num, by norm_num, ?_⟩
  · intro s t e
    have e0 := congrFun e 0
    have e1 := congrFun e 1
    simp at e0 e1
    constructor <;> linarith
  · funext i; fin_cases i <;> simp
  · funext i; fin_cases i <;> norm_num

end Verif.Collide
