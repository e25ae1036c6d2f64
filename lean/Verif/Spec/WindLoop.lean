import Verif.Spec.Tangent
import Mathlib.Analysis.SpecialFunctions.Complex.Arg
import Mathlib.MeasureTheory.Integral.IntervalIntegral.Basic
/-!
# Winding numbers of loops in the plane
-/
namespace Verif.Tangent
open Matrix

/-- A point of the plane as a complex number. -/
def asComplex (x : Fin 2 → ℝ) : ℂ := ⟨x 0, x 1⟩

/-- The angle at which one sees the segment from `p` to `q` from `c`, between `-π` and `π`, positive if `c` is on the left. -/
noncomputable def angle (c p q : Fin 2 → ℝ) : ℝ := (asComplex (q - c) / asComplex (p - c)).arg

/-- The point is on the segment. -/
def OnSegment (c p q : Fin 2 → ℝ) : Prop := ∃ s : ℝ, 0 ≤ s ∧ s ≤ 1 ∧ c = p + s • (q - p)

/-- The point is on the left of the line from `p` to `q`. -/
def LeftOf (c p q : Fin 2 → ℝ) : Prop := 0 < (q - p) 0 * (c - p) 1 - (q - p) 1 * (c - p) 0

/-- The exact integral over the interval (0, 1). -/
noncomputable def exactly : (ℝ → ℝ) → ℝ := fun f => ∫ s in (0 : ℝ)..1, f s

/-- Cells with directions. -/
abbrev Course := List (Nat × Nat)

/-- The cells of the curve with directions such that as many lead to each vertex as lead away from it. -/
structure CourseOf (G : Curve 2) (H : Course) : Prop where
  same : List.Forall₂ (fun e h => h = e ∨ h = e.swap) G.cells H
  closed : ∀ v, (H.map Prod.fst).count v = (H.map Prod.snd).count v

/-- The winding number: the sum of all angles in full turns. -/
noncomputable def winding (G : Curve 2) (H : Course) (c : Fin 2 → ℝ) : ℝ :=
  (H.map (fun e => angle c (G.pos e.1) (G.pos e.2))).sum / (2 * Real.pi)

/-- The cells whose numbering goes against the directions. -/
def against (G : Curve 2) (H : Course) : Course := ((G.cells.zip H).filter (fun p => decide (p.1 ≠ p.2))).map Prod.snd

/-- The vertices are numbered along the loop, so that only the last cell, from the first to the last vertex, goes against it. -/
structure Numbered (G : Curve 2) : Prop where
  three : 3 ≤ G.X.length
  cells : G.cells.Perm ((0, G.X.length - 1) :: (List.range (G.X.length - 1)).map (fun i => (i, i + 1)))

/-- The directions along such a loop. -/
def along (G : Curve 2) : Course := G.cells.map (fun e => if e = (0, G.X.length - 1) then e.swap else e)

end Verif.Tangent
