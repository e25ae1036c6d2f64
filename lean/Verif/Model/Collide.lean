import Verif.Model.Py
import Mathlib.Data.Real.Basic
import Mathlib.Data.Matrix.Mul
/-!
# Collisions of cells and segments (xii/meshing/line_collision.py)

Arithmetic is exact.
-/
namespace Verif.Collide
open Verif Matrix

variable {g : Nat}

/-- `np.vstack(rows).T`. -/
def columns (rows : List (Fin g → ℝ)) : Matrix (Fin g) (Fin rows.length) ℝ := fun i j => rows[j] i

/-- `np.linalg.solve`: nothing if it raises `LinAlgError`. -/
abbrev Solver (g : Nat) := ∀ {k : Nat}, Matrix (Fin g) (Fin k) ℝ → (Fin g → ℝ) → Option (Fin k → ℝ)

open Classical in
/-- `all((0 - tol < xi < 1 + tol) for xi in x)`, line_collision.py:72. -/
noncomputable def within {k : Nat} (tol : ℝ) (x : Fin k → ℝ) : Bool := decide (∀ i, 0 - tol < x i ∧ x i < 1 + tol)

open Classical in
/-- `intersects`, line_collision.py:55-76. -/
noncomputable def intersects (solve : Solver g) (cell : List (Fin g → ℝ)) (X Y : Fin g → ℝ) (tol : ℝ) : Py Bool :=
  match cell with
  | [] => .error .indexError
  | [A, B] =>
      match solve (columns [B - A, X - Y]) (X - A) with
      | none => .ok false
      | some x => .ok (within tol x)
  | [A, B, C] =>
      match solve (columns [B - A, C - A, X - Y]) (X - A) with
      | none => .ok false
      | some x => .ok (within tol x && decide (0 - tol < x ⟨0, by simp⟩ + x ⟨1, by simp⟩ ∧ x ⟨0, by simp⟩ + x ⟨1, by simp⟩ < 1 + tol))
  | _ => .error .valueError

/-- `np.min(shape, axis=0)` (with `f = min`) and `np.max(shape, axis=0)`. -/
def extreme (f : ℝ → ℝ → ℝ) : List (Fin g → ℝ) → Py (Fin g → ℝ)
  | [] => .error .valueError
  | p :: l => .ok (fun i => (l.map (fun q => q i)).foldl f (p i))

/-- `bbox`, line_collision.py:4-6. -/
noncomputable def bbox (shape : List (Fin g → ℝ)) : Py ((Fin g → ℝ) × (Fin g → ℝ)) := do
  let a ← extreme min shape
  let b ← extreme max shape
  .ok (a, b)

/-- `collides_cell`, line_collision.py:43-52; the box is computed and not used. -/
noncomputable def collidesCell (solve : Solver g) (cell : List (Fin g → ℝ)) (X Y : Fin g → ℝ) (tol : ℝ) : Py Bool := do
  let _ ← bbox cell
  intersects solve cell X Y tol

/-- `box_collides_2d`, line_collision.py:18-40: the name `first` is not defined. -/
def boxCollides2d (_box _line : List (Fin g → ℝ)) (_tol : ℝ) : Py Bool := .error .nameError

/-- `box_collides`, line_collision.py:9-15: `box_collides_3d` is not defined. -/
def boxCollides (box line : List (Fin g → ℝ)) (tol : ℝ) : Py Bool :=
  if box.length = 2 then boxCollides2d line box tol else .error .nameError

end Verif.Collide
