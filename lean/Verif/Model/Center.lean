import Verif.Model.Py
import Mathlib.Data.Matrix.Mul
import Mathlib.LinearAlgebra.Matrix.Notation
/-!
# Circumcentres (xii/meshing/cell_centers.py)

Arithmetic is exact.  `solve2` and `solve3` are `fullPivLu().solve` of Eigen.
-/
namespace Verif.Center
open Verif Matrix

variable {K : Type} [Field K]

/-- Solvers of linear systems. -/
abbrev Solver (K : Type) (n : Nat) := Matrix (Fin n) (Fin n) K → (Fin n → K) → (Fin n → K)

/-- `Circumcenter_1_2::eval`, cell_centers.py:22-37. -/
def circumcenter12 (v0 v1 : Fin 2 → K) : Fin 2 → K :=
  let y := (1 / 2 : K) • (v0 + v1)
  ![y 0, y 1]

/-- `Circumcenter_2_2::eval`, cell_centers.py:116-143. -/
def circumcenter22 (solve : Solver K 2) (v0 v1 v2 : Fin 2 → K) : Fin 2 → K :=
  let u := v1 - v0
  let v := v2 - v0
  let b := ![u ⬝ᵥ u, v ⬝ᵥ v]
  let A := !![u ⬝ᵥ u, u ⬝ᵥ v; v ⬝ᵥ u, v ⬝ᵥ v]
  let yloc := solve A ((1 / 2 : K) • b)
  let y := v0 + yloc 0 • u + yloc 1 • v
  ![y 0, y 1]

/-- `Circumcenter_2_3::eval`, cell_centers.py:173-200. -/
def circumcenter23 (solve : Solver K 2) (v0 v1 v2 : Fin 3 → K) : Fin 3 → K :=
  let u := v1 - v0
  let v := v2 - v0
  let b := ![u ⬝ᵥ u, v ⬝ᵥ v]
  let A := !![u ⬝ᵥ u, u ⬝ᵥ v; v ⬝ᵥ u, v ⬝ᵥ v]
  let yloc := solve A ((1 / 2 : K) • b)
  let y := v0 + yloc 0 • u + yloc 1 • v
  ![y 0, y 1, y 2]

/-- `Circumcenter_3_3::eval`, cell_centers.py:232-261. -/
def circumcenter33 (solve : Solver K 3) (v0 v1 v2 v3 : Fin 3 → K) : Fin 3 → K :=
  let u := v1 - v0
  let v := v2 - v0
  let w := v3 - v0
  let b := ![u ⬝ᵥ u, v ⬝ᵥ v, w ⬝ᵥ w]
  let A := !![u ⬝ᵥ u, u ⬝ᵥ v, u ⬝ᵥ w; v ⬝ᵥ u, v ⬝ᵥ v, v ⬝ᵥ w; w ⬝ᵥ u, w ⬝ᵥ v, w ⬝ᵥ w]
  let yloc := solve A ((1 / 2 : K) • b)
  let y := v0 + yloc 0 • u + yloc 1 • v + yloc 2 • w
  ![y 0, y 1, y 2]

/-- `CellCircumcenter` on one cell, cell_centers.py:280-291: the choice of the code by `codes[(tdim, gdim)]`.  `code_1_3`
    gives three coordinates to an `Eigen::Vector2d`, which does not compile (cell_centers.py:76-77). -/
def cellCircumcenter (solve2 : Solver K 2) (solve3 : Solver K 3) (tdim : Nat) :
    (gdim : Nat) → List (Fin gdim → K) → Py (Fin gdim → K)
  | 2, [v0, v1] => if tdim = 1 then .ok (circumcenter12 v0 v1) else .error .keyError
  | 2, [v0, v1, v2] => if tdim = 2 then .ok (circumcenter22 solve2 v0 v1 v2) else .error .keyError
  | 3, [_, _] => if tdim = 1 then .error .runtimeError else .error .keyError
  | 3, [v0, v1, v2] => if tdim = 2 then .ok (circumcenter23 solve2 v0 v1 v2) else .error .keyError
  | 3, [v0, v1, v2, v3] => if tdim = 3 then .ok (circumcenter33 solve3 v0 v1 v2 v3) else .error .keyError
  | _, _ => .error .keyError

end Verif.Center
