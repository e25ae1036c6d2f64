import Mathlib.Analysis.InnerProductSpace.Basic
import Verif.Model.Py
/-!
# `BlockNullspace`, xii/linalg/block_nullspace.py

Block vectors (cbc.block `block_vec`) are elements of a real inner product space `E`:
the code uses only `inner`, `norm`, `-=`, `*=` and scalar multiples.
-/
namespace Verif.Nullspace
open Verif
open scoped InnerProductSpace

/-- An entry of the block vector given to `add_vector`. -/
inductive Entry (α : Type) where
  | vec : α → Entry α
  | constant : Entry α
  | number : Entry α
  | tuple : Entry α

/-- Substitution of constants, xii/linalg/block_nullspace.py:27-33.  The names `interpolate` and
`Constant` are not imported by the module (line 1 is `import dolfin`), so every branch raises
`NameError`. -/
def substitute {α : Type} : List (Entry α) → Py (List α)
  | [] => .ok []
  | .vec v :: rest => do
      let vs ← substitute rest
      .ok (v :: vs)
  | .constant :: _ => .error .nameError
  | .number :: _ => .error .nameError
  | .tuple :: _ => .error .nameError

variable {E : Type} [NormedAddCommGroup E] [InnerProductSpace ℝ E]

/-- `angles`, xii/linalg/block_nullspace.py:49-50. -/
noncomputable def angles (B : List E) (v : E) : List ℝ := B.map (fun b => ⟪v, b⟫_ℝ)

open Classical in
/-- The loop of `add_vector`, xii/linalg/block_nullspace.py:35-37.  The list of angles is computed
before the loop, the norm is that of the current vector.  `tol` is `1E-10`.  Division of floats by
zero raises. -/
noncomputable def addLoop (tol : ℝ) : List (E × ℝ) → E → Py E
  | [], v => .ok v
  | (b, α) :: rest, v =>
      if ‖v‖ = 0 then .error .zeroDivision
      else if tol < |(|α / ‖v‖| - 1)| then addLoop tol rest (v - α • b)
      else .error .assertion

open Classical in
/-- `add_vector`, xii/linalg/block_nullspace.py:22-41; returns the new list of vectors. -/
noncomputable def addVector (tol : ℝ) (B : List E) (v : E) : Py (List E) := do
  let w ← addLoop tol (B.zip (angles B v)) v
  if ‖w‖ = 0 then .error .zeroDivision else .ok (B ++ [(1 / ‖w‖) • w])

/-- `add_vector` of a block vector with entries which may be constants; `mk` makes the block vector. -/
noncomputable def addEntries {α : Type} (mk : List α → E) (tol : ℝ) (B : List E) (es : List (Entry α)) :
    Py (List E) := do
  let vs ← substitute es
  addVector tol B (mk vs)

/-- The object after a history of calls of `add_vector`.  A call which raises leaves it as it was
(the list is changed only by the last line). -/
noncomputable def runAdds (tol : ℝ) : List E → List E → List E
  | B, [] => B
  | B, v :: vs =>
      match addVector tol B v with
      | .ok B' => runAdds tol B' vs
      | .error _ => runAdds tol B vs

/-- The constructor with vectors, xii/linalg/block_nullspace.py:6-13: the first exception
propagates. -/
noncomputable def construct (tol : ℝ) : List E → List E → Py (List E)
  | B, [] => .ok B
  | B, v :: vs => do
      let B' ← addVector tol B v
      construct tol B' vs

/-- `orthogonalize`, xii/linalg/block_nullspace.py:43-47. -/
noncomputable def orthogonalize (B : List E) (v : E) : E :=
  (B.zip (angles B v)).foldl (fun w p => w - p.2 • p.1) v

end Verif.Nullspace
