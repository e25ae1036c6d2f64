import Mathlib.Data.Matrix.Mul
import Mathlib.Analysis.Real.Sqrt
import Mathlib.LinearAlgebra.Matrix.Symmetric
import Verif.Model.Py
/-!
# `xii/linalg/sherman_morrison.py`

Vectors of dimension `n` are functions `Fin n → ℝ`, the mass matrix is a matrix.
-/
namespace Verif.L20
open Verif Matrix

variable {n : Nat}

/-- Vectors of degrees of freedom. -/
abbrev Vec (n : Nat) := Fin n → ℝ

/-- The Gram matrix, xii/linalg/sherman_morrison.py:11-18: entries with `i ≤ j` are computed, the
others are copies. -/
def gram (M : Matrix (Fin n) (Fin n) ℝ) (zs : List (Vec n)) : Matrix (Fin zs.length) (Fin zs.length) ℝ :=
  fun i j => if i ≤ j then zs[i] ⬝ᵥ (M *ᵥ zs[j]) else zs[j] ⬝ᵥ (M *ᵥ zs[i])

/-- What `np.linalg.eig` returns for a matrix with real spectrum: eigenvalues and a matrix whose columns
are eigenvectors. -/
structure EigPair (k : Nat) where
  vals : Fin k → ℝ
  vecs : Matrix (Fin k) (Fin k) ℝ

open Classical in
/-- `orthonormalize`, xii/linalg/sherman_morrison.py:8-33.  `eig` is `np.linalg.eig` (real spectrum: the
assertion of line 22 is not modelled), `rnd` is the rounding of line 27. -/
noncomputable def orthonormalize (eig : ∀ k, Matrix (Fin k) (Fin k) ℝ → EigPair k) (rnd : ℝ → ℝ)
    (zs : List (Vec n)) (M : Matrix (Fin n) (Fin n) ℝ) : Py (List (Vec n)) :=
  let r := eig zs.length (gram M zs)
  if ∀ i, 0 < r.vals i then
    if Function.Injective (fun i => rnd (r.vals i)) then
      .ok ((List.finRange zs.length).map (fun k =>
        (1 / Real.sqrt (r.vals k)) • ∑ i, r.vecs i k • zs[i]))
    else .error .assertion
  else .error .assertion

/-- `Projector`: `primal_basis`, `dual_basis` and `M`, xii/linalg/sherman_morrison.py:48-50. -/
structure Projector (n : Nat) where
  primal : List (Vec n)
  dual : List (Vec n)
  M : Matrix (Fin n) (Fin n) ℝ

/-- The last lines of the constructor, xii/linalg/sherman_morrison.py:48-50. -/
def Projector.of (basis : List (Vec n)) (M : Matrix (Fin n) (Fin n) ℝ) : Projector n :=
  ⟨basis, basis.map (M *ᵥ ·), M⟩

/-- The constructor, xii/linalg/sherman_morrison.py:38-50.  `zs` are the interpolated nullspace vectors
and `M` the assembled mass matrix. -/
noncomputable def Projector.make (eig : ∀ k, Matrix (Fin k) (Fin k) ℝ → EigPair k) (rnd : ℝ → ℝ)
    (zs : List (Vec n)) (M : Matrix (Fin n) (Fin n) ℝ) : Py (Projector n) := do
  let basis ← orthonormalize eig rnd zs M
  .ok (Projector.of basis M)

/-- The sum `sum_i (d_i, x) p_i` as computed by the loops of lines 54-60 and 117-122; `next` of the empty
basis raises. -/
def expand (basis : List (Vec n × Vec n)) (x : Vec n) : Py (Vec n) :=
  match basis with
  | [] => .error .stopIteration
  | (z, d) :: rest => .ok (rest.foldl (fun y p => y + (p.2 ⬝ᵥ x) • p.1) ((d ⬝ᵥ x) • z))

/-- `Projector.matvec`, xii/linalg/sherman_morrison.py:52-62. -/
def Projector.matvec (P : Projector n) (x : Vec n) : Py (Vec n) := do
  let y ← expand (P.primal.zip P.dual) x
  .ok (x - y)

/-- `Projector.collapse`, xii/linalg/sherman_morrison.py:65-73 (conversion of the product and the
difference is property C04).  Defined for `dual` of the same length as `primal`. -/
def Projector.collapse (P : Projector n) : Matrix (Fin n) (Fin n) ℝ :=
  fun i j => (1 : Matrix (Fin n) (Fin n) ℝ) i j -
    ((P.primal.zip P.dual).map (fun p => p.1 i * p.2 j)).sum

/-- `L20_inner_product.matvec`, xii/linalg/sherman_morrison.py:85-87: `M*P*x` is `M*(P*x)`. -/
def l20 (P : Projector n) (x : Vec n) : Py (Vec n) := do
  let y ← P.matvec x
  .ok (P.M *ᵥ y)

/-- `L20_inner_product.collapse`, xii/linalg/sherman_morrison.py:90-94. -/
def l20Collapse (P : Projector n) : Matrix (Fin n) (Fin n) ℝ := P.M * P.collapse

/-- `L20_riesz_map.matvec`, xii/linalg/sherman_morrison.py:114-125 with the scale of line 112; `iM` is the
action of the solver.  `1/0` raises, after the loop. -/
noncomputable def riesz (P : Projector n) (iM : Vec n → Vec n) (x : Vec n) : Py (Vec n) := do
  let y := iM x
  let w ← expand (P.primal.zip P.dual) y
  if (1 : Int) - P.primal.length = 0 then .error .zeroDivision
  else .ok (x + (1 / ((1 : ℝ) - P.primal.length)) • w)

end Verif.L20
