import Mathlib.Analysis.SpecialFunctions.Pow.Real
import Mathlib.Data.Matrix.Mul
import Verif.Model.Py
/-!
# `xii/linalg/hsmg_utils.py`
-/
namespace Verif.Hsmg
open Verif Matrix

variable {n : Nat}

/-- `hsmg.hseig.InterpolationMatrix`: matrices `A`, `M`, the power and the eigenvalues and eigenvectors if
they have been computed.  All matrices of an expression have the same size `n`: this is what
`is_well_defined`, xii/linalg/hsmg_utils.py:61-74, checks. -/
structure Interp (n : Nat) where
  A : Matrix (Fin n) (Fin n) ℝ
  M : Matrix (Fin n) (Fin n) ℝ
  s : ℝ
  eig : Option ((Fin n → ℝ) × Matrix (Fin n) (Fin n) ℝ) := none

/-- Expressions of cbc.block.  `other` is any other operator. -/
inductive HExpr (n : Nat) where
  | interp (t : Interp n)
  | num (a : ℝ)
  | add (x y : HExpr n)
  | sub (x y : HExpr n)
  | mul (chain : List (HExpr n))
  | other (X : Matrix (Fin n) (Fin n) ℝ)

/-- Concatenation of results: `None` cannot be added to a list. -/
def plus (a b : Option (List (ℝ × ℝ))) : Py (Option (List (ℝ × ℝ))) :=
  match a, b with
  | some a, some b => .ok (some (a ++ b))
  | _, _ => .error .typeError

/-- The comprehension of line 87: `None` cannot be iterated. -/
def negate : Option (List (ℝ × ℝ)) → Py (Option (List (ℝ × ℝ)))
  | some b => .ok (some (b.map (fun p => (-p.1, p.2))))
  | none => .error .typeError

/-- The product branch, xii/linalg/hsmg_utils.py:89-98. -/
def collectMul : List (HExpr n) → Py (Option (List (ℝ × ℝ)))
  | [.interp t, .num b] => .ok (some [(b, t.s)])
  | [.num a, .interp t] => .ok (some [(a, t.s)])
  | _ => .error .assertion

/-- `collect`, xii/linalg/hsmg_utils.py:77-98; other operators and numbers fall through and give `None`.
In the difference `collect(B)` is evaluated first. -/
def collect : HExpr n → Py (Option (List (ℝ × ℝ)))
  | .interp t => .ok (some [(1, t.s)])
  | .add x y => do
      let a ← collect x
      let b ← collect y
      plus a b
  | .sub x y => do
      let b ← collect y
      let a ← collect x
      let b ← negate b
      plus a b
  | .mul chain => collectMul chain
  | .num _ => .ok none
  | .other _ => .ok none

mutual
/-- The interpolation matrices met by `crawl`, xii/linalg/hsmg_utils.py:43-58 (numbers have no attributes). -/
def crawl : HExpr n → List (Interp n)
  | .interp t => [t]
  | .add x y => crawl x ++ crawl y
  | .sub x y => crawl x ++ crawl y
  | .mul chain => crawlChain chain
  | .num _ => []
  | .other _ => []
/-- The loop over the factors, xii/linalg/hsmg_utils.py:45-48. -/
def crawlChain : List (HExpr n) → List (Interp n)
  | [] => []
  | x :: xs => crawl x ++ crawlChain xs
end

/-- The eigenvalues and eigenvectors, xii/linalg/hsmg_utils.py:25-30: the first ones which have been
computed, otherwise those of the first `A` and `M`, computed by `scipy.linalg.eigh`.  Without matrices `A` is
`None` and `A.array()` raises. -/
def eigenpairs (eigh : Matrix (Fin n) (Fin n) ℝ → Matrix (Fin n) (Fin n) ℝ → (Fin n → ℝ) × Matrix (Fin n) (Fin n) ℝ)
    (items : List (Interp n)) : Py ((Fin n → ℝ) × Matrix (Fin n) (Fin n) ℝ) :=
  match items.filterMap Interp.eig with
  | p :: _ => .ok p
  | [] =>
      match items with
      | [] => .error .attributeError
      | t :: _ => .ok (eigh t.A t.M)

/-- The loop of lines 32-34.  Eigenvalues are meant to be positive: numpy's power of a negative number is `nan` and a negative
power of zero is `inf`, which are not modelled. -/
noncomputable def combined (lam : Fin n → ℝ) (l : List (ℝ × ℝ)) : Fin n → ℝ :=
  l.foldl (fun d p => d + fun i => p.1 * lam i ^ p.2) 0

/-- Lines 35-40. -/
noncomputable def invertIn (p : (Fin n → ℝ) × Matrix (Fin n) (Fin n) ℝ) : Option (List (ℝ × ℝ)) → Py (Matrix (Fin n) (Fin n) ℝ)
  | none => .error .typeError
  | some l => .ok (p.2 * diagonal (fun i => 1 / combined p.1 l i) * p.2ᵀ)

/-- `inverse` of a composed expression, xii/linalg/hsmg_utils.py:23-40; `1/0` of numpy does not raise and is not
modelled (the theorem excludes it).  A single matrix is inverted by hsmg itself (lines 17-18). -/
noncomputable def inverse
    (eigh : Matrix (Fin n) (Fin n) ℝ → Matrix (Fin n) (Fin n) ℝ → (Fin n → ℝ) × Matrix (Fin n) (Fin n) ℝ)
    (e : HExpr n) : Py (Matrix (Fin n) (Fin n) ℝ) := do
  let p ← eigenpairs eigh (crawl e)
  let l ← collect e
  invertIn p l

end Verif.Hsmg
