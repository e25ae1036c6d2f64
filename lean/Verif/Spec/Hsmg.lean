import Verif.Model.Hsmg
/-! # Fractional powers and their combinations -/
namespace Verif.Hsmg
open Verif Matrix

variable {n : Nat}

/-- Generalised eigenvalues and `M`-orthonormal eigenvectors. -/
def IsEig (A M : Matrix (Fin n) (Fin n) ℝ) (lam : Fin n → ℝ) (U : Matrix (Fin n) (Fin n) ℝ) : Prop :=
  A * U = M * U * diagonal lam ∧ Uᵀ * M * U = 1

/-- `X` is the power `s` of `A` in the inner product of `M`: `X = (M*U) * lambda^s * (M*U)'` (hsmg). -/
def IsPower (A M : Matrix (Fin n) (Fin n) ℝ) (s : ℝ) (X : Matrix (Fin n) (Fin n) ℝ) : Prop :=
  ∃ lam U, IsEig A M lam U ∧ X = M * U * diagonal (fun i => lam i ^ s) * (M * U)ᵀ

mutual
/-- The operator an expression stands for, given the matrices of interpolation operators. -/
def eval (H : Interp n → Matrix (Fin n) (Fin n) ℝ) : HExpr n → Matrix (Fin n) (Fin n) ℝ
  | .interp t => H t
  | .num a => a • 1
  | .add x y => eval H x + eval H y
  | .sub x y => eval H x - eval H y
  | .mul chain => evalChain H chain
  | .other X => X
/-- The product. -/
def evalChain (H : Interp n → Matrix (Fin n) (Fin n) ℝ) : List (HExpr n) → Matrix (Fin n) (Fin n) ℝ
  | [] => 1
  | x :: xs => eval H x * evalChain H xs
end

/-- Sums and differences of (scaled) interpolation matrices. -/
inductive LinComb : HExpr n → Prop
  | one (t) : LinComb (.interp t)
  | left (a t) : LinComb (.mul [.num a, .interp t])
  | right (a t) : LinComb (.mul [.interp t, .num a])
  | add {x y} : LinComb x → LinComb y → LinComb (.add x y)
  | sub {x y} : LinComb x → LinComb y → LinComb (.sub x y)

/-- The eigenvalues and eigenvectors which are used for an expression whose matrices are `items`, from left to right: the first
    ones which are known, otherwise those of the first matrix. -/
def Chosen (eigh : Matrix (Fin n) (Fin n) ℝ → Matrix (Fin n) (Fin n) ℝ → (Fin n → ℝ) × Matrix (Fin n) (Fin n) ℝ)
    (items : List (Interp n)) (p : (Fin n → ℝ) × Matrix (Fin n) (Fin n) ℝ) : Prop :=
  (∃ pre t post, items = pre ++ t :: post ∧ (∀ u ∈ pre, u.eig = none) ∧ t.eig = some p) ∨
    ((∀ u ∈ items, u.eig = none) ∧ ∃ t, items.head? = some t ∧ p = eigh t.A t.M)

/-- The power of an interpolation matrix, with eigenvalues and eigenvectors which need not be its own. -/
noncomputable def asIf (M : Matrix (Fin n) (Fin n) ℝ) (p : (Fin n → ℝ) × Matrix (Fin n) (Fin n) ℝ) (t : Interp n) :
    Matrix (Fin n) (Fin n) ℝ :=
  M * p.2 * diagonal (fun i => p.1 i ^ t.s) * (M * p.2)ᵀ

end Verif.Hsmg
