import Verif.Model.L20
import Mathlib.LinearAlgebra.Span.Defs
/-! # Inner products given by matrices -/
namespace Verif.L20
open Verif Matrix

variable {n : Nat}

/-- The inner product of the matrix `M`. -/
def ip (M : Matrix (Fin n) (Fin n) ℝ) (u v : Vec n) : ℝ := u ⬝ᵥ (M *ᵥ v)

/-- The list of vectors is orthonormal in the inner product of `M`. -/
def MOrthonormal (M : Matrix (Fin n) (Fin n) ℝ) (zs : List (Vec n)) : Prop :=
  ∀ i j (hi : i < zs.length) (hj : j < zs.length), ip M zs[i] zs[j] = if i = j then 1 else 0

/-- What is assumed of `np.linalg.eig`: columns are normalised eigenvectors. -/
def EigSpec (eig : ∀ k, Matrix (Fin k) (Fin k) ℝ → EigPair k) : Prop :=
  ∀ k (G : Matrix (Fin k) (Fin k) ℝ), G.IsSymm → ∀ j,
    G *ᵥ (fun i => (eig k G).vecs i j) = (eig k G).vals j • (fun i => (eig k G).vecs i j) ∧
    (fun i => (eig k G).vecs i j) ⬝ᵥ (fun i => (eig k G).vecs i j) = 1

/-- The span of a list. -/
def spanOf (zs : List (Vec n)) : Submodule ℝ (Vec n) := Submodule.span ℝ {v | v ∈ zs}

end Verif.L20
