import Mathlib.Algebra.BigOperators.Group.Finset.Basic
import Mathlib.Algebra.BigOperators.Ring.Finset
import Mathlib.Algebra.BigOperators.Intervals
import Mathlib.Algebra.Ring.Defs
/-!
# Matrices as values

A PETSc/dolfin matrix is modelled by its size and its entries over a commutative ring
(exact arithmetic).  Entries outside of the matrix are zero, so two matrices are equal
exactly when they have the same size and the same entries.
-/
namespace Verif

open Finset

/-- A matrix: `A.size(0) = rows`, `A.size(1) = cols`. -/
structure Mat (K : Type) [Zero K] where
  rows : Nat
  cols : Nat
  e : Nat → Nat → K
  supp : ∀ i j, rows ≤ i ∨ cols ≤ j → e i j = 0

namespace Mat
variable {K : Type}

@[ext] theorem ext' [Zero K] {A B : Mat K} (hr : A.rows = B.rows) (hc : A.cols = B.cols)
    (he : ∀ i j, i < A.rows → j < A.cols → A.e i j = B.e i j) : A = B := by
  have : A.e = B.e := by
    funext i j
    by_cases h : A.rows ≤ i ∨ A.cols ≤ j
    · rw [A.supp i j h, B.supp i j (by rwa [← hr, ← hc])]
    · push Not at h
      exact he i j h.1 h.2
  cases A; cases B
  simp only at hr hc this
  subst hr hc this
  rfl

/-- A matrix from a function on indices. -/
def of [Zero K] (m n : Nat) (f : Nat → Nat → K) : Mat K where
  rows := m
  cols := n
  e i j := if i < m ∧ j < n then f i j else 0
  supp i j h := by rw [if_neg]; omega

@[simp] theorem of_rows [Zero K] (m n : Nat) (f : Nat → Nat → K) : (of m n f).rows = m := rfl
@[simp] theorem of_cols [Zero K] (m n : Nat) (f : Nat → Nat → K) : (of m n f).cols = n := rfl
theorem of_e [Zero K] (m n : Nat) (f : Nat → Nat → K) (i j : Nat) :
    (of m n f).e i j = if i < m ∧ j < n then f i j else 0 := rfl

variable [CommRing K]

/-- PETSc `matMult` (sizes are checked by the caller). -/
def mul (A B : Mat K) : Mat K where
  rows := A.rows
  cols := B.cols
  e i j := ∑ k ∈ range A.cols, A.e i k * B.e k j
  supp i j h := by
    apply sum_eq_zero
    intro k _
    rcases h with h | h
    · rw [A.supp i k (Or.inl h), zero_mul]
    · rw [B.supp k j (Or.inr h), mul_zero]

/-- PETSc `axpy(c, B)` on a copy of `A`: `A + c B` for matrices of equal size. -/
def axpy (c : K) (A B : Mat K) : Mat K := of A.rows A.cols (fun i j => A.e i j + c * B.e i j)

/-- PETSc `scale`. -/
def scale (c : K) (A : Mat K) : Mat K where
  rows := A.rows
  cols := A.cols
  e i j := c * A.e i j
  supp i j h := by rw [A.supp i j h, mul_zero]

/-- PETSc `transpose`. -/
def tr (A : Mat K) : Mat K where
  rows := A.cols
  cols := A.rows
  e i j := A.e j i
  supp i j h := A.supp j i h.symm

/-- `diagonal_matrix`, xii/linalg/matrix_utils.py:46-56. -/
def diag (n : Nat) (c : K) : Mat K := of n n (fun i j => if i = j then c else 0)

/-- `zero_matrix`, xii/linalg/matrix_utils.py:90-101. -/
def zero (m n : Nat) : Mat K := of m n (fun _ _ => 0)

/-- Matrix-vector product.  Vectors are functions of the index. -/
def act (A : Mat K) (x : Nat → K) : Nat → K := fun i => ∑ k ∈ range A.cols, A.e i k * x k

/-- A small literal matrix from the list of its rows. -/
def lit (m n : Nat) (rows : List (List K)) : Mat K := of m n (fun i j => (rows.getD i []).getD j 0)

end Mat
end Verif
