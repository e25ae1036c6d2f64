import Verif.Model.Mat
import Mathlib.Tactic.Ring
import Mathlib.Tactic.Linarith
/-! Action of matrices. -/
namespace Verif.Mat
open Finset
variable {K : Type} [CommRing K]

theorem mul_act (A B : Mat K) (h : A.cols = B.rows) (x : Nat → K) :
    (A.mul B).act x = A.act (B.act x) := by
  funext i
  simp only [act, mul, sum_mul, mul_sum]
  rw [sum_comm]
  refine sum_congr rfl (fun k _ => sum_congr rfl (fun j _ => by ring))

theorem of_act (m n : Nat) (f : Nat → Nat → K) (x : Nat → K) (i : Nat) :
    (of m n f).act x i = if i < m then ∑ j ∈ range n, f i j * x j else 0 := by
  simp only [act, of_cols, of_e]
  split
  · refine sum_congr rfl (fun j hj => ?_)
    rw [if_pos ⟨by assumption, mem_range.mp hj⟩]
  · refine sum_eq_zero (fun j _ => ?_)
    rw [if_neg (by tauto), zero_mul]

theorem act_of_le (A : Mat K) (x : Nat → K) (i : Nat) (h : A.rows ≤ i) : A.act x i = 0 :=
  sum_eq_zero (fun j _ => by rw [A.supp i j (Or.inl h), zero_mul])

theorem axpy_act (c : K) (A B : Mat K) (hr : A.rows = B.rows) (hc : A.cols = B.cols)
    (x : Nat → K) (i : Nat) : (axpy c A B).act x i = A.act x i + c * B.act x i := by
  rw [axpy, of_act]
  split
  · simp only [act, mul_sum, ← sum_add_distrib, ← hc]
    refine sum_congr rfl (fun j _ => by ring)
  · rw [act_of_le A x i (by omega), act_of_le B x i (by omega)]; simp

theorem scale_act (c : K) (A : Mat K) (x : Nat → K) (i : Nat) :
    (A.scale c).act x i = c * A.act x i := by
  simp only [act, scale, mul_sum]
  refine sum_congr rfl (fun j _ => by ring)

theorem act_smul (A : Mat K) (c : K) (x : Nat → K) (i : Nat) :
    A.act (fun j => c * x j) i = c * A.act x i := by
  simp only [act, mul_sum]
  refine sum_congr rfl (fun j _ => by ring)

theorem act_add (A : Mat K) (x y : Nat → K) (i : Nat) :
    A.act (fun j => x j + y j) i = A.act x i + A.act y i := by
  simp only [act, ← sum_add_distrib]
  refine sum_congr rfl (fun j _ => by ring)

theorem act_sub (A : Mat K) (x y : Nat → K) (i : Nat) :
    A.act (fun j => x j - y j) i = A.act x i - A.act y i := by
  simp only [act, ← sum_sub_distrib]
  refine sum_congr rfl (fun j _ => by ring)

theorem diag_act (n : Nat) (c : K) (x : Nat → K) (i : Nat) :
    (diag n c).act x i = if i < n then c * x i else 0 := by
  rw [diag, of_act]
  split
  · rw [sum_eq_single i]
    · simp
    · intro j _ hj; rw [if_neg (Ne.symm hj), zero_mul]
    · intro h; simp at h; omega
  · rfl

theorem zero_act (m n : Nat) (x : Nat → K) (i : Nat) : (zero m n : Mat K).act x i = 0 := by
  rw [zero, of_act]; simp

/-- Matrices of equal size and equal action are equal. -/
theorem eq_of_act (A B : Mat K) (hr : A.rows = B.rows) (hc : A.cols = B.cols)
    (h : ∀ x i, A.act x i = B.act x i) : A = B := by
  apply ext' hr hc
  intro i j _ hj
  have := h (fun k => if k = j then 1 else 0) i
  simp only [act] at this
  rw [sum_eq_single j, sum_eq_single j] at this
  · simpa using this
  · intro k _ hk; rw [if_neg hk, mul_zero]
  · intro hn; simp at hn; omega
  · intro k _ hk; rw [if_neg hk, mul_zero]
  · intro hn; simp at hn; omega

@[simp] theorem tr_tr (A : Mat K) : A.tr.tr = A := rfl
end Verif.Mat
