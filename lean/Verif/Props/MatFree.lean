import Verif.Lemmas.MatFree
/-!
# C24: matrix-free operators convert to their matrix
-/
namespace Verif.MatFree
open Verif Matrix

variable {K : Type} [CommRing K] {m n : Nat}

/-- **C24** The column-by-column branch of `ii_convert` returns the matrix with the action of the operator. -/
theorem columnConvert_acts (hn : 0 < n) (op : Op K m n) (L : (Fin n → K) →ₗ[K] (Fin m → K))
    (h : ∀ x, op x = .ok (L x)) : ∃ A, columnConvert op = .ok A ∧ ∀ x, .ok (A *ᵥ x) = op x := by
  obtain rfl : op = fun x => .ok (L x) := funext h
  refine ⟨LinearMap.toMatrix' L, ?_, fun x => ?_⟩
  · rw [columnConvert, basisColumns_zero, py_bind_ok, stackT_columns hn]
  · rw [LinearMap.toMatrix'_mulVec]

/-- **C24** Every call of `FESpaceOperator.collapse`, after any number of calls, returns the matrix with the
action of the operator, if `create_vec` first returns a zero vector; later vectors are irrelevant. -/
theorem femCollapse_acts_partial (hn : 0 < n) (op : Op K m n) (L : (Fin n → K) →ₗ[K] (Fin m → K))
    (h : ∀ x, op x = .ok (L x)) : ∃ A, (∀ x, .ok (A *ᵥ x) = op x) ∧
      ∀ xs : List (Fin n → K), (FemOp.mk op none).calls (0 :: xs) = .ok (List.replicate (xs.length + 1) A) := by
  obtain rfl : op = fun x => .ok (L x) := funext h
  refine ⟨LinearMap.toMatrix' L, fun x => by rw [LinearMap.toMatrix'_mulVec], fun xs => ?_⟩
  have key : ∀ (xs : List (Fin n → K)) (A : Matrix (Fin m) (Fin n) K) (op : Op K m n),
      (FemOp.mk op (some A)).calls xs = .ok (List.replicate xs.length A) := by
    intro xs A op
    induction xs with
    | nil => rfl
    | cons x xs ih =>
        rw [FemOp.calls, FemOp.collapse]
        simp only [py_bind_ok]
        rw [ih]; rfl
  rw [FemOp.calls, FemOp.collapse]
  simp only
  rw [femColumns_zero, py_bind_ok, stackT_columns hn]
  simp only [py_bind_ok]
  rw [key]; rfl

/-- **C24** relies on `create_vec` returning a zero vector: with a reused vector the identity is converted to
another matrix. -/
theorem femCollapse_needs_zero : ∃ (x0 : Fin 2 → ℤ) (A : Matrix (Fin 2) (Fin 2) ℤ),
    (FemOp.mk (fun x : Fin 2 → ℤ => .ok x) none).calls [x0] = .ok [A] ∧ A *ᵥ ![1, 0] ≠ ![1, 0] := by
  refine ⟨![0, 5], !![1, 0; 5, 1], ?_, by decide⟩
  have h1 : ∀ j : Fin 2, Function.update ![(0 : ℤ), 5] 0 1 j = ![1, 5] j := by decide
  have h2 : ∀ j : Fin 2, Function.update (Function.update (Function.update ![(0 : ℤ), 5] 0 1) 0 0) 1 1 j = ![0, 1] j := by
    decide
  have e : List.finRange 2 = [0, 1] := rfl
  simp only [FemOp.calls, FemOp.collapse, e, femColumns, py_bind_ok, stackT, List.cons_ne_nil, if_false]
  refine congrArg (fun A => (.ok [A] : Py _)) ?_
  ext i j
  fin_cases j
  · have := h1 i
    fin_cases i <;> simpa using this
  · have := h2 i
    fin_cases i <;> simpa using this

/-- A linear operator which is not a matrix object. -/
example : ∃ A, columnConvert (fun x : Fin 2 → ℤ => (.ok (x ∘ Fin.rev) : Py (Fin 2 → ℤ))) = .ok A ∧
    ∀ x, .ok (A *ᵥ x) = (.ok (x ∘ Fin.rev) : Py (Fin 2 → ℤ)) :=
  columnConvert_acts (by decide) _ (LinearMap.funLeft ℤ ℤ Fin.rev) (fun _ => rfl)

end Verif.MatFree
