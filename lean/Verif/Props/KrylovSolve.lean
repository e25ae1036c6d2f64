import Verif.Model.KrylovSolve
import Verif.Props.Krylov
import Mathlib.Algebra.Order.Field.Rat
/-!
# C78: the Krylov drivers
-/
namespace Verif.Krylov
open Verif BlockOps

variable {K : Type}

theorem fillInto_fill (arr : List K) : ∀ (x0 : List (List K)) (first : Nat) (xs : List (List K)),
    fill arr first (x0.map List.length) = .ok xs → fillInto arr first x0 = (xs, none)
  | [], _, xs, h => by
      rw [List.map_nil, fill] at h
      cases h; rfl
  | x :: x0, first, xs, h => by
      rw [List.map_cons, fill] at h
      split at h
      · next hs =>
        obtain ⟨rest, h1, h2⟩ := py_bind_eq_ok.1 h
        cases h2
        simp only [fillInto, if_pos hs, fillInto_fill arr x0 _ rest h1]
      · cases h

/-- If the method converges to a solution of the flattened system, then the block vector which is returned solves the
    block system, and it is what the blocks of the initial guess hold after the call.  With or without a
    preconditioner, in pyamg_solve and scipy_solve. -/
theorem krylov_solve_solves (record : List K → K) (method : Method K) (A : BlockOp K) (M : Option (BlockOp K))
    (hA : IsBlockOp A) (hsq : A.rows = A.cols) (bb x0 : List (List K)) (hb : HasDims A.rows bb)
    (hx : HasDims A.cols x0) (a : Answer K)
    (hs : method (matvec A) (M.map matvec) bb.flatten x0.flatten = .ok a) (h0 : a.status = 0)
    (hok : matvec A a.arr = .ok bb.flatten) :
    ∃ xs, krylovSolve record method A M bb x0 = ⟨xs, .ok (xs, a.calls.map record)⟩ ∧ HasDims A.cols xs ∧
      A.apply xs = .ok bb := by
  obtain ⟨xs, h1, h2, h3⟩ := solve_solves (fun _ _ _ => .ok a.arr) A hA hsq bb x0 hb hx a.arr rfl hok
  refine ⟨xs, ?_, h2, h3⟩
  rw [solve, py_bind_ok] at h1
  rw [krylovSolve, hs]
  simp only [finish, if_pos h0, fillInto_fill _ _ _ _ h1]

/-- If the method fails or does not converge the initial guess is left as it was and the call raises. -/
theorem krylov_solve_fails (record : List K → K) (method : Method K) (A : BlockOp K) (M : Option (BlockOp K))
    (bb x0 : List (List K))
    (h : ∀ a, method (matvec A) (M.map matvec) bb.flatten x0.flatten = .ok a → a.status ≠ 0) :
    ∃ e, krylovSolve record method A M bb x0 = ⟨x0, .error e⟩ := by
  rw [krylovSolve]
  cases hm : method (matvec A) (M.map matvec) bb.flatten x0.flatten with
  | error e => exact ⟨e, rfl⟩
  | ok a => exact ⟨.assertion, by simp only [finish, if_neg (h a hm)]⟩

/-- The preconditioner is applied as the flattened operator, too. -/
theorem krylov_preconditioner (A M : BlockOp K) (hM : IsBlockOp M) (hsq : M.rows = M.cols) (method : Method K)
    (record : List K → K) (bb x0 : List (List K)) :
    ∃ P : List K → Py (List K),
      (∀ xs, HasDims M.cols xs → ∃ ys, M.apply xs = .ok ys ∧ P xs.flatten = .ok ys.flatten) ∧
      krylovSolve record method A (some M) bb x0 =
        match method (matvec A) (some P) bb.flatten x0.flatten with
        | .ok a => finish record x0 a
        | .error e => ⟨x0, .error e⟩ :=
  ⟨matvec M, fun xs hx => matvec_flattens_partial M hM hsq xs hx, rfl⟩

/-- A system with one unknown. -/
def oneOp : BlockOp ℚ where
  rows := [1]
  cols := [1]
  apply xs := if xs.map List.length = [1] then .ok xs else .error .runtimeError

theorem oneOp_ok : IsBlockOp oneOp := fun _ => ⟨fun h => ⟨_, if_pos h, h⟩, fun h => ⟨_, if_neg h⟩⟩

/-- Richardson's iteration for the identity: it ends with the right hand side, which is the iterate `callback` gets (as it
    does from the methods of scipy). -/
def richardson : Method ℚ := fun _ _ b _ => .ok ⟨b, 0, [b]⟩

/-- The maximum norm. -/
def maxNorm (x : List ℚ) : ℚ := x.foldr (fun a b => max |a| b) 0

/-- The numbers which scipy_solve returns as residuals are norms of the iterates: the last one is 3 although the
    residual of the solution is zero. -/
theorem scipy_residuals_are_not :
    krylovSolve maxNorm richardson oneOp none [[3]] [[0]] = ⟨[[3]], .ok ([[3]], [3])⟩ ∧
      oneOp.apply [[3]] = .ok [[3]] := by
  refine ⟨?_, rfl⟩
  have : maxNorm [3] = 3 := by decide +kernel
  simp [krylovSolve, richardson, finish, fillInto, this]

example : ∃ xs, krylovSolve maxNorm richardson oneOp none [[3]] [[0]] = ⟨xs, .ok (xs, [[3]].map maxNorm)⟩ ∧
    HasDims oneOp.cols xs ∧ oneOp.apply xs = .ok [[3]] :=
  krylov_solve_solves maxNorm richardson oneOp none oneOp_ok rfl [[3]] [[0]] rfl rfl ⟨[3], 0, [[3]]⟩ rfl rfl
    (by simp [matvec, oneOp, fill])

end Verif.Krylov
