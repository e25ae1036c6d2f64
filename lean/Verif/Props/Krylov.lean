import Verif.Spec.Krylov
import Verif.Lemmas.BlockOps
/-!
# C25: the Krylov wrapper is the flattened block operator
-/
namespace Verif.Krylov
open Verif BlockOps

variable {K : Type}

theorem fill_flatten : ∀ (xs : List (List K)) (pre post : List K),
    fill (pre ++ xs.flatten ++ post) pre.length (xs.map List.length) = .ok xs
  | [], _, _ => rfl
  | x :: xs, pre, post => by
      have e : ((pre ++ (x :: xs).flatten ++ post).drop pre.length).take x.length = x := by
        simp [List.append_assoc]
      have e2 : pre ++ (x :: xs).flatten ++ post = (pre ++ x) ++ xs.flatten ++ post := by simp
      have ih := fill_flatten xs (pre ++ x) post
      rw [← e2, List.length_append] at ih
      simp only [List.map_cons, fill]
      rw [e, if_pos rfl, ih]
      rfl

theorem fill_dims (arr : List K) : ∀ (sizes : List Nat) (first : Nat) (xs : List (List K)),
    fill arr first sizes = .ok xs → HasDims sizes xs
  | [], _, xs, h => by cases h; rfl
  | s :: ss, first, xs, h => by
      simp only [fill] at h
      split at h
      · rename_i hs
        obtain ⟨rest, h1, h2⟩ := py_bind_eq_ok.mp h
        cases h2
        have := fill_dims arr ss _ _ h1
        simp only [HasDims] at this ⊢
        rw [List.map_cons, this, hs]
      · cases h

/-- **C25** For operators with equal row and column sizes the wrapper of the flat vector is the flat result. -/
theorem matvec_flattens_partial (A : BlockOp K) (hA : IsBlockOp A) (hsq : A.rows = A.cols)
    (xs : List (List K)) (hx : HasDims A.cols xs) :
    ∃ ys, A.apply xs = .ok ys ∧ matvec A xs.flatten = .ok ys.flatten := by
  obtain ⟨ys, h1, h2⟩ := (hA xs).1 hx
  refine ⟨ys, h1, ?_⟩
  have hf := fill_flatten xs [] []
  simp only [List.nil_append, List.append_nil, List.length_nil] at hf
  have hx' : xs.map List.length = A.cols := hx
  rw [matvec, if_pos (by rw [← hx', List.length_flatten]), hsq, ← hx', hf, py_bind_ok, h1]
  rfl

/-- **C25** is false for operators whose row and column sizes differ: the wrapper raises for every vector. -/
theorem matvec_rectangular_fails (A : BlockOp K) (hA : IsBlockOp A) (hne : A.rows ≠ A.cols) (arr : List K) :
    ∃ e, matvec A arr = .error e := by
  rw [matvec]
  split
  · cases h : fill arr 0 A.rows with
    | error e => exact ⟨e, rfl⟩
    | ok xs =>
        have hd := fill_dims arr _ _ _ h
        have : ¬ HasDims A.cols xs := fun h' => hne (by
          simp only [HasDims] at hd h'
          rw [← hd, h'])
        obtain ⟨e, he⟩ := (hA xs).2 this
        exact ⟨e, by rw [py_bind_ok, he]; rfl⟩
  · exact ⟨_, rfl⟩

/-- **C25** If the array found by the Krylov method solves the flat system, the block vector returned by
`pyamg_solve` and `scipy_solve` solves the block system. -/
theorem solve_solves (solver : (List K → Py (List K)) → List K → List K → Py (List K)) (A : BlockOp K)
    (hA : IsBlockOp A) (hsq : A.rows = A.cols) (bb x0 : List (List K)) (hb : HasDims A.rows bb)
    (hx : HasDims A.cols x0) (arr : List K) (hs : solver (matvec A) bb.flatten x0.flatten = .ok arr)
    (hok : matvec A arr = .ok bb.flatten) :
    ∃ xs, solve solver A bb x0 = .ok xs ∧ HasDims A.cols xs ∧ A.apply xs = .ok bb := by
  have hlen : arr.length = A.cols.sum := by
    rw [matvec] at hok
    split at hok
    · assumption
    · cases hok
  obtain ⟨xs, h1, h2⟩ := exists_pieces A.cols arr hlen
  have hx' : x0.map List.length = A.cols := hx
  have hd : xs.map List.length = A.cols := h1
  have hf := fill_flatten xs [] []
  simp only [List.nil_append, List.append_nil, List.length_nil] at hf
  refine ⟨xs, ?_, h1, ?_⟩
  · rw [solve, hs, py_bind_ok, hx', ← hd, ← h2, hf]
  · obtain ⟨ys, h3, h4⟩ := matvec_flattens_partial A hA hsq xs h1
    obtain ⟨ys', h5, h6⟩ := (hA xs).1 h1
    rw [← h2, h4] at hok
    have hfl : ys.flatten = bb.flatten := Except.ok.inj hok
    rw [h3] at h5
    cases h5
    rw [h3]
    congr 1
    have e1 := fill_flatten ys [] []
    have e2 := fill_flatten bb [] []
    simp only [List.nil_append, List.append_nil, List.length_nil] at e1 e2
    have h6' : ys.map List.length = A.rows := h6
    have hb' : bb.map List.length = A.rows := hb
    rw [h6', hfl] at e1
    rw [hb'] at e2
    exact Except.ok.inj (e1.symm.trans e2)

/-- The operator swapping two blocks of two entries. -/
def swapOp : BlockOp Int where
  rows := [2, 2]
  cols := [2, 2]
  apply xs := if xs.map List.length = [2, 2] then .ok xs.reverse else .error .runtimeError

example : IsBlockOp swapOp ∧ matvec swapOp [1, 2, 3, 4] = .ok [3, 4, 1, 2] := by
  refine ⟨fun xs => ⟨fun h => ⟨xs.reverse, if_pos h, ?_⟩, fun h => ⟨_, if_neg h⟩⟩, by decide⟩
  have h' : xs.map List.length = [2, 2] := h
  show xs.reverse.map List.length = [2, 2]
  rw [List.map_reverse, h']; rfl

/-- An operator from blocks of sizes 1, 2 to one block of size 2 (the last block). -/
def lastOp : BlockOp Int where
  rows := [2]
  cols := [1, 2]
  apply xs := if xs.map List.length = [1, 2] then .ok (xs.drop 1) else .error .runtimeError

example : IsBlockOp lastOp ∧ lastOp.rows ≠ lastOp.cols := by
  refine ⟨fun xs => ⟨fun h => ⟨xs.drop 1, if_pos h, ?_⟩, fun h => ⟨_, if_neg h⟩⟩, by decide⟩
  have h' : xs.map List.length = [1, 2] := h
  show (xs.drop 1).map List.length = [2]
  rw [List.map_drop, h']; rfl

end Verif.Krylov
