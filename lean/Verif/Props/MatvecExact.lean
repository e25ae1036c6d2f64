import Verif.Props.Krylov
/-!
# C92: when the Krylov wrapper applies an operator, and what it gives
-/
namespace Verif.Krylov
open Verif BlockOps

variable {K : Type}

/-- **C92**.  For every block operator and every array: the wrapper gives `r` exactly if the row and column
sizes of the operator are the same, the array is the blocks of some block vector `x` one after another,
and `r` is the blocks of `A x` one after another.  In all other cases it raises. -/
theorem matvec_iff (A : BlockOp K) (hA : IsBlockOp A) (arr r : List K) :
    matvec A arr = .ok r ↔ A.rows = A.cols ∧ ∃ xs ys, HasDims A.cols xs ∧ xs.flatten = arr ∧
      A.apply xs = .ok ys ∧ ys.flatten = r := by
  constructor
  · intro h
    have hsq : A.rows = A.cols := by
      by_contra hne
      obtain ⟨e, he⟩ := matvec_rectangular_fails A hA hne arr
      rw [he] at h; cases h
    refine ⟨hsq, ?_⟩
    have hlen : arr.length = A.cols.sum := by
      by_contra hl
      rw [matvec, if_neg hl] at h
      cases h
    obtain ⟨xs, h1, h2⟩ := exists_pieces A.cols arr hlen
    obtain ⟨ys, h3, h4⟩ := matvec_flattens_partial A hA hsq xs h1
    rw [h2, h] at h4
    exact ⟨xs, ys, h1, h2, h3, (Except.ok.inj h4).symm⟩
  · rintro ⟨hsq, xs, ys, h1, rfl, h3, rfl⟩
    obtain ⟨ys', h4, h5⟩ := matvec_flattens_partial A hA hsq xs h1
    rw [h3] at h4
    rw [h5, Except.ok.inj h4]

/-- **C92**.  The wrapper can be applied exactly to arrays of the right length, for operators with equal row and
column sizes only. -/
theorem matvec_applies_iff (A : BlockOp K) (hA : IsBlockOp A) (arr : List K) :
    (∃ r, matvec A arr = .ok r) ↔ A.rows = A.cols ∧ arr.length = A.cols.sum := by
  constructor
  · rintro ⟨r, h⟩
    obtain ⟨h1, xs, ys, h2, rfl, _, _⟩ := (matvec_iff A hA arr r).1 h
    refine ⟨h1, ?_⟩
    rw [List.length_flatten]
    exact congrArg List.sum h2
  · rintro ⟨h1, h2⟩
    obtain ⟨xs, h3, rfl⟩ := exists_pieces A.cols arr h2
    obtain ⟨ys, _, h5⟩ := matvec_flattens_partial A hA h1 xs h3
    exact ⟨_, h5⟩

/-- Swapping two blocks of sizes 1 and 1. -/
example : ∃ A : BlockOp Int, IsBlockOp A ∧ A.rows = A.cols ∧ matvec A [3, 4] = .ok [4, 3] := by
  refine ⟨⟨[1, 1], [1, 1], fun xs => if xs.map List.length = [1, 1] then .ok xs.reverse else .error .runtimeError⟩,
    ?_, rfl, rfl⟩
  intro xs
  constructor
  · intro h
    have h' : xs.map List.length = [1, 1] := h
    exact ⟨xs.reverse, if_pos h', by simp [HasDims, h']⟩
  · exact fun h => ⟨_, if_neg h⟩

end Verif.Krylov
