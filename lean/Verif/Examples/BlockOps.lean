import Verif.Props.BlockOps
import Verif.Props.BlockExact
/-!
# Operators on blocks

The theorems on selecting, rearranging and vectorizing (C20 - C23, C90) for vectors of three and four blocks.
-/
namespace Verif.BlockOps.Examples
open Verif BlockOps

theorem partition : IsPartition [[2, 0], [1]] ([1, 2, 1] : List Nat).length := ⟨by decide, by simp, by simp⟩

example := rearrangeT_splits [[2, 0], [1]] [1, 2, 1] partition ([[1], [2, 3], [4]] : List (List Int)) rfl
example := rearrange_roundtrip [[2, 0], [1]] [1, 2, 1] ([[1], [2, 3], [4]] : List (List Int)) partition rfl
example := rearrange_roundtrip' [[2, 0], [1]] [1, 2, 1] ([[4, 1], [2, 3]] : List (List Int)) partition rfl
example := rearrange_isometry [[2, 0], [1]] [1, 2, 1] ([[1], [2, 3], [4]] : List (List Int)) [[5], [6, 7], [8]] partition rfl rfl
example := reduction_isPartition [2, 3, 4] 4 rfl (by simp)

/-- Vectors with two components of two entries, interleaved. -/
example := vectorized_accepted (fun v : List Int => .ok (v.map (2 * ·))) [5, 5] 2 2 4 2 (fun v hv => ⟨_, rfl, by simp [hv]⟩)
  [[0, 2], [1, 3]] rfl (by simp) (by decide) rfl [[1, 2, 3, 4], [5, 6, 7, 8]] (by simp) [9, 9, 9, 9] rfl

/-- Block 1 is selected twice: transposing keeps the last one. -/
example := subSelectT_last [1, 0, 1] [1, 2] ([[1, 2], [3], [4, 5]] : List (List Int)) (by simp) rfl
example := subSelect_adjoint_iff (K := Int) [1, 0] [1, 2] (by simp) (by simp)

end Verif.BlockOps.Examples
