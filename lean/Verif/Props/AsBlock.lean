import Verif.Lemmas.AsBlock
/-!
# C09: splitting and merging
-/
namespace Verif.Collapse
open Verif BlockOps

variable {K : Type} [CommRing K]

/-- **C09**, vectors: `as_block(ii_convert(x), sizes) == x`. -/
theorem asBlock_convert_vec (xs : List (List K)) :
    asBlockVec (convertVec xs) (strides 0 (xs.map List.length)) = .ok xs := by
  simpa [convertVec] using asBlockVec_pieces xs []

/-- **C09**, vectors: `ii_convert(as_block(v, sizes)) == v`, with blocks of the given sizes. -/
theorem convert_asBlock_vec (v : List K) (ns : List Nat) (h : v.length = ns.sum) :
    ∃ xs : List (List K), asBlockVec v (strides 0 ns) = .ok xs ∧ xs.map List.length = ns ∧
      convertVec xs = v := by
  obtain ⟨xs, h1, h2⟩ := exists_pieces ns v h
  subst h1 h2
  exact ⟨xs, by simpa using asBlockVec_pieces xs [], rfl, rfl⟩

/-- **C09**, matrices: `ii_convert(as_block(M, sizes)) == M`. -/
theorem convert_asBlock_mat (tiny : Tiny K) (fuel : Nat) (M : Mat K) (ns : List Nat)
    (hr : M.rows = ns.sum) (hc : M.cols = ns.sum) :
    ∃ blocks : List (List (Mat K)), asBlockMat M (strides 0 ns) = .ok blocks ∧
      MatLayout ns blocks ∧ convertMat tiny (fuel + 1) ns ns (matBlocks blocks) = .ok M := by
  refine ⟨_, asBlockMat_eq M ns hr hc, blocks_layout M ns, ?_⟩
  rw [convertMat_mats tiny fuel ns _ (blocks_layout M ns), zip_offs_hcat, vcat_blocks,
    show ns.sum = M.rows from hr.symm]
  conv_lhs => rw [show Mat.block M 0 M.rows 0 M.rows = Mat.block M 0 M.rows 0 M.cols by rw [hr, hc]]
  rw [block_all]

/-- **C09**, matrices: `as_block(ii_convert(A), sizes) == A` for a block matrix of matrices
with equal row and column sizes. -/
theorem asBlock_convert_mat (tiny : Tiny K) (fuel : Nat) (blocks : List (List (Mat K))) (ns : List Nat)
    (h : MatLayout ns blocks) :
    ∃ M, convertMat tiny (fuel + 1) ns ns (matBlocks blocks) = .ok M ∧
      asBlockMat M (strides 0 ns) = .ok blocks := by
  refine ⟨_, convertMat_mats tiny fuel ns blocks h, ?_⟩
  rw [asBlockMat_eq _ ns _ (by rw [vcat_cols])]
  · rw [cut_vcat ns blocks ns _ 0 h.1 h.2]
    intro i j _ _
    rw [Nat.zero_add]
  · rw [vcat_rows, List.map_map]
    have : (Mat.rows ∘ fun p : Nat × List (Mat K) => hcat p.1 p.2) = Prod.fst := by
      funext p; simp [hcat_rows]
    rw [this, List.map_fst_zip (by simpa using h.1.ge)]

example : MatLayout [1, 2] [[Mat.lit 1 1 [[1]], Mat.lit 1 2 [[2, 3]]],
    [Mat.lit 2 1 [[4], [7]], (Mat.lit 2 2 [[5, 6], [8, (9 : Int)]])]] := by
  refine ⟨rfl, ?_⟩
  intro i row r hi hr
  match i with
  | 0 => simp at hi hr; subst hi hr; simp [Mat.lit]
  | 1 => simp at hi hr; subst hi hr; simp [Mat.lit]
  | i + 2 => simp at hi

example : asBlockVec (convertVec [[1, 2], [], [(3 : Int)]]) (strides 0 [2, 0, 1]) = .ok [[1, 2], [], [3]] :=
  asBlock_convert_vec [[1, 2], [], [(3 : Int)]]

end Verif.Collapse
