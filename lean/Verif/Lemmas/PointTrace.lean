import Verif.Model.PointTrace
import Verif.Lemmas.Patch
import Verif.Lemmas.Average
import Mathlib.Tactic.Ring
/-! Lemmas about point traces. -/
namespace Verif.PointTrace
open Verif Verif.BlockOps Verif.DofMat Verif.Trace Verif.Average Verif.Patch Finset
variable {K P : Type}

theorem sum_range_list {M : Type} [AddCommMonoid M] (f : Nat → M) (n : Nat) :
    ((List.range n).map f).sum = ∑ l ∈ range n, f l := by
  induction n with
  | zero => simp
  | succ n ih => rw [List.range_succ, List.map_append, List.sum_append, ih, Finset.sum_range_succ]; simp

theorem zip_range {α : Type} (g : Nat → α) (cols : List Nat) {n : Nat} (h : cols.length = n) :
    cols.zip ((List.range n).map g) = (List.range n).map (fun l => (cols.getD l 0, g l)) := by
  refine List.ext_getElem (by simp [h]) (fun i h1 h2 => ?_)
  have hc : i < cols.length := by simp at h1; omega
  rw [List.getElem_zip, List.getElem_map, List.getElem_map, List.getElem_range,
    List.getD_eq_getElem?_getD, List.getElem?_eq_getElem hc]
  rfl

theorem sum_zip_range [CommRing K] (g u : Nat → K) (cols : List Nat) {n : Nat} (h : cols.length = n) :
    ((cols.zip ((List.range n).map g)).map (fun p => p.2 * u p.1)).sum =
      ∑ l ∈ range n, u (cols.getD l 0) * g l := by
  rw [zip_range g cols h, List.map_map, ← sum_range_list]
  refine congrArg _ (List.map_congr_left (fun l _ => ?_))
  exact mul_comm _ _

theorem flat_one (V : Space K (P × Nat)) (c : Nat) (p : P) :
    flatBasis V 1 c p = (List.range V.spaceDim).map (fun l => V.basis c l (p, 0)) := by
  simp [flatBasis, List.flatMap_singleton', List.flatMap_def, List.map_map]
  induction V.spaceDim with
  | zero => rfl
  | succ n ih => simp [List.range_succ, ih]

/-- One row made of the dofs of a cell. -/
theorem one_row [CommRing K] {V : Space K (P × Nat)} (hV : V.WF) {m row cell : Nat} (hc : cell < V.numCells) (hr : row < m)
    (g : Nat → K) : ∃ M, csr m V.dim (extend ([], [], []) row (V.cellDofs cell) ((List.range V.spaceDim).map g)).1
        (extend ([], [], []) row (V.cellDofs cell) ((List.range V.spaceDim).map g)).2.1
        (extend ([], [], []) row (V.cellDofs cell) ((List.range V.spaceDim).map g)).2.2 = .ok M ∧
      M.rows = m ∧ M.cols = V.dim ∧ ∀ u d, d < m → M.act u d =
        if d = row then ∑ l ∈ range V.spaceDim, u ((V.cellDofs cell).getD l 0) * g l else 0 := by
  obtain ⟨M, h1, h2, h3, h4⟩ := ((Acc.nil m V.dim).extend hr (hV.lt cell hc)
    (vals := (List.range V.spaceDim).map g) (by simp [hV.len cell hc])).csr
  refine ⟨M, h1, h2, h3, fun u d hd => ?_⟩
  rw [h4 u d hd, sum_zip_range g u _ (hV.len cell hc), zero_add]

/-! ## The loop over components -/

theorem index_self {all : List Nat} (hn : all.Nodup) : pyMap (pyIndex all) all = .ok (List.range all.length) := by
  rw [pyMap_eq_ok, List.forall₂_iff_get]
  refine ⟨by simp, fun i h1 h2 => ?_⟩
  simp only [List.get_eq_getElem, List.getElem_range]
  rw [pyIndex, if_pos (List.getElem_mem h1), hn.idxOf_getElem i h1]

theorem get_range {α : Type} (vals : List α) {n : Nat} (h : vals.length = n) :
    pyMap (pyGet vals) (List.range n) = .ok vals := by
  rw [pyMap_eq_ok, List.forall₂_iff_get]
  refine ⟨by simp [h], fun i h1 h2 => ?_⟩
  simp only [List.get_eq_getElem, List.getElem_range]
  rw [pyGet_eq_ok, List.getElem?_eq_getElem h2]

end Verif.PointTrace
