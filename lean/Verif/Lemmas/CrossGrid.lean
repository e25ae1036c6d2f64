import Verif.Model.CrossGrid
import Verif.Lemmas.Refine2
/-! # Lemmas about cross grid refinement -/
namespace Verif.CrossGrid
open Verif Verif.BlockOps Verif.Refine
variable {K E : Type} [Field K] [LinearOrder K] [IsStrictOrderedRing K] [AddCommGroup E] [Module K E]

theorem cellPts_ok {x : List E} {cell : List Nat} (h : ∀ v ∈ cell, v < x.length) :
    cellPts x cell = .ok (cell.map (fun v => x.getD v 0)) := by
  unfold cellPts
  apply pyMap_ok
  intro v hv
  rw [pyGet_ok (h v hv)]
  simp [List.getD_eq_getElem?_getD, List.getElem?_eq_getElem (h v hv)]

theorem children_one {x : List E} {n : Nat} : ∀ (cells : List (List Nat)) (center : Nat),
    (∀ cell ∈ cells, ∀ v ∈ cell, v < x.length) → center + cells.length ≤ x.length →
    children (K := K) (fun _ => 1) x n center cells = .ok (fineCells n center cells)
  | [], _, _, _ => rfl
  | cell :: cells, center, h, hc => by
      have hchild : ∀ i ∈ omitted n, child (K := K) (fun _ => 1) x cell center i = .ok (cell.eraseIdx i ++ [center]) := by
        intro i _
        have hv : ∀ v ∈ cell.eraseIdx i ++ [center], v < x.length := by
          intro v hv
          rcases List.mem_append.1 hv with hv | hv
          · exact h cell (by simp) v (List.mem_of_mem_eraseIdx hv)
          · have : v = center := by simpa using hv
            simp at hc
            omega
        have hlt : (1 : K) / 10 ^ 15 < 1 := by
          rw [div_lt_one (by positivity)]
          exact one_lt_pow₀ (by norm_num) (by norm_num)
        unfold child
        rw [cellPts_ok hv]
        simp only [py_bind_ok, decide_eq_true hlt, pyAssert_true]
      have hrest := children_one (n := n) cells (center + 1) (fun c hc => h c (by simp [hc])) (by simp at hc; omega)
      simp only [children, pyMap_ok hchild, hrest, py_bind_ok, fineCells]

omit [LinearOrder K] [IsStrictOrderedRing K] in
theorem means_eq {n : Nat} {M : RMesh E} (hM : M.OK n) {pts : List (List E)} (h : pyMap (cellPts M.coords) M.cells = .ok pts) :
    pts.map (mean K n) = centroids K M.coords M.cells := by
  have h' : pyMap (cellPts M.coords) M.cells = .ok (M.cells.map (fun cell => cell.map (fun v => M.coords.getD v 0))) :=
    pyMap_ok (fun cell hc => cellPts_ok (hM cell hc).2)
  rw [h'] at h
  cases h
  rw [List.map_map]
  unfold centroids
  apply List.map_congr_left
  intro cell hc
  simp [mean, (hM cell hc).1]

theorem cross_eq {tdim n : Nat} {M F : RMesh E} (hM : M.OK n) (h : crossGridRefine K tdim n M = .ok F) :
    innerPointRefine (K := K) (fun _ => 1) (centroids K) (fun _ _ => 0) 0 tdim n M 1 = .ok F := by
  unfold crossGridRefine at h
  rw [py_bind_eq_ok] at h
  obtain ⟨_, h1, h⟩ := h
  rw [py_bind_eq_ok] at h
  obtain ⟨pts, h2, h⟩ := h
  cases h
  rw [means_eq hM h2]
  have hcells : children (K := K) (fun _ => 1) (M.coords ++ centroids K M.coords M.cells) n M.coords.length M.cells =
      .ok (fineCells n M.coords.length M.cells) := by
    apply children_one
    · intro cell hc v hv
      have := (hM cell hc).2 v hv
      simp
      omega
    · simp [centroids]
  simp only [innerPointRefine, refineOnce, h1, h2, py_bind_ok, hcells]
  simp

end Verif.CrossGrid
