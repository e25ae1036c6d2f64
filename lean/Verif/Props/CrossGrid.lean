import Verif.Lemmas.CrossGrid
import Verif.Props.Refine
/-! # Cross grid refinement -/
namespace Verif.CrossGrid
open Verif Verif.BlockOps Verif.Refine
variable {K E : Type} [Field K] [LinearOrder K] [IsStrictOrderedRing K] [AddCommGroup E] [Module K E]

omit [LinearOrder K] [IsStrictOrderedRing K] in
/-- **C119**.  The refinement returns iff the cells are intervals, triangles, or tetrahedra. -/
theorem cross_grid_returns_iff {tdim n : Nat} {M : RMesh E} (hM : M.OK n) :
    (∃ F, crossGridRefine K tdim n M = .ok F) ↔ n = 2 ∨ n = 3 ∨ n = 4 ∧ tdim = 3 := by
  constructor
  · rintro ⟨F, h⟩
    unfold crossGridRefine at h
    rw [py_bind_eq_ok] at h
    obtain ⟨_, h, -⟩ := h
    rw [pyAssert_eq_ok] at h
    simpa [or_assoc] using h
  · intro h
    have h1 : (decide (n = 2) || decide (n = 3) || (decide (n = 4) && decide (tdim = 3))) = true := by simpa [or_assoc] using h
    unfold crossGridRefine
    rw [h1, pyMap_ok (g := fun cell => cell.map (fun v => M.coords.getD v 0)) (fun cell hc => by
      unfold cellPts
      apply pyMap_ok
      intro v hv
      have hv := (hM cell hc).2 v hv
      rw [pyGet_ok hv]
      simp [List.getD_eq_getElem?_getD, List.getElem?_eq_getElem hv])]
    exact ⟨_, rfl⟩

/-- **C119**.  The cells of the refined mesh which have the parent `c` tile the cell `c`: there are as many as a cell has vertices, in the order of the
    cells.  The vertices of the mesh keep their numbers; the vertices of the parent are mapped to themselves. -/
theorem cross_grid_tiles {tdim n : Nat} {M F : RMesh E} (hM : M.OK n) (h : crossGridRefine K tdim n M = .ok F) :
    Tiles K M F ∧ F.OK n ∧ M.coords <+: F.coords ∧ F.vmap = (List.range M.coords.length).map (fun v => (v, v)) ∧
    F.cells.length = M.cells.length * n ∧ ∀ i, i < F.cells.length → F.cmap[i]? = some (i / n) := by
  have hn : 0 < n := by
    have := (cross_grid_returns_iff hM).1 ⟨F, h⟩
    omega
  have := refine_tiles hM (centroids_inner hn) (cross_eq hM h)
  simpa [levels] using this

/-- One vertex is added for each cell, in the order of the cells: its centroid. -/
theorem cross_grid_centers {tdim n : Nat} {M F : RMesh E} (h : crossGridRefine K tdim n M = .ok F) :
    F.coords.length = M.coords.length + M.cells.length ∧
    ∀ c l, IsCell M c l → F.coords[M.coords.length + c]? = some ((1 / (n : K)) • l.sum) := by
  unfold crossGridRefine at h
  rw [py_bind_eq_ok] at h
  obtain ⟨_, -, h⟩ := h
  rw [py_bind_eq_ok] at h
  obtain ⟨pts, h2, h⟩ := h
  cases h
  have hf := pyMap_eq_ok.1 h2
  refine ⟨by simp [hf.length_eq], ?_⟩
  rintro c l ⟨cell, hc, hl⟩
  obtain ⟨p, hp, hcp⟩ : ∃ p, pts[c]? = some p ∧ cellPts M.coords cell = .ok p := by
    clear h2
    generalize M.cells = cells at hc hf
    induction hf generalizing c with
    | nil => simp at hc
    | cons h _ ih =>
        cases c with
        | zero => simp at hc; subst hc; exact ⟨_, rfl, h⟩
        | succ c => exact ih c (by simpa using hc)
  have hpl : p = l := by
    have h3 := pyMap_eq_ok.1 hcp
    exact forall₂_unique (f := fun v : Nat => M.coords[v]?) (h3.imp (fun a b hab => pyGet_eq_ok.1 hab)) hl
  subst hpl
  rw [List.getElem?_append_right (by omega)]
  simp [hp, mean]

/-- A triangle. -/
example : crossGridRefine ℚ 2 3 (⟨[(0, 0), (3, 0), (0, 3)], [[0, 1, 2]], [], []⟩ : RMesh (ℚ × ℚ)) =
    .ok ⟨[(0, 0), (3, 0), (0, 3), (1, 1)], [[0, 1, 3], [0, 2, 3], [1, 2, 3]], [(0, 0), (1, 1), (2, 2)], [0, 0, 0]⟩ := by
  decide +kernel

end Verif.CrossGrid
