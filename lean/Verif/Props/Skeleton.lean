import Verif.Model.Skeleton
import Verif.Spec.Skeleton
import Verif.Props.Embedded
/-!
# C107: skeletons
-/
namespace Verif.Embedded
open Verif
variable {P : Type}

theorem skeletonMarks_get (T : Topo) (b : Bool) (e : Nat) : (skeletonMarks T b)[e]? = some 1 ↔
    e < T.numEntities ∧ (b = true ∨ (T.e2c e).length ≠ 1) := by
  unfold skeletonMarks
  rw [List.getElem?_map]
  by_cases he : e < T.numEntities
  · rw [List.getElem?_range he, Option.map_some, Option.some.injEq]
    cases b
    · by_cases h : (T.e2c e).length = 1 <;> simp [h, he]
    · simp [he]
  · rw [List.getElem?_eq_none (by simpa using he)]
    simp [he]

/-- Facets with one cell, and with two. -/
theorem one_cell_iff {T : Topo} {k : Nat} (hT : T.Simplicial k) {e : Nat} (he : e < T.numEntities) (hn : (T.e2c e).Nodup)
    (h0 : T.e2c e ≠ []) : (T.e2c e).length ≠ 1 ↔ T.Interior e := by
  constructor
  · intro h
    match hl : T.e2c e with
    | [] => exact absurd hl h0
    | [c] => rw [hl] at h; exact absurd rfl h
    | c :: c' :: l =>
        have hc := (hT.e2c e he c).1 (by rw [hl]; simp)
        have hc' := (hT.e2c e he c').1 (by rw [hl]; simp)
        rw [hl] at hn
        refine ⟨c, c', hc.1, hc'.1, ?_, hc.2, hc'.2⟩
        rintro rfl
        simp at hn
  · rintro ⟨c, c', h1, h2, hne, h3, h4⟩ h
    obtain ⟨d, hd⟩ := List.length_eq_one_iff.1 h
    have e1 := (hT.e2c e he c).2 ⟨h1, h3⟩
    have e2 := (hT.e2c e he c').2 ⟨h2, h4⟩
    rw [hd] at e1 e2
    simp only [List.mem_singleton] at e1 e2
    exact hne (e1.trans e2.symm)

/-- **C107** The skeleton of a mesh is the mesh of its interior facets, or of all its facets. -/
theorem skeleton_interior {T : Topo} {tdim k : Nat} (ht : 1 < tdim) (hT : T.Simplicial k)
    (hc : ∀ e, e < T.numEntities → (T.e2c e).Nodup ∧ T.e2c e ≠ []) (coords : Nat → P) (submesh : List Nat → SubMesh P) (b : Bool) :
    ∃ M, skeleton tdim T coords submesh b = .ok M ∧ MeshOf M T coords (fun e => b = true ∨ T.Interior e) := by
  have hp : ∀ e, (skeletonMarks T b)[e]? = some 1 ↔ e < T.numEntities ∧ (b = true ∨ T.Interior e) := by
    intro e
    rw [skeletonMarks_get]
    constructor
    · rintro ⟨he, h⟩
      exact ⟨he, h.imp_right (one_cell_iff hT he (hc e he).1 (hc e he).2).1⟩
    · rintro ⟨he, h⟩
      exact ⟨he, h.imp_right (one_cell_iff hT he (hc e he).1 (hc e he).2).2⟩
  obtain ⟨M, hM, hr⟩ := embedded_mesh_represents_partial tdim (tdim - 1) T.e2v coords submesh (skeletonMarks T b) [1]
    (fun h => absurd h (by omega)) ⟨by omega, by omega⟩ (by simp) (.inl (by simp))
  have hv := embedded_mesh_vertices tdim (tdim - 1) T.e2v coords submesh (skeletonMarks T b) [1] ⟨by omega, by omega⟩ (by simp)
    (by simp) M hM
  refine ⟨M, ?_, hr.len.1, ⟨hr.cells.1, fun e => ?_⟩, ⟨hr.verts, fun v => ?_⟩, hr.coord, hr.cell, ?_⟩
  · unfold skeleton
    rw [decide_eq_true ht, pyAssert_true, py_bind_ok, hM]
  · rw [hr.cells.2 e, ← hp e]
    simp
  · rw [hv v]
    constructor
    · rintro ⟨e, m, hm, he, h⟩
      rw [List.mem_singleton.1 hm] at he
      exact ⟨e, ((hp e).1 he).1, ((hp e).1 he).2, h⟩
    · rintro ⟨e, he, h1, h2⟩
      exact ⟨e, 1, by simp, (hp e).2 ⟨he, h1⟩, h2⟩
  · intro i hi
    rw [hr.len.1] at hi
    have hmem := List.getElem_mem hi
    rw [hr.marker i _ (List.getElem?_eq_getElem hi)]
    obtain ⟨m, hm, h⟩ := (hr.cells.2 _).1 hmem
    rw [List.mem_singleton.1 hm] at h
    exact h

/-- **C107** Curves have no skeleton. -/
theorem skeleton_refused {tdim : Nat} (ht : tdim ≤ 1) (T : Topo) (coords : Nat → P) (submesh : List Nat → SubMesh P) (b : Bool) :
    skeleton tdim T coords submesh b = .error .assertion := by
  unfold skeleton
  rw [decide_eq_false (by omega), pyAssert_false, py_bind_error]

/-- Two triangles 0-1-2 and 1-2-3 with the common edge 1-2. -/
example : ∃ M : EMesh Nat, skeleton 2 twoTriangles (fun v => v) (fun _ => ⟨[], [], [], []⟩) false = .ok M ∧
    M.cells = [[0, 1]] ∧ M.cmap = [2] ∧ M.vmap = [1, 2] :=
  ⟨⟨[[0, 1]], [1, 2], [1, 2], [2], [1], [1]⟩, by decide +kernel, rfl, rfl, rfl⟩

example : twoTriangles.Interior 2 := ⟨0, 1, by decide, by decide, by decide, by decide, by decide⟩

example : ∀ e, e < twoTriangles.numEntities → (twoTriangles.e2c e).Nodup ∧ twoTriangles.e2c e ≠ [] := by decide

end Verif.Embedded
