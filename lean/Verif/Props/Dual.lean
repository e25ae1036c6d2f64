import Verif.Lemmas.Dual4
import Verif.Model.Center
import Mathlib.Algebra.Order.Field.Rat
import Mathlib.Tactic.NormNum
import Mathlib.Tactic.IntervalCases
/-!
# C57 Dual meshes subdivide the mesh they are made from
-/
namespace Verif.Dual
open Verif Verif.BlockOps
variable {K E : Type} [Field K] [LinearOrder K] [IsStrictOrderedRing K] [AddCommGroup E] [Module K E]
variable {topo : TMesh E → Topo} {order : List Nat → List Nat} {center : List E → Py E}

/-- The mesh with the centre `center`, made from a mesh where all these centres are inside of their cells, is a subdivision of
    the mesh: old vertices keep their number (the map of vertices), each new cell is in the cell given by the map of cells, and
    these cells cover it.  It is again a mesh of triangles with distinct vertices, six in each old cell. -/
theorem dual_once_partial {M M' : TMesh E} {vmap : List (Nat × Nat)} {cmap : List Nat} {nrefs : Nat} (hn : nrefs ≤ 1) (hM : M.OK)
    (hT : TopoOK M (topo M)) (ho : ∀ l, (order l).Perm l)
    (hc : ∀ k a b c z, M.At k a b c → center [a, b, c] = .ok z → InTri K z a b c)
    (h : dualMesh K topo order center 2 nrefs M = .ok (M', vmap, cmap)) :
    Subdivides K M M' cmap ∧ M'.OK ∧ vmap = (List.range M.verts.length).map (fun i => (i, i)) ∧
      cmap = (List.range M.cells.length).flatMap (fun k => List.replicate 6 k) := by
  unfold dualMesh at h
  rw [if_pos rfl, py_bind_ok] at h
  obtain ⟨⟨M0, vmap0, cmap0⟩, h1, h⟩ := py_bind_eq_ok.1 h
  dsimp only at h
  have hz : nrefs - 1 = 0 := by omega
  rw [hz] at h
  simp only [dualLoop, py_bind_ok] at h
  injection h with h
  rw [Prod.mk.injEq, Prod.mk.injEq] at h
  obtain ⟨rfl, rfl, rfl⟩ := h
  obtain ⟨rfl, hm⟩ := dualTriangle_ok h1
  refine ⟨made_subdivides hT hM ho hc hm, made_ok hT hM ho hm, ?_, hm.cmap⟩
  apply List.ext_getElem <;> simp

/-- Inside of a triangle. -/
theorem centroid_in (a b c z : E) (h : centroid K [a, b, c] = .ok z) : InTri K z a b c := by
  unfold centroid at h
  injection h with h
  refine ⟨1 / 3, 1 / 3, 1 / 3, by positivity, by positivity, by positivity, by norm_num, ?_⟩
  rw [← h, smul_add, smul_add]

/-- With centroids, any number of refinements succeeds and gives a subdivision of the first mesh; the vertices of the first
    mesh keep their numbers. -/
theorem dual_refined {M : TMesh E} (hM : M.OK) (hT : ∀ M : TMesh E, M.OK → TopoOK M (topo M))
    (hF : ∀ M : TMesh E, M.OK → FacetsOK M (topo M)) (ho : ∀ l, (order l).Perm l) (nrefs : Nat) :
    ∃ M' cmap, dualMesh K topo order (centroid K) 2 nrefs M =
        .ok (M', (List.range M.verts.length).map (fun i => (i, i)), cmap) ∧
      Subdivides K M M' cmap ∧ M'.OK := by
  have hc : ∀ a b c : E, ∃ z, centroid K [a, b, c] = .ok z := fun a b c => ⟨_, rfl⟩
  obtain ⟨⟨M0, vmap0, cmap0⟩, h1⟩ := dualTriangle_total (K := K) (order := order) (center := centroid K) hM (hF M hM)
    (fun _ a b c _ => hc a b c)
  obtain ⟨rfl, hm⟩ := dualTriangle_ok h1
  have hI : Inv K M M0 (List.range M.verts.length) cmap0 :=
    ⟨made_ok (hT M hM) hM ho hm, made_subdivides (hT M hM) hM ho (fun k a b c z _ => centroid_in a b c z) hm, rfl⟩
  obtain ⟨M1, refs1, cmap1, h2, hI2⟩ := dualLoop_ok hT hF hc ho centroid_in (nrefs - 1) hI
  refine ⟨M1, cmap1, ?_, hI2.sub, hI2.ok⟩
  unfold dualMesh
  rw [if_pos rfl, py_bind_ok, h1, py_bind_ok]
  dsimp only
  rw [List.length_range, h2, py_bind_ok]
  dsimp only
  rw [hI2.refs]
  congr 3
  apply List.ext_getElem <;> simp

/-- In the plane every cell of the result has `6 ^ nrefs` times less area than the cell it is a part of. -/
theorem dual_areas {topo : TMesh (K × K) → Topo} {M M' : TMesh (K × K)} {vmap : List (Nat × Nat)} {cmap : List Nat}
    (hM : M.OK) (hT : ∀ M : TMesh (K × K), M.OK → TopoOK M (topo M)) (ho : ∀ l, (order l).Perm l) {nrefs : Nat}
    (hn : 1 ≤ nrefs) (h : dualMesh K topo order (centroid K) 2 nrefs M = .ok (M', vmap, cmap)) :
    Areas (6 ^ nrefs) M M' cmap := by
  unfold dualMesh at h
  rw [if_pos rfl, py_bind_ok] at h
  obtain ⟨⟨M0, vmap0, cmap0⟩, h1, h⟩ := py_bind_eq_ok.1 h
  dsimp only at h
  obtain ⟨⟨M1, refs1, cmap1⟩, h2, h⟩ := py_bind_eq_ok.1 h
  injection h with h
  rw [Prod.mk.injEq, Prod.mk.injEq] at h
  obtain ⟨rfl, rfl, rfl⟩ := h
  obtain ⟨rfl, hm⟩ := dualTriangle_ok h1
  have hI : Inv K M M0 (List.range M.verts.length) cmap0 :=
    ⟨made_ok (hT M hM) hM ho hm, made_subdivides (hT M hM) hM ho (fun k a b c z _ => centroid_in a b c z) hm, rfl⟩
  rw [List.length_range] at h2
  have := dualLoop_areas hT ho centroid_in (nrefs - 1) hI (made_areas (hT M hM) hM ho hm) h2
  rwa [← pow_succ', Nat.sub_add_cancel hn] at this

omit [LinearOrder K] [IsStrictOrderedRing K] in
/-- Meshes of intervals and of tetrahedra are refused. -/
theorem dual_dims (tdim nrefs : Nat) (h : tdim ≠ 2) (M : TMesh E) :
    ∃ e, dualMesh K topo order center tdim nrefs M = .error e := by
  unfold dualMesh
  rw [if_neg h]
  by_cases h1 : tdim = 1 ∨ tdim = 3
  · exact ⟨.runtimeError, by rw [if_pos h1]; rfl⟩
  · exact ⟨.keyError, by rw [if_neg h1]; rfl⟩

/-! ## Circumcentres -/

/-- Cramer's rule. -/
def cramer : Center.Solver ℚ 2 := fun A b =>
  let d := A 0 0 * A 1 1 - A 0 1 * A 1 0
  ![(b 0 * A 1 1 - A 0 1 * b 1) / d, (A 0 0 * b 1 - b 0 * A 1 0) / d]

/-- `CellCircumcenter` on triangles in the plane. -/
def circum : List (ℚ × ℚ) → Py (ℚ × ℚ)
  | [a, b, c] =>
      let y := Center.circumcenter22 cramer ![a.1, a.2] ![b.1, b.2] ![c.1, c.2]
      .ok (y 0, y 1)
  | _ => .error .runtimeError

/-- A connectivity where no facet is shared. -/
def ownTopo {E : Type} (M : TMesh E) : Topo where
  nf := 3 * M.cells.length
  c2f k := [3 * k, 3 * k + 1, 3 * k + 2]
  f2v f := match M.cells[f / 3]? with
    | some [a, b, c] => if f % 3 = 0 then [b, c] else if f % 3 = 1 then [a, c] else [a, b]
    | _ => []

theorem ownTopo_ok {E : Type} (M : TMesh E) : TopoOK M (ownTopo M) := by
  intro k a b c hk
  have hl := (List.getElem?_eq_some_iff.1 hk).1
  have e0 : (3 * k) / 3 = k := by omega
  have e1 : (3 * k + 1) / 3 = k := by omega
  have e2 : (3 * k + 2) / 3 = k := by omega
  have f0 : (3 * k) % 3 = 0 := by omega
  have f1 : (3 * k + 1) % 3 = 1 := by omega
  have f2 : (3 * k + 2) % 3 = 2 := by omega
  constructor
  · simp only [ownTopo, List.map_cons, List.map_nil, e0, e1, e2, f0, f1, f2, hk]
    simp
  · intro f hf
    simp only [ownTopo, List.mem_cons, List.not_mem_nil, or_false] at hf ⊢
    rcases hf with rfl | rfl | rfl
    · refine ⟨by omega, ?_⟩
      simp [e0, f0, hk]
    · refine ⟨by omega, ?_⟩
      simp [e1, f1, hk]
    · refine ⟨by omega, ?_⟩
      simp [e2, f2, hk]

theorem ownTopo_facets {E : Type} (M : TMesh E) (hM : M.OK) : FacetsOK M (ownTopo M) := by
  intro f hf
  change f < 3 * M.cells.length at hf
  have hl : f / 3 < M.cells.length := by omega
  obtain ⟨a, b, c, he, _, _, _, ha, hb, hc⟩ := hM.2 _ (List.getElem_mem hl)
  have hk : M.cells[f / 3]? = some [a, b, c] := by rw [List.getElem?_eq_getElem hl, he]
  simp only [ownTopo, hk]
  by_cases h0 : f % 3 = 0
  · exact ⟨b, c, by rw [if_pos h0], hb, hc⟩
  · rw [if_neg h0]
    by_cases h1 : f % 3 = 1
    · exact ⟨a, c, by rw [if_pos h1], ha, hc⟩
    · exact ⟨a, b, by rw [if_neg h1], ha, hb⟩

/-- An obtuse triangle. -/
def obtuse : TMesh (ℚ × ℚ) := ⟨[(0, 0), (4, 0), (2, 1)], [[0, 1, 2]]⟩

/-- The statement without the hypothesis about centres is false for circumcentres: the result for an obtuse triangle is not a
    subdivision of it. -/
theorem dual_circumcenter_false :
    ∃ M' vmap cmap, dualMesh ℚ ownTopo id circum 2 1 obtuse = .ok (M', vmap, cmap) ∧ ¬ Subdivides ℚ obtuse M' cmap := by
  refine ⟨⟨[(0, 0), (4, 0), (2, 1), (2, -3 / 2), (3, 1 / 2), (1, 1 / 2), (2, 0)],
    [[3, 4, 1], [3, 4, 2], [3, 5, 0], [3, 5, 2], [3, 6, 0], [3, 6, 1]]⟩, [(0, 0), (1, 1), (2, 2)], [0, 0, 0, 0, 0, 0],
    by decide +kernel, ?_⟩
  intro hs
  have h := (hs.cover 0 (by decide) (2, -3 / 2)).2 ⟨0, rfl, _, _, _, ⟨3, 4, 1, rfl, rfl, rfl, rfl⟩, 1, 0, 0, by norm_num,
    by norm_num, by norm_num, by norm_num, by norm_num⟩
  obtain ⟨a, b, c, ⟨i, j, l, h1, h2, h3, h4⟩, s, t, u, _, _, hu, _, hp⟩ := h
  simp only [obtuse, List.getElem?_cons_zero, Option.some.injEq, List.cons.injEq, and_true] at h1
  obtain ⟨rfl, rfl, rfl⟩ := h1
  simp only [obtuse, List.getElem?_cons_zero, List.getElem?_cons_succ, Option.some.injEq] at h2 h3 h4
  subst h2 h3 h4
  have := congrArg Prod.snd hp
  simp at this
  rw [← this] at hu
  norm_num at hu

/-- Two triangles of a square; both theorems about centroids apply with two refinements. -/
def square : TMesh (ℚ × ℚ) := ⟨[(0, 0), (1, 0), (1, 1), (0, 1)], [[0, 1, 2], [0, 2, 3]]⟩

theorem square_ok : square.OK := by
  refine ⟨by decide, ?_⟩
  intro cell hc
  simp only [square, List.mem_cons, List.not_mem_nil, or_false] at hc
  rcases hc with rfl | rfl
  · exact ⟨0, 1, 2, rfl, by decide, by decide, by decide, by decide, by decide, by decide⟩
  · exact ⟨0, 2, 3, rfl, by decide, by decide, by decide, by decide, by decide, by decide⟩

example : ∃ M' cmap, dualMesh ℚ ownTopo id (centroid ℚ) 2 2 square = .ok (M', [(0, 0), (1, 1), (2, 2), (3, 3)], cmap) ∧
    Subdivides ℚ square M' cmap ∧ M'.OK ∧ Areas 36 square M' cmap := by
  obtain ⟨M', cmap, h, h1, h2⟩ := dual_refined (K := ℚ) (topo := ownTopo) (order := id) square_ok (fun M _ => ownTopo_ok M)
    (fun M hM => ownTopo_facets M hM) (fun l => List.Perm.refl l) 2
  refine ⟨M', cmap, h, h1, h2, ?_⟩
  have := dual_areas square_ok (fun M _ => ownTopo_ok M) (fun l => List.Perm.refl l) (by decide) h
  norm_num at this
  exact this

/-- `dual_once_partial` for circumcentres: an acute triangle. -/
example : ∃ M' vmap cmap, dualMesh ℚ ownTopo id circum 2 1 ⟨[(0, 0), (4, 0), (2, 4)], [[0, 1, 2]]⟩ = .ok (M', vmap, cmap) ∧
    Subdivides ℚ ⟨[(0, 0), (4, 0), (2, 4)], [[0, 1, 2]]⟩ M' cmap := by
  have h : dualMesh ℚ ownTopo id circum 2 1 ⟨[(0, 0), (4, 0), (2, 4)], [[0, 1, 2]]⟩ =
      .ok (⟨[(0, 0), (4, 0), (2, 4), (2, 3 / 2), (3, 2), (1, 2), (2, 0)],
        [[3, 4, 1], [3, 4, 2], [3, 5, 0], [3, 5, 2], [3, 6, 0], [3, 6, 1]]⟩, [(0, 0), (1, 1), (2, 2)], [0, 0, 0, 0, 0, 0]) := by
    decide +kernel
  refine ⟨_, _, _, h, (dual_once_partial (by decide) ?_ (ownTopo_ok _) (fun l => List.Perm.refl l) ?_ h).1⟩
  · refine ⟨by decide, ?_⟩
    intro cell hc
    rw [List.mem_singleton] at hc
    subst hc
    exact ⟨0, 1, 2, rfl, by decide, by decide, by decide, by decide, by decide, by decide⟩
  · rintro k a b c z ⟨i, j, l, h1, h2, h3, h4⟩ hz
    have hk : k = 0 := by
      have := (List.getElem?_eq_some_iff.1 h1).1
      simpa using this
    subst hk
    simp only [List.getElem?_cons_zero, Option.some.injEq, List.cons.injEq, and_true] at h1
    obtain ⟨rfl, rfl, rfl⟩ := h1
    simp only [List.getElem?_cons_zero, List.getElem?_cons_succ, Option.some.injEq] at h2 h3 h4
    subst h2 h3 h4
    have e : circum [((0 : ℚ), (0 : ℚ)), (4, 0), (2, 4)] = .ok (2, 3 / 2) := by decide +kernel
    rw [e] at hz
    injection hz with hz
    subst hz
    exact ⟨5 / 16, 5 / 16, 3 / 8, by norm_num, by norm_num, by norm_num, by norm_num, by norm_num⟩

end Verif.Dual
