import Verif.Lemmas.EmbeddedCheck
/-!
# C40, C41: embedded meshes and their markers
-/
namespace Verif.Embedded
open Verif
variable {P : Type}

/-! ## C40 -/

/-- `EmbeddedMesh(f, markers)` is the mesh of the marked entities: the cell map is a bijection between the cells
    and the marked entities, the vertex map is injective, the vertices of each cell map onto those of its parent
    and each cell has the marker of its parent.

    Partial: repeated markers are excluded unless `f` is a cell function; see `embedded_mesh_repeated_marker`.
    For a cell function the contract of `SubMesh` is a hypothesis. -/
theorem embedded_mesh_represents_partial (meshDim fDim : Nat) (e2v : Nat → List Nat) (coords : Nat → P)
    (submesh : List Nat → SubMesh P) (marks markers : List Nat)
    (hs : meshDim = fDim → ∀ f : List Nat, f.length = marks.length → (submesh f).OK e2v coords f)
    (hd : 0 < fDim ∧ fDim ≤ meshDim) (hm : markers ≠ []) (hn : markers.Nodup ∨ meshDim = fDim) :
    ∃ M, embeddedMesh meshDim fDim e2v coords submesh marks markers = .ok M ∧
      Represents M e2v coords marks markers := by
  unfold embeddedMesh
  rw [decide_eq_true hd.2, decide_eq_true hd.1, pyAssert_true, py_bind_ok, py_bind_ok]
  by_cases h : meshDim = fDim
  · rw [if_pos h]
    exact embedCells_ok submesh e2v coords (hs h) hm
  · rw [if_neg h]
    obtain ⟨M, h1, h2, _⟩ := embedEntities_ok e2v coords (marks := marks) hm (hn.resolve_right h)
    exact ⟨M, h1, h2⟩

/-- The vertices are exactly those of the marked entities, for a function on lower dimensional entities. -/
theorem embedded_mesh_vertices (meshDim fDim : Nat) (e2v : Nat → List Nat) (coords : Nat → P)
    (submesh : List Nat → SubMesh P) (marks markers : List Nat) (hd : 0 < fDim ∧ fDim < meshDim)
    (hm : markers ≠ []) (hn : markers.Nodup) (M : EMesh P)
    (h : embeddedMesh meshDim fDim e2v coords submesh marks markers = .ok M) (v : Nat) :
    v ∈ M.vmap ↔ ∃ e m, m ∈ markers ∧ marks[e]? = some m ∧ v ∈ e2v e := by
  obtain ⟨M', h1, h2, h3⟩ := embedEntities_ok e2v coords (marks := marks) hm hn
  unfold embeddedMesh at h
  rw [decide_eq_true (Nat.le_of_lt hd.2), decide_eq_true hd.1, pyAssert_true, py_bind_ok, py_bind_ok,
    if_neg (by omega), h1] at h
  obtain rfl := Except.ok.inj h
  rw [h3]
  constructor
  · rintro ⟨e, he, hv⟩
    obtain ⟨m, hm, hme⟩ := (h2.cells.2 e).1 he
    exact ⟨e, m, hm, hme, hv⟩
  · rintro ⟨e, m, hm, hme, hv⟩
    exact ⟨e, (h2.cells.2 e).2 ⟨m, hm, hme⟩, hv⟩

/-- Wrong dimensions or an empty list of markers raise. -/
theorem embedded_mesh_raises (meshDim fDim : Nat) (e2v : Nat → List Nat) (coords : Nat → P)
    (submesh : List Nat → SubMesh P) (marks markers : List Nat)
    (h : meshDim < fDim ∨ fDim = 0 ∨ markers = []) :
    embeddedMesh meshDim fDim e2v coords submesh marks markers = .error .assertion := by
  unfold embeddedMesh
  by_cases h1 : fDim ≤ meshDim
  · rw [decide_eq_true h1, pyAssert_true, py_bind_ok]
    by_cases h2 : 0 < fDim
    · rw [decide_eq_true h2, pyAssert_true, py_bind_ok]
      have h3 : markers = [] := by
        rcases h with h | h | h
        · omega
        · omega
        · exact h
      subst h3
      split <;> rfl
    · rw [decide_eq_false h2, pyAssert_false, py_bind_error]
  · rw [decide_eq_false h1, pyAssert_false, py_bind_error]

/-- With a repeated marker the mesh has two cells for the same facet. -/
theorem embedded_mesh_repeated_marker :
    ∃ M : EMesh Unit, embeddedMesh 2 1 (fun e => [e, e + 1]) (fun _ => ()) (fun _ => ⟨[], [], [], []⟩) [0, 7, 0] [7, 7]
      = .ok M ∧ M.cmap = [1, 1] ∧ M.cells.length = 2 :=
  ⟨⟨[[0, 1], [0, 1]], [(), ()], [1, 2], [1, 1], [7, 7], [7, 7]⟩, by decide +kernel, rfl, rfl⟩

/-- Facets 0-1, 1-2, 2-0, 2-3 with markers 5, 0, 6, 5: the mesh of markers 6 and 5. -/
example : ∃ M : EMesh Nat, embeddedMesh 2 1 (fun e => [[0, 1], [1, 2], [2, 0], [2, 3]].getD e []) (fun v => 10 * v)
    (fun _ => ⟨[], [], [], []⟩) [5, 0, 6, 5] [6, 5] = .ok M ∧
    M.cells = [[0, 2], [0, 1], [2, 3]] ∧ M.cmap = [2, 0, 3] ∧ M.vmap = [0, 1, 2, 3] ∧ M.marking = [6, 5, 5] :=
  ⟨⟨[[0, 2], [0, 1], [2, 3]], [0, 10, 20, 30], [0, 1, 2, 3], [2, 0, 3], [6, 5, 5], [6, 5]⟩, by decide +kernel,
    rfl, rfl, rfl, rfl⟩

/-- A submesh function which meets the contract. -/
def sampleSubMesh (c2v : Nat → List Nat) (coords : Nat → P) (f : List Nat) : SubMesh P :=
  let cmap := whereEq f 1
  let vmap := npUnique (cmap.map c2v).flatten
  ⟨cmap.map (fun c => (c2v c).map (fun v => vmap.idxOf v)), vmap.map coords, vmap, cmap⟩

/-- The contract of `SubMesh` can be met, for every mesh and every function. -/
theorem sampleSubMesh_ok (c2v : Nat → List Nat) (coords : Nat → P) (f : List Nat) :
    (sampleSubMesh c2v coords f).OK c2v coords f := by
  refine ⟨by simp [sampleSubMesh], ⟨whereEq_nodup _ _, fun c => mem_whereEq⟩, npUnique_nodup _, ?_, rfl⟩
  intro i c vs hi hvs
  change (whereEq f 1)[i]? = some c at hi
  change ((whereEq f 1).map _)[i]? = some vs at hvs
  rw [List.getElem?_map, hi] at hvs
  obtain rfl := Option.some.inj hvs
  rw [List.map_map]
  apply List.Perm.of_eq
  refine List.map_congr_left (fun v hv => ?_)
  have hm : v ∈ npUnique ((whereEq f 1).map c2v).flatten :=
    mem_npUnique.2 (List.mem_flatten.2 ⟨_, List.mem_map.2 ⟨c, List.mem_iff_getElem?.2 ⟨i, hi⟩, rfl⟩, hv⟩)
  have hlt := List.idxOf_lt_length_of_mem hm
  change (npUnique ((whereEq f 1).map c2v).flatten)[(npUnique ((whereEq f 1).map c2v).flatten).idxOf v]? = some v
  rw [List.getElem?_eq_getElem hlt, List.getElem_idxOf hlt]

/-! ## C41 -/

/-- The mesh made by `EmbeddedMesh` of a cell function meets the hypotheses of the theorems below. -/
theorem Represents.isEmbedding {M : EMesh P} {parent child : Topo} {coords : Nat → P} {marks markers : List Nat}
    (h : Represents M parent.c2v coords marks markers) (hm : marks.length = parent.numCells)
    (hc : child.numCells = M.cells.length) (hcv : ∀ c vs, M.cells[c]? = some vs → child.c2v c = vs)
    (hcov : ∀ e, e < child.numEntities → child.e2c e ≠ []) : IsEmbedding parent child M.vmap M.cmap := by
  have hperm : ∀ c pc : Nat, M.cmap[c]? = some pc →
      ((child.c2v c).map (fun v => M.vmap[v]?)).Perm ((parent.c2v pc).map some) := by
    intro c pc hpc
    have hlt : c < M.cells.length := by rw [h.len.1]; exact (List.getElem?_eq_some_iff.1 hpc).1
    rw [hcv c _ (List.getElem?_eq_getElem hlt)]
    exact h.cell c pc _ hpc (List.getElem?_eq_getElem hlt)
  refine ⟨h.verts, h.cells.1, by rw [hc, h.len.1], ?_, ?_, ?_, hcov⟩
  · intro c hcm
    obtain ⟨m, _, hme⟩ := (h.cells.2 c).1 hcm
    rw [← hm]; exact (List.getElem?_eq_some_iff.1 hme).1
  · intro c hcl v hv
    have hlt : c < M.cmap.length := by rw [← h.len.1, ← hc]; exact hcl
    have := (hperm c _ (List.getElem?_eq_getElem hlt)).mem_iff (a := M.vmap[v]?)
    have h1 := this.1 (List.mem_map.2 ⟨v, hv, rfl⟩)
    obtain ⟨w, _, hw⟩ := List.mem_map.1 h1
    exact (List.getElem?_eq_some_iff.1 hw.symm).1
  · intro c pc hpc w
    have := (hperm c pc hpc).mem_iff (a := some w)
    constructor
    · intro hw
      obtain ⟨v, hv, hvw⟩ := List.mem_map.1 (this.2 (List.mem_map.2 ⟨w, hw, rfl⟩))
      exact ⟨v, hv, hvw⟩
    · rintro ⟨v, hv, hvw⟩
      obtain ⟨w', hw', e⟩ := List.mem_map.1 (this.1 (List.mem_map.2 ⟨v, hv, hvw⟩))
      rw [← Option.some.inj e]; exact hw'

/-- `translate_markers` gives each child entity the marker of the parent entity with the same vertices, if it is
    among the tags (all values by default), and leaves the initial value (0 by default) otherwise. -/
theorem translate_markers_correct {parent child : Topo} {vmap cmap values : List Nat} {k : Nat}
    (hp : parent.Simplicial k) (hc : child.Simplicial k) (he : IsEmbedding parent child vmap cmap)
    (hv : values.length = parent.numEntities) (tags marker : Option (List Nat))
    (hm : ∀ f, marker = some f → f.length = child.numEntities) :
    ∃ f', translateMarkers parent child vmap cmap values true tags marker = .ok f' ∧
      Transferred parent child vmap values (tags.getD values) (marker.getD (List.replicate child.numEntities 0)) f' := by
  obtain ⟨T, hT, hTm⟩ : ∃ T, (match tags with | some t => t | none => npUnique values) = T ∧
      ∀ t, t ∈ T ↔ t ∈ tags.getD values := by
    cases tags with
    | none => exact ⟨_, rfl, fun t => mem_npUnique⟩
    | some T => exact ⟨_, rfl, fun t => Iff.rfl⟩
  obtain ⟨F, hF, hFe, hFl⟩ : ∃ F, (match marker with | some f => f | none => List.replicate child.numEntities 0) = F ∧
      F = marker.getD (List.replicate child.numEntities 0) ∧ F.length = child.numEntities := by
    cases marker with
    | none => exact ⟨_, rfl, rfl, List.length_replicate⟩
    | some f => exact ⟨_, rfl, rfl, hm f rfl⟩
  have hmem : ∀ p, p ∈ T.flatMap (whereEq values) ↔ ∃ t ∈ T, values[p]? = some t := by
    intro p
    rw [List.mem_flatMap]
    simp only [mem_whereEq]
  obtain ⟨f', e1, l1, g1⟩ := translateLoop_ok hp hc he (values := values) (T.flatMap (whereEq values)) F (by
    intro p hpm
    obtain ⟨t, _, h⟩ := (hmem p).1 hpm
    have := (List.getElem?_eq_some_iff.1 h).1
    exact ⟨by rw [← hv]; exact this, this⟩) hFl
  refine ⟨f', ?_, by rw [l1, hFl], fun e hel => ⟨fun p t hs ht hmt => ?_, fun hn => ?_⟩⟩
  · unfold translateMarkers
    rw [pyAssert_true, py_bind_ok]
    clear g1 hFe hmem hTm
    cases tags <;> cases marker <;> (dsimp only at hT hF ⊢; rw [hT, hF, e1])
  · exact (g1 e hel).1 p t hs ht ((hmem p).2 ⟨t, (hTm t).2 hmt, ht⟩)
  · rw [(g1 e hel).2 (fun p hs hpm => by
      obtain ⟨t, ht, hpt⟩ := (hmem p).1 hpm
      exact hn p t hs hpt ((hTm t).1 ht)), hFe]

/-- `transfer_markers` gives each child entity the marker of the parent entity with the same vertices, if it is
    among the markers (all values by default), and 0 otherwise. -/
theorem transfer_markers_correct {parent child : Topo} {vmap cmap values : List Nat} {k : Nat}
    (hp : parent.Simplicial k) (hc : child.Simplicial k) (he : IsEmbedding parent child vmap cmap)
    (hv : values.length = parent.numEntities) (markers : Option (List Nat)) :
    ∃ f', transferMarkers parent child vmap cmap values true markers = .ok f' ∧
      Transferred parent child vmap values (markers.getD values) (List.replicate child.numEntities 0) f' := by
  have hzero : ∀ e, e < child.numEntities → (List.replicate child.numEntities 0)[e]? = some 0 := by
    intro e h; rw [List.getElem?_replicate, if_pos h]
  cases markers with
  | some m =>
      obtain ⟨f, e1, l1, g1⟩ := transferLoop_ok hp hc he hv (markers := m) (List.range child.numEntities)
        (fun e h => List.mem_range.1 h)
      refine ⟨f, ?_, by rw [l1, List.length_range], fun e hel => ?_⟩
      · unfold transferMarkers
        rw [pyAssert_true, py_bind_ok]
        exact e1
      · rw [hzero e hel]
        exact g1 e e (List.getElem?_range hel)
  | none =>
      obtain ⟨f, e1, l1, g1⟩ := transferLoop_ok hp hc he hv (markers := values.filter (fun v => v ≠ 0))
        (List.range child.numEntities) (fun e h => List.mem_range.1 h)
      refine ⟨f, ?_, by rw [l1, List.length_range], fun e hel => ?_⟩
      · unfold transferMarkers
        rw [pyAssert_true, py_bind_ok]
        exact e1
      · rw [hzero e hel]
        obtain ⟨a, b⟩ := g1 e e (List.getElem?_range hel)
        refine ⟨fun p t hs ht hmt => ?_, fun hn => b (fun p t hs ht hmt => ?_)⟩
        · by_cases h0 : t = 0
          · subst h0
            refine b (fun p' t' hs' ht' hmt' => ?_)
            rw [hs'.unique hp hs, ht] at ht'
            rw [← Option.some.inj ht'] at hmt'
            simp at hmt'
          · exact a p t hs ht (List.mem_filter.2 ⟨hmt, by simpa using h0⟩)
        · exact hn p t hs ht (List.mem_filter.1 hmt).1

example : twoTriangles.Simplicial 1 ∧ oneTriangle.Simplicial 1 ∧
    IsEmbedding twoTriangles oneTriangle [1, 2, 3] [1] :=
  ⟨Topo.simplicial_of_check (by decide +kernel), Topo.simplicial_of_check (by decide +kernel),
    embedding_of_check (by decide +kernel)⟩

/-- Edges 1-2 and 2-3 are marked 7 and 9; edge 0-1 is not in the child. -/
example : translateMarkers twoTriangles oneTriangle [1, 2, 3] [1] [9, 0, 7, 0, 9] true none none = .ok [7, 0, 9] ∧
    transferMarkers twoTriangles oneTriangle [1, 2, 3] [1] [9, 0, 7, 0, 9] true none = .ok [7, 0, 9] ∧
    translateMarkers twoTriangles oneTriangle [1, 2, 3] [1] [9, 0, 7, 0, 9] true (some [9]) (some [5, 5, 5])
      = .ok [5, 5, 9] := by
  decide +kernel

end Verif.Embedded
