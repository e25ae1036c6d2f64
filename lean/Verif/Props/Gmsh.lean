import Verif.Lemmas.Gmsh3
import Mathlib.Algebra.Order.Field.Rat
import Mathlib.Algebra.BigOperators.Group.List.Basic
/-!
# C56: meshes from gmsh
-/
namespace Verif.Gmsh
open Verif Verif.BlockOps Verif.Embedded
variable {K : Type} [Field K] [LinearOrder K] {tol : K} {order : List Nat → List Nat}
  {ents : GMesh K → Nat → List (List Nat)} {nodes : List (K × K × K)} {data : List (Nat × Block)}

theorem coords_place (planar : Bool) (p : K × K × K) : coords planar p = place planar p := by
  cases planar <;> rfl

/-- C56, what is returned.  The cells of the mesh are the triangles of the data, the segments if there are no triangles: at
    the same points, in the same order, without any other vertices, the third coordinate being left out if it vanishes up to
    the tolerance.  The cell function has the tags of the cells.  The function of edges has at each edge the tag of the last
    segment with the same ends, 0 if there is none. -/
theorem import_sound_partial {M : GMesh K} {fs : List (Nat × List Nat)} (ho : ∀ l, (order l).Perm l) (hd : DataOK data)
    (hs : ∀ vs ∈ ents M 2, vs.length = 3) (h : meshFromGmsh tol order ents nodes data = .ok (M, fs)) :
    ∃ elm b planar g, (elm, b) ∈ data ∧ (elm = 2 ∨ elm = 1 ∧ ∀ p ∈ data, p.1 = 1) ∧ M.tdim = elm ∧
      M.gdim = (if planar then 2 else 3) ∧
      (planar = true ↔ (b.rows.flatten.dedup.map (fun n => (nodes.getD n (0, 0, 0)).2.2 ^ 2)).sum < tol ^ 2) ∧
      Imports nodes planar b.rows M g ∧ fs.lookup elm = some b.tags ∧
      (∀ b', elm = 2 → (1, b') ∈ data → ∃ f, fs.lookup 1 = some f ∧ f.length = (ents M 1).length ∧
        ∀ (e : Nat) vs, (ents M 1)[e]? = some vs → f[e]? = some (lastTag g (b'.rows.zip b'.tags) vs)) ∧
      ∀ d f, fs.lookup d = some f → d ∈ data.map (fun p => p.1) := by
  unfold meshFromGmsh at h
  simp only [py_bind_eq_ok] at h
  obtain ⟨_, _, elm, helm, b, hb, vs, hvs, cells, hcells, mesh, hmesh, cellF, hcellF, fs', hfs, e⟩ := h
  injection e with e
  rw [Prod.mk.injEq] at e
  obtain ⟨rfl, rfl⟩ := e
  have hbl : data.lookup elm = some b := by
    cases hl : data.lookup elm with
    | none => rw [hl] at hb; simp at hb
    | some b' => rw [hl] at hb; injection hb with hb; rw [hb]
  have hmem := mem_of_lookup hbl
  have hbok : BlockOK elm b := hd.blocks _ hmem
  obtain ⟨hU, rfl⟩ := unique_range hcells
  obtain ⟨hkey, h1⟩ := maxBy_ok hd helm
  have helm3 := hd.elms _ hmem
  simp only [List.mem_cons, List.not_mem_nil, or_false] at helm3
  generalize hn : (npUnique b.rows.flatten).length = n at hU
  rw [hU] at hvs hfs
  -- the mesh
  unfold buildMesh at hmesh
  simp only [py_bind_eq_ok, pyAssert_eq_ok, decide_eq_true_eq] at hmesh
  obtain ⟨_, _, _, hw, _, _, hmesh⟩ := hmesh
  injection hmesh with hmesh
  have hne4 : elm ≠ 4 := by
    rintro rfl
    rw [hbok.width] at hw
    simp [elmTdim] at hw
  have htd : elmTdim elm = elm := by
    rcases helm3 with rfl | rfl | rfl
    · rfl
    · rfl
    · exact absurd rfl hne4
  rw [htd] at hmesh
  -- vertices
  have hvs2 : vs.length = n ∧ ∀ i : Nat, i < n → nodes[i]? = vs[i]? := by
    rw [pyMap_eq_ok] at hvs
    refine ⟨by rw [← hvs.length_eq]; simp, fun i hi => ?_⟩
    have hl : vs.length = n := by rw [← hvs.length_eq]; simp
    have := List.Forall₂.get hvs (i := i) (by simpa using hi) (by omega)
    simp only [List.get_eq_getElem, List.getElem_range] at this
    rw [pyGet_eq_ok] at this
    rw [this, List.getElem?_eq_getElem (by omega)]
  have hlt : ∀ c, c ∈ b.rows.flatten ↔ c < n := by
    intro c
    rw [← mem_npUnique, hU, List.mem_range]
  -- the cell function
  have hcf : cellF = [(elm, b.tags)] := by
    obtain ⟨m, hm, hm0⟩ := npMin_pos (tags_ne hbok) hbok.pos
    unfold cellFunction at hcellF
    rw [hm, py_bind_ok, if_pos hm0, if_pos hbok.length, htd] at hcellF
    injection hcellF with hcellF
    exact hcellF.symm
  rw [hcf] at hfs
  obtain ⟨hno4, hother, hline⟩ := elmLoop_ok hd.blocks hd.elms hne4 hs hd.keys hfs
  have h12 : elm = 2 ∨ elm = 1 ∧ ∀ p ∈ data, p.1 = 1 := by
    rcases helm3 with rfl | rfl | rfl
    · exact .inr ⟨rfl, h1 rfl⟩
    · exact .inl rfl
    · exact absurd rfl hne4
  have htdk : ∀ p ∈ data, elmTdim p.1 = p.1 := by
    intro p hp
    have h2 := hd.elms p hp
    have h3 := hno4 p hp
    simp only [List.mem_cons, List.not_mem_nil, or_false] at h2
    rcases h2 with h2 | h2 | h2
    · rw [h2]; rfl
    · rw [h2]; rfl
    · exact absurd h2 h3
  refine ⟨elm, b, flat tol vs, id, hmem, h12, by rw [← hmesh], by rw [← hmesh], ?_, ⟨?_, ?_, ?_, ?_⟩, ?_, ?_, ?_⟩
  · unfold flat
    rw [decide_eq_true_eq]
    have hperm : (npUnique b.rows.flatten).Perm b.rows.flatten.dedup := List.perm_insertionSort _ _
    have hmap : vs.map (fun p => p.2.2 ^ 2) = (npUnique b.rows.flatten).map (fun n => (nodes.getD n (0, 0, 0)).2.2 ^ 2) := by
      rw [hU]
      apply List.ext_getElem
      · simp [hvs2.1]
      · intro i hi hi'
        have hi2 : i < n := by simpa using hi'
        simp only [List.getElem_map, List.getElem_range]
        rw [List.getD_eq_getElem?_getD, hvs2.2 i hi2, List.getElem?_eq_getElem (by omega)]
        rfl
    rw [hmap, (hperm.map _).sum_eq]
  · intro row hrow c hc
    have hcn := (hlt c).1 (List.mem_flatten.2 ⟨row, hrow, hc⟩)
    refine ⟨vs[c]'(by omega), ?_, ?_⟩
    · rw [hvs2.2 c hcn, List.getElem?_eq_getElem (by omega)]
    · rw [← hmesh]
      simp only [id, List.getElem?_map]
      rw [List.getElem?_eq_getElem (by omega), Option.map_some, coords_place]
  · intro c _ c' _ e
    exact e
  · intro v hv
    rw [← hmesh] at hv
    simp only [List.length_map] at hv
    exact ⟨v, (hlt v).2 (by omega), rfl⟩
  · rw [← hmesh]
    simp only [List.map_id, List.forall₂_map_left_iff]
    exact List.forall₂_same.2 (fun r _ => ho r)
  · rw [hother elm ?_]
    · simp
    · intro p hp hpc
      rw [htdk p hp]
      exact hpc
  · rintro b' rfl hb'
    obtain ⟨f, hf1, hf2, hf3⟩ := hline b' hb' (by simp)
    refine ⟨f, hf1, hf2, fun e vs he => ?_⟩
    rw [hf3 e vs he]
    simp [lastTag, lastOr]
  · intro d f hf
    by_contra hcon
    rw [hother d ?_] at hf
    · rw [List.lookup_cons] at hf
      have : (d == elm) = false := by
        simp only [beq_eq_false_iff_ne, ne_eq]
        rintro rfl
        exact hcon hkey
      rw [this] at hf
      simp at hf
    · intro p hp _ e
      rw [htdk p hp] at e
      exact hcon (List.mem_map.2 ⟨p, hp, e⟩)

/-- C56 is false of tetrahedra: data with tetrahedra are always refused (their dimension is set to 2). -/
theorem tetrahedra_refused (hd : DataOK data) (hs : ∀ M, ∀ vs ∈ ents M 2, vs.length = 3) (ho : ∀ l, (order l).Perm l)
    {b : Block} (hb : (4, b) ∈ data) (r : GMesh K × List (Nat × List Nat)) :
    meshFromGmsh tol order ents nodes data ≠ .ok r := by
  obtain ⟨M, fs⟩ := r
  intro h
  unfold meshFromGmsh at h
  simp only [py_bind_eq_ok] at h
  obtain ⟨_, _, elm, helm, b0, hb0, vs, hvs, cells, hcells, mesh, hmesh, cellF, hcellF, fs', hfs, e⟩ := h
  have hbl : data.lookup elm = some b0 := by
    cases hl : data.lookup elm with
    | none => rw [hl] at hb0; simp at hb0
    | some b' => rw [hl] at hb0; injection hb0 with hb0; rw [hb0]
  obtain ⟨hU, rfl⟩ := unique_range hcells
  unfold buildMesh at hmesh
  simp only [py_bind_eq_ok, pyAssert_eq_ok, decide_eq_true_eq] at hmesh
  obtain ⟨_, _, _, hw, _, _, _⟩ := hmesh
  have hne4 : elm ≠ 4 := by
    rintro rfl
    rw [(hd.blocks _ (mem_of_lookup hbl)).width] at hw
    simp [elmTdim] at hw
  rw [hU] at hfs
  exact (elmLoop_ok hd.blocks hd.elms hne4 (hs mesh) hd.keys hfs).1 _ hb rfl

/-- C56 is false of nodes which are not used by the cells: if a node has a larger number than a node which no cell has then
    `KeyError` is raised (the renumbering is built the wrong way round). -/
theorem gaps_refused (hd : DataOK data) {elm : Nat} {b : Block} (hb : (elm, b) ∈ data)
    (hc : maxBy elmTdim (data.map (fun p => p.1)) = .ok elm) (hnodes : ∀ n ∈ b.rows.flatten, n < nodes.length)
    {n m : Nat} (hn : n ∈ b.rows.flatten) (hm : m < n) (hmn : m ∉ b.rows.flatten) :
    meshFromGmsh tol order ents nodes data = .error .keyError := by
  unfold meshFromGmsh
  have ha : data.all (fun p => decide (p.1 ∈ [1, 2, 4])) = true := by
    rw [List.all_eq_true]
    intro p hp
    exact decide_eq_true (hd.elms p hp)
  rw [ha, pyAssert_true, py_bind_ok, hc, py_bind_ok, lookup_of_mem hd.keys hb]
  simp only [py_bind_ok]
  rw [pyMap_ok (f := pyGet nodes) (g := fun n => nodes.getD n (0, 0, 0)) (xs := npUnique b.rows.flatten) ?_, py_bind_ok,
    pyMap_keyError ?_, py_bind_error]
  · by_contra hcon
    have hlt : ∀ c ∈ b.rows.flatten, c < (npUnique b.rows.flatten).length := by
      intro c hc
      by_contra h
      exact hcon ⟨c, hc, by omega⟩
    have hU := eq_range_of_lt (npUnique_sorted _) (npUnique_nodup _) (fun x hx => hlt x (mem_npUnique.1 hx))
    have : m ∈ npUnique b.rows.flatten := by
      rw [hU, List.mem_range]
      have := hlt n hn
      omega
    exact hmn (mem_npUnique.1 this)
  · intro c hc
    rw [pyGet_eq_ok, List.getD_eq_getElem?_getD, List.getElem?_eq_getElem (hnodes c (mem_npUnique.1 hc))]
    rfl

/-- C56, what is accepted: triangles which use all nodes up to some number, and segments joining vertices of a triangle. -/
theorem import_accepts (ho : ∀ l, (order l).Perm l) (hd : DataOK data) {b : Block} (hb : (2, b) ∈ data)
    (h4 : ∀ p ∈ data, p.1 ≠ 4) (hall : ∀ n ∈ b.rows.flatten, ∀ m < n, m ∈ b.rows.flatten)
    (hnodes : ∀ n ∈ b.rows.flatten, n < nodes.length) (hents : ∀ M, EntsOK M.cells 1 (ents M 1))
    (hseg : ∀ b', (1, b') ∈ data → ∀ r ∈ b'.rows, ∃ t ∈ b.rows, ∀ n ∈ r, n ∈ t) :
    ∃ M fs, meshFromGmsh tol order ents nodes data = .ok (M, fs) := by
  obtain ⟨elm, helm⟩ := maxBy_total (data := data) (by rintro rfl; simp at hb)
  obtain ⟨hkey, h1⟩ := maxBy_ok hd helm
  have h2 : elm = 2 := by
    obtain ⟨p, hp, rfl⟩ := List.mem_map.1 hkey
    have := hd.elms p hp
    simp only [List.mem_cons, List.not_mem_nil, or_false] at this
    rcases this with h | h | h
    · exact absurd (h1 h (2, b) hb) (by simp)
    · exact h
    · exact absurd h (h4 p hp)
  subst h2
  have hbok : BlockOK 2 b := hd.blocks _ hb
  have hU := unique_of_closed hall
  generalize hn : (npUnique b.rows.flatten).length = n at hU
  have hlt : ∀ c, c ∈ b.rows.flatten ↔ c < n := by
    intro c
    rw [← mem_npUnique, hU, List.mem_range]
  unfold meshFromGmsh
  have ha : data.all (fun p => decide (p.1 ∈ [1, 2, 4])) = true := by
    rw [List.all_eq_true]
    intro p hp
    exact decide_eq_true (hd.elms p hp)
  rw [ha, pyAssert_true, py_bind_ok, helm, py_bind_ok, lookup_of_mem hd.keys hb]
  simp only [py_bind_ok]
  rw [hU, pyMap_ok (f := pyGet nodes) (g := fun n => nodes.getD n (0, 0, 0)) (xs := List.range n) ?_, py_bind_ok,
    mapRows_range (fun c hc => (hlt c).1 hc), py_bind_ok]
  · generalize hvs : (List.range n).map (fun n => nodes.getD n (0, 0, 0)) = vs
    have hvl : vs.length = n := by rw [← hvs]; simp
    have hrows : ∀ c ∈ b.rows, ∀ v ∈ c, v < n := fun c hc v hv => (hlt v).1 (List.mem_flatten.2 ⟨c, hc, hv⟩)
    rw [buildMesh_ok (by rw [hbok.width]; rfl) (by simpa [hvl] using hrows), py_bind_ok]
    obtain ⟨m, hm, hm0⟩ := npMin_pos (tags_ne hbok) hbok.pos
    have hcf : cellFunction b (elmTdim 2) = .ok [(2, b.tags)] := by
      unfold cellFunction
      rw [hm, py_bind_ok, if_pos hm0, if_pos hbok.length]
      rfl
    rw [hcf, py_bind_ok]
    generalize hM : (⟨elmTdim 2, if flat tol vs = true then 2 else 3, vs.map (coords (flat tol vs)), b.rows.map order⟩ :
      GMesh K) = M
    have hin : ∀ p ∈ data, p.1 = 1 → ∀ r ∈ p.2.rows, ∃ t ∈ b.rows, ∀ n ∈ r, n ∈ t := by
      rintro ⟨k, b'⟩ hp hk r hr
      dsimp only at hk
      subst hk
      exact hseg b' hp r hr
    obtain ⟨fs, hfs⟩ := elmLoop_total (n := n) (ents := ents M) (l := data) (out := [(2, b.tags)]) hd.blocks
      (by
        intro p hp
        have := hd.elms p hp
        simp only [List.mem_cons, List.not_mem_nil, or_false] at this
        rcases this with h | h | h
        · exact .inl h
        · exact .inr h
        · exact absurd h (h4 p hp))
      (by
        intro p hp hk r hr c hc
        obtain ⟨t, ht, hsub⟩ := hin p hp hk r hr
        exact hrows t ht c (hsub c hc))
      (by
        intro p hp hk r hr
        obtain ⟨t, ht, hsub⟩ := hin p hp hk r hr
        have hpb := hd.blocks p hp
        have hw := hpb.width
        rw [hk, if_pos rfl] at hw
        apply common_single (hents M) (hpb.rows r hr).2 (by rw [(hpb.rows r hr).1, hw])
        refine ⟨order t, ?_, fun n hn => (ho t).mem_iff.2 (hsub n hn)⟩
        rw [← hM]
        exact List.mem_map.2 ⟨t, ht, rfl⟩)
    refine ⟨M, fs, ?_⟩
    rw [hfs]
    rfl
  · intro c hc
    rw [pyGet_eq_ok, List.getD_eq_getElem?_getD,
      List.getElem?_eq_getElem (hnodes c ((hlt c).2 (List.mem_range.1 hc)))]
    rfl

/-! ## Data of a gmsh model -/

/-- C56, the data: the elements of each type are those of the physical groups, with the tags of the groups. -/
theorem model_elements {P : Type} {tagged : List (Nat × P)} {groups : List (Nat × List Entity)} {ns : List P}
    (h : mshGmshModel tagged groups = .ok (ns, data)) (elm : Nat) :
    (data.lookup elm).elim [] (fun b => b.rows.zip b.tags) = elementsOf elm groups := by
  unfold mshGmshModel at h
  obtain ⟨d, hd, h⟩ := py_bind_eq_ok.1 h
  injection h with h
  injection h with h1 h2
  subst h2
  have := (addGroups_ok (data := []) (by intro p hp; simp at hp) hd).2 elm
  rw [elementsIn, elementsIn] at this
  rw [this]
  rfl

/-- Data of groups with positive tags, each entity with elements of one type, are made and are fit for the import. -/
theorem model_accepts {P : Type} (tagged : List (Nat × P)) {groups : List (Nat × List Entity)}
    (hg : ∀ G ∈ groups, 0 < G.1 ∧ ∀ E ∈ G.2, EntityOK E) :
    ∃ ns d, mshGmshModel tagged groups = .ok (ns, d) ∧ DataOK d := by
  obtain ⟨d, h1, h2⟩ := addGroups_dataOK (data := []) ⟨by simp, by simp, by simp⟩ hg
  exact ⟨_, d, by unfold mshGmshModel; rw [h1]; rfl, h2⟩

/-- C56, the nodes: if the tags are 1, 2, ... in any order then the node with the tag `i + 1` is at the place `i`. -/
theorem model_nodes {P : Type} {tagged : List (Nat × P)} {groups : List (Nat × List Entity)} {ns : List P}
    {d : List (Nat × Block)} (ht : (tagged.map (fun p => p.1)).Perm (List.range' 1 tagged.length))
    (h : mshGmshModel tagged groups = .ok (ns, d)) (i : Nat) (p : P) : ns[i]? = some p ↔ (i + 1, p) ∈ tagged := by
  unfold mshGmshModel at h
  obtain ⟨d, hd, h⟩ := py_bind_eq_ok.1 h
  injection h with h
  injection h with h1 h2
  subst h1
  exact sorted_nodes ht i p

/-- Tags with a gap: elements refer to wrong places. -/
theorem model_nodes_false : ∃ (tagged : List (Nat × Nat)) (groups : List (Nat × List Entity)) (ns : List Nat)
    (d : List (Nat × Block)), (tagged.map (fun p => p.1)).Nodup ∧ mshGmshModel tagged groups = .ok (ns, d) ∧
      (3, 30) ∈ tagged ∧ ns[2]? ≠ some 30 :=
  ⟨[(1, 10), (3, 30), (4, 40)], [], [10, 30, 40], [], by decide, rfl, by decide, by decide⟩

/-- C56 from gmsh to the mesh: cell `i` has the points of element `i` of the physical groups, the cell function has the
    tag of its group. -/
theorem gmsh_cells {tagged : List (Nat × K × K × K)} {groups : List (Nat × List Entity)} {M : GMesh K}
    {fs : List (Nat × List Nat)} (ho : ∀ l, (order l).Perm l) (hs : ∀ M, ∀ vs ∈ ents M 2, vs.length = 3)
    (ht : (tagged.map (fun p => p.1)).Perm (List.range' 1 tagged.length))
    (hg : ∀ G ∈ groups, 0 < G.1 ∧ ∀ E ∈ G.2, EntityOK E)
    (hm : mshGmshModel tagged groups = .ok (nodes, data))
    (h : meshFromGmsh tol order ents nodes data = .ok (M, fs)) :
    ∃ elm planar, M.tdim = elm ∧
      List.Forall₂ (fun (cell : List Nat) (x : List Nat × Nat) => ∃ pts : List (K × K × K),
        List.Forall₂ (fun n p => (n + 1, p) ∈ tagged) x.1 pts ∧
        (cell.map (fun v => M.verts[v]?)).Perm (pts.map (fun p => some (place planar p)))) M.cells (elementsOf elm groups) ∧
      fs.lookup elm = some ((elementsOf elm groups).map (fun x => x.2)) := by
  obtain ⟨ns', d', hm', hd⟩ := model_accepts tagged hg
  rw [hm] at hm'
  injection hm' with e
  injection e with _ e
  rw [← e] at hd
  obtain ⟨elm, b, planar, g, hb, _, htd, _, _, hI, hf, _, _⟩ := import_sound_partial ho hd (hs M) h
  have hel := model_elements hm elm
  rw [lookup_of_mem hd.keys hb] at hel
  simp only [Option.elim] at hel
  have hlen := (hd.blocks _ hb).length
  dsimp only at hlen
  refine ⟨elm, planar, htd, ?_, ?_⟩
  · rw [← hel, List.forall₂_iff_get]
    have hc := hI.cells
    rw [List.forall₂_iff_get] at hc
    refine ⟨by rw [List.length_zip, hc.1]; omega, fun i h1 h2 => ?_⟩
    have hi : i < b.rows.length := by rw [← hc.1]; exact h1
    have hperm := hc.2 i h1 hi
    simp only [List.get_eq_getElem, List.getElem_zip] at hperm ⊢
    refine ⟨b.rows[i].map (fun n => nodes.getD n (0, 0, 0)), ?_, ?_⟩
    · rw [List.forall₂_map_right_iff, List.forall₂_same]
      intro n hn
      obtain ⟨p, hp, _⟩ := hI.verts _ (List.getElem_mem hi) n hn
      rw [← model_nodes ht hm, List.getD_eq_getElem?_getD, hp]
      rfl
    · refine (hperm.map (fun v => M.verts[v]?)).trans (List.Perm.of_eq ?_)
      rw [List.map_map, List.map_map]
      apply List.map_congr_left
      intro n hn
      obtain ⟨p, hp, hv⟩ := hI.verts _ (List.getElem_mem hi) n hn
      simp only [Function.comp]
      rw [hv, List.getD_eq_getElem?_getD, hp]
      rfl
  · rw [hf, ← hel, ← List.unzip_snd, List.unzip_zip_right (by omega)]

/-! ## A square -/

/-- Nodes of a square of two triangles, in a mixed order, and its diagonal as a tagged line. -/
def sqNodes : List (Nat × ℚ × ℚ × ℚ) := [(3, 1, 1, 0), (1, 0, 0, 0), (4, 0, 1, 0), (2, 1, 0, 0)]
def sqGroups : List (Nat × List Entity) := [(7, [[(1, 2, [[1, 3]])]]), (5, [[(2, 3, [[1, 2, 3], [3, 4, 1]])]])]
/-- The edges of the square. -/
def sqEnts (M : GMesh ℚ) (d : Nat) : List (List Nat) := if d = 1 then [[0, 1], [0, 2], [0, 3], [1, 2], [2, 3]] else M.cells

example : mshGmshModel sqNodes sqGroups =
    .ok ([(0, 0, 0), (1, 0, 0), (1, 1, 0), (0, 1, 0)],
      [(1, ⟨2, [[0, 2]], [7]⟩), (2, ⟨3, [[0, 1, 2], [2, 3, 0]], [5, 5]⟩)]) := by decide +kernel

example : meshFromGmsh (1 / 10 ^ 13) (fun l => l.insertionSort (· ≤ ·)) sqEnts
      [(0, 0, 0), (1, 0, 0), (1, 1, 0), (0, 1, 0)]
      [(1, ⟨2, [[0, 2]], [7]⟩), (2, ⟨3, [[0, 1, 2], [2, 3, 0]], [5, 5]⟩)] =
    .ok (⟨2, 2, [[0, 0], [1, 0], [1, 1], [0, 1]], [[0, 1, 2], [0, 2, 3]]⟩, [(1, [0, 7, 0, 0, 0]), (2, [5, 5])]) := by
  decide +kernel

/-- The hypotheses are met. -/
example : DataOK [(1, ⟨2, [[0, 2]], [7]⟩), (2, ⟨3, [[0, 1, 2], [2, 3, 0]], [5, 5]⟩)] ∧
    (∀ G ∈ sqGroups, 0 < G.1 ∧ ∀ E ∈ G.2, EntityOK E) ∧
    (sqNodes.map (fun p => p.1)).Perm (List.range' 1 sqNodes.length) := by
  refine ⟨⟨by decide, by decide, ?_⟩, ?_, by decide⟩
  · intro p hp
    simp only [List.mem_cons, List.not_mem_nil, or_false] at hp
    rcases hp with rfl | rfl <;> exact ⟨by decide, by decide, by decide, by decide, by decide⟩
  · intro G hG
    simp only [sqGroups, List.mem_cons, List.not_mem_nil, or_false] at hG
    rcases hG with rfl | rfl
    · refine ⟨by decide, fun E hE => ?_⟩
      rw [List.mem_singleton] at hE
      exact ⟨1, 2, [[1, 3]], hE, by decide, by decide, by decide, by decide⟩
    · refine ⟨by decide, fun E hE => ?_⟩
      rw [List.mem_singleton] at hE
      exact ⟨2, 3, [[1, 2, 3], [3, 4, 1]], hE, by decide, by decide, by decide, by decide⟩

/-- A node which no cell has: the import raises. -/
example : meshFromGmsh (1 / 10 ^ 13) (fun l => l.insertionSort (· ≤ ·)) sqEnts
      [(5, 5, 0), (0, 0, 0), (1, 0, 0), (1, 1, 0)] [(2, ⟨3, [[1, 2, 3]], [5]⟩)] = .error .keyError := by
  decide +kernel

/-- A tetrahedron: the import raises. -/
example : meshFromGmsh (1 / 10 ^ 13) (fun l => l.insertionSort (· ≤ ·)) sqEnts
      [(0, 0, 0), (1, 0, 0), (0, 1, 0), (0, 0, 1)] [(4, ⟨4, [[0, 1, 2, 3]], [5]⟩)] = .error .assertion := by
  decide +kernel

end Verif.Gmsh
