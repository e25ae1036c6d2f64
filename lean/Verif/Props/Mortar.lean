import Verif.Lemmas.Mortar
/-!
# C44: mortar interfaces
-/
namespace Verif.Mortar
open Verif Verif.BlockOps Verif.Embedded
variable {P : Type}

/-- The interface of `mortar_meshes` consists of the facets between two cells with different tags among the
    markers; its colours are the pairs of tags, and for each facet the cell with the smaller tag is recorded first. -/
theorem mortar_interface (f2c f2v : Nat → List Nat) (coords : Nat → P) (meshDim numFacets : Nat)
    (submesh : List Nat → SubMesh P) (tags markers facets : List Nat) (hd : 2 ≤ meshDim)
    (hM : Manifold f2c tags.length numFacets) (hm : 1 < markers.length)
    (hf : facets.Nodup ∧ ∀ f ∈ facets, f < numFacets)
    (hne : ∃ f ∈ facets, ∃ key v, Between f2c tags markers f key v) :
    ∃ iface M, (∀ strictOk, mortarInterface f2c f2v coords meshDim numFacets submesh tags markers facets strictOk
        = (do pyAssert (strictOk M); .ok (iface, M))) ∧
      -- the colours are the pairs of tags
      (iface.map (fun p => p.1)).Nodup ∧
      (∀ key, key ∈ iface.map (fun p => p.1) ↔ ∃ f ∈ facets, ∃ v, Between f2c tags markers f key v) ∧
      (∀ key d, (key, d) ∈ iface → ∀ f v, d.lookup f = some v ↔ f ∈ facets ∧ Between f2c tags markers f key v) ∧
      -- the cells of the interface mesh are the facets between tags
      M.cmap.Nodup ∧ (∀ f, f ∈ M.cmap ↔ f ∈ facets ∧ ∃ key v, Between f2c tags markers f key v) ∧
      M.vmap.Nodup ∧ M.coords = M.vmap.map coords ∧ M.cells.length = M.cmap.length ∧ M.marking.length = M.cmap.length ∧
      (∀ (i f : Nat) (vs : List Nat), M.cmap[i]? = some f → M.cells[i]? = some vs →
        (vs.map (fun v => M.vmap[v]?)).Perm ((f2v f).map some)) ∧
      -- the colour of a cell is the pair of its tags
      ∀ (i f n : Nat), M.cmap[i]? = some f → (M.marking[i]? = some n ↔
        ∃ key d v, iface[n]? = some (key, d) ∧ Between f2c tags markers f key v) := by
  obtain ⟨iface, e1, o1⟩ := facetLoop_ok (markers := markers) hM facets [] [] (by simpa using hf.1) hf.2
    ⟨by simp, by simp, by simp⟩
  rw [List.nil_append] at o1
  have hin : ∀ (i : Nat) (d : List Nat), (iface.map (fun p => p.2.map (fun q => q.1)))[i]? = some d →
      ∃ key dd, iface[i]? = some (key, dd) ∧ (key, dd) ∈ iface ∧
        ∀ f, f ∈ d ↔ f ∈ facets ∧ ∃ v, Between f2c tags markers f key v := by
    intro i d hi
    rw [List.getElem?_map] at hi
    obtain ⟨⟨key, dd⟩, h1, rfl⟩ := Option.map_eq_some_iff.1 hi
    have hmem := List.mem_iff_getElem?.2 ⟨i, h1⟩
    refine ⟨key, dd, h1, hmem, fun f => ?_⟩
    rw [List.mem_map]
    constructor
    · rintro ⟨⟨f', v⟩, hp, rfl⟩
      obtain ⟨a, b⟩ := ((o1.inner key dd hmem).2.2 f' v).1 hp
      exact ⟨a, v, b⟩
    · rintro ⟨a, v, b⟩
      exact ⟨(f, v), ((o1.inner key dd hmem).2.2 f v).2 ⟨a, b⟩, rfl⟩
  have hidx : ∀ (i j : Nat) (key : Nat × Nat) d d', iface[i]? = some (key, d) → iface[j]? = some (key, d') → i = j := by
    intro i j key d d' hi hj
    have h1 : (iface.map (fun p => p.1))[i]? = some key := by rw [List.getElem?_map, hi]; rfl
    have h2 : (iface.map (fun p => p.1))[j]? = some key := by rw [List.getElem?_map, hj]; rfl
    exact (List.getElem?_inj (List.getElem?_eq_some_iff.1 h1).1 o1.keys).1 (by rw [h1, h2])
  obtain ⟨values, e2, l2, g2, g3⟩ := colorFill_ok (iface.map (fun p => p.2.map (fun q => q.1))) 0
    (List.replicate numFacets iface.length)
    (by
      intro d hd f hfd
      obtain ⟨i, hi⟩ := List.mem_iff_getElem?.1 hd
      obtain ⟨_, _, _, _, h⟩ := hin i d hi
      rw [List.length_replicate]; exact hf.2 f ((h f).1 hfd).1)
    (by
      intro i j d e f hi hj hfd hfe
      obtain ⟨k1, d1, a1, _, h1⟩ := hin i d hi
      obtain ⟨k2, d2, a2, _, h2⟩ := hin j e hj
      obtain ⟨_, v1, b1⟩ := (h1 f).1 hfd
      obtain ⟨_, v2, b2⟩ := (h2 f).1 hfe
      obtain ⟨rfl, _⟩ := b1.unique b2
      exact hidx i j k1 d1 d2 a1 a2)
  -- the value of a facet
  have hval : ∀ f n, (f ∈ facets ∧ ∃ key d v, iface[n]? = some (key, d) ∧ Between f2c tags markers f key v) ↔
      (n < iface.length ∧ values[f]? = some n) := by
    intro f n
    constructor
    · rintro ⟨hff, key, d, v, hn, hb⟩
      have h1 : (iface.map (fun p => p.2.map (fun q => q.1)))[n]? = some (d.map (fun q => q.1)) := by
        rw [List.getElem?_map, hn]; rfl
      have hmem := List.mem_iff_getElem?.2 ⟨n, hn⟩
      have h2 := g2 n _ h1 f (List.mem_map.2 ⟨(f, v), ((o1.inner key d hmem).2.2 f v).2 ⟨hff, hb⟩, rfl⟩)
      rw [Nat.zero_add] at h2
      exact ⟨(List.getElem?_eq_some_iff.1 hn).1, h2⟩
    · rintro ⟨hlt, hv⟩
      by_cases hex : ∃ d ∈ iface.map (fun p => p.2.map (fun q => q.1)), f ∈ d
      · obtain ⟨d, hd, hfd⟩ := hex
        obtain ⟨i, hi⟩ := List.mem_iff_getElem?.1 hd
        have := g2 i d hi f hfd
        rw [hv, Nat.zero_add] at this
        obtain rfl := Option.some.inj this
        obtain ⟨key, dd, h1, _, h2⟩ := hin n d hi
        obtain ⟨hff, v, hb⟩ := (h2 f).1 hfd
        exact ⟨hff, key, dd, v, h1, hb⟩
      · push Not at hex
        rw [g3 f hex, List.getElem?_replicate] at hv
        split at hv
        · have := Option.some.inj hv; omega
        · simp at hv
  have hpos : 0 < iface.length := by
    obtain ⟨f, hff, key, v, hb⟩ := hne
    obtain ⟨d, hd⟩ := o1.all f hff key v hb
    exact List.length_pos_of_mem hd
  obtain ⟨M, e3, R, _⟩ := embedEntities_ok f2v coords (marks := values) (markers := List.range iface.length)
    (by intro h; rw [List.range_eq_nil] at h; omega) List.nodup_range
  have e4 : embeddedMesh meshDim (meshDim - 1) f2v coords submesh values (List.range iface.length) = .ok M := by
    unfold embeddedMesh
    rw [decide_eq_true (by omega), decide_eq_true (by omega), pyAssert_true, py_bind_ok, py_bind_ok,
      if_neg (by omega), e3]
  refine ⟨iface, M, ?_, o1.keys, ?_, ?_, R.cells.1, ?_, R.verts, R.coord, R.len.1, R.len.2, R.cell, ?_⟩
  · intro strictOk
    unfold mortarInterface
    simp only [decide_eq_true hm, pyAssert_true, py_bind_ok, e1, e2, e4]
  · intro key
    rw [List.mem_map]
    constructor
    · rintro ⟨⟨k, d⟩, hp, rfl⟩
      obtain ⟨_, hdne, h⟩ := o1.inner k d hp
      obtain ⟨⟨f, v⟩, hfv⟩ := List.exists_mem_of_ne_nil _ hdne
      obtain ⟨a, b⟩ := (h f v).1 hfv
      exact ⟨f, a, v, b⟩
    · rintro ⟨f, hff, v, hb⟩
      obtain ⟨d, hd⟩ := o1.all f hff key v hb
      exact ⟨_, hd, rfl⟩
  · intro key d hm f v
    obtain ⟨a, _, c⟩ := o1.inner key d hm
    rw [lookup_iff_mem a, c]
  · intro f
    rw [R.cells.2]
    constructor
    · rintro ⟨n, hn, hv⟩
      obtain ⟨a, key, d, v, _, hb⟩ := (hval f n).2 ⟨List.mem_range.1 hn, hv⟩
      exact ⟨a, key, v, hb⟩
    · rintro ⟨hff, key, v, hb⟩
      obtain ⟨d, hd⟩ := o1.all f hff key v hb
      obtain ⟨n, hn⟩ := List.mem_iff_getElem?.1 hd
      obtain ⟨a, b⟩ := (hval f n).1 ⟨hff, key, d, v, hn, hb⟩
      exact ⟨n, List.mem_range.2 a, b⟩
  · intro i f n hi
    obtain ⟨m, hm1, hm2⟩ := (R.cells.2 f).1 (List.mem_iff_getElem?.2 ⟨i, hi⟩)
    obtain ⟨hff, key, d, v, hk, hb⟩ := (hval f m).2 ⟨List.mem_range.1 hm1, hm2⟩
    rw [R.marker i f hi, hm2]
    constructor
    · intro h
      obtain rfl := Option.some.inj h
      exact ⟨key, d, v, hk, hb⟩
    · rintro ⟨key', d', v', hk', hb'⟩
      obtain ⟨rfl, _⟩ := hb.unique hb'
      exact congrArg some (hidx m n key d d' hk hk')

/-- Without facets between the tags the call fails. -/
theorem mortar_no_interface (f2c f2v : Nat → List Nat) (coords : Nat → P) (meshDim numFacets : Nat)
    (submesh : List Nat → SubMesh P) (tags markers facets : List Nat) (strictOk : EMesh P → Bool)
    (hM : Manifold f2c tags.length numFacets) (hf : facets.Nodup ∧ ∀ f ∈ facets, f < numFacets)
    (hne : ¬ ∃ f ∈ facets, ∃ key v, Between f2c tags markers f key v) :
    mortarInterface f2c f2v coords meshDim numFacets submesh tags markers facets strictOk = .error .assertion := by
  obtain ⟨iface, e1, o1⟩ := facetLoop_ok (markers := markers) hM facets [] [] (by simpa using hf.1) hf.2
    ⟨by simp, by simp, by simp⟩
  rw [List.nil_append] at o1
  have hnil : iface = [] := by
    rcases iface with _ | ⟨⟨key, d⟩, rest⟩
    · rfl
    · obtain ⟨_, hdne, h⟩ := o1.inner key d (by simp)
      obtain ⟨⟨f, v⟩, hfv⟩ := List.exists_mem_of_ne_nil _ hdne
      obtain ⟨a, b⟩ := (h f v).1 hfv
      exact absurd ⟨f, a, key, v, b⟩ hne
  subst hnil
  unfold mortarInterface
  by_cases hm : 1 < markers.length
  · have e4 : ∀ vals, embeddedMesh meshDim (meshDim - 1) f2v coords submesh vals [] = .error .assertion := by
      intro vals
      unfold embeddedMesh
      by_cases h2 : 0 < meshDim - 1
      · rw [decide_eq_true (by omega), decide_eq_true h2, pyAssert_true, py_bind_ok, py_bind_ok, if_neg (by omega)]
        rfl
      · rw [decide_eq_true (by omega), decide_eq_false h2, pyAssert_true, py_bind_ok, pyAssert_false, py_bind_error]
    simp only [decide_eq_true hm, pyAssert_true, py_bind_ok, e1]
    simp only [List.map_nil, colorFill, py_bind_ok, List.length_nil, List.range_zero, e4, py_bind_error]
  · rw [decide_eq_false hm, pyAssert_false, py_bind_error]

/-- What `mortar_meshes` returns: the interface mesh above, for every colour the positions of its two tags in the list of
    markers, and maps of the cells of the interface to facets of the submeshes.  The search for such a facet goes over the
    facets of the cell of the submesh which has the number of the adjacent cell in the parent mesh, and the call fails if
    there is no such cell or the interface is not continuous (unless this is not asked for).

    Partial: the cell should be the one whose parent is the adjacent cell; see `mortar_raises` and
    `mortar_not_found`. -/
theorem mortar_meshes_partial (f2c f2v : Nat → List Nat) (coords : Nat → P) (meshDim numFacets : Nat)
    (submesh : List Nat → SubMesh P) (tags markers facets : List Nat) (strictOk : EMesh P → Bool) (S : Subs) (hd : 2 ≤ meshDim)
    (hM : Manifold f2c tags.length numFacets) (hm : 1 < markers.length)
    (hf : facets.Nodup ∧ ∀ f ∈ facets, f < numFacets)
    (hne : ∃ f ∈ facets, ∃ key v, Between f2c tags markers f key v) :
    ∃ (keys : List (Nat × Nat)) (M : EMesh P),
      -- the colours are the pairs of tags
      keys.Nodup ∧ (∀ key, key ∈ keys ↔ ∃ f ∈ facets, ∃ v, Between f2c tags markers f key v) ∧
      -- the cells of the interface mesh are the facets between tags
      M.cmap.Nodup ∧ (∀ f, f ∈ M.cmap ↔ f ∈ facets ∧ ∃ key v, Between f2c tags markers f key v) ∧
      M.vmap.Nodup ∧ M.coords = M.vmap.map coords ∧ M.cells.length = M.cmap.length ∧ M.marking.length = M.cmap.length ∧
      (∀ (i f : Nat) (vs : List Nat), M.cmap[i]? = some f → M.cells[i]? = some vs →
        (vs.map (fun v => M.vmap[v]?)).Perm ((f2v f).map some)) ∧
      -- the colour of a cell is the pair of its tags
      (∀ (i f n : Nat), M.cmap[i]? = some f → (M.marking[i]? = some n ↔
        ∃ key v, keys[n]? = some key ∧ Between f2c tags markers f key v)) ∧
      -- when the call returns
      ((∃ r, mortarMeshes f2c f2v coords meshDim numFacets submesh tags markers facets strictOk S = .ok r) ↔
        strictOk M = true ∧ ∀ f ∈ facets, ∀ key v, Between f2c tags markers f key v →
          v.1 < S.numSub key.1 ∧ v.2 < S.numSub key.2) ∧
      -- what it returns
      ∀ M' im cm, mortarMeshes f2c f2v coords meshDim numFacets submesh tags markers facets strictOk S = .ok (M', im, cm) →
        M' = M ∧ cm.length = keys.length ∧
        (∀ (n : Nat) p key, cm[n]? = some p → keys[n]? = some key →
          markers[p.1]? = some key.1 ∧ markers[p.2]? = some key.2) ∧
        ∀ i f key v, M.cmap[i]? = some f → Between f2c tags markers f key v →
          im.lookup (key.1, i) = (S.facets key.1 v.1).find? (fun g => S.near i key.1 g) ∧
          im.lookup (key.2, i) = (S.facets key.2 v.2).find? (fun g => S.near i key.2 g) ∧
          ∀ t, t ≠ key.1 → t ≠ key.2 → im.lookup (t, i) = none := by
  obtain ⟨iface, M, e, h1, h2, h3, h4, h5, h6, h7, h8, hml, h9, h10⟩ := mortar_interface f2c f2v coords meshDim numFacets submesh
    tags markers facets hd hM hm hf hne
  have hlt : ∀ key d, (key, d) ∈ iface → key.1 < key.2 := by
    intro key d hk
    obtain ⟨f, _, v, hb⟩ := (h2 key).1 (List.mem_map.2 ⟨_, hk, rfl⟩)
    exact hb.2.1
  have hkey : ∀ (n : Nat) key, (iface.map (fun p => p.1))[n]? = some key ↔ ∃ d, iface[n]? = some (key, d) := by
    intro n key
    rw [List.getElem?_map, Option.map_eq_some_iff]
    constructor
    · rintro ⟨⟨k, d⟩, h, rfl⟩; exact ⟨d, h⟩
    · rintro ⟨d, h⟩; exact ⟨_, h, rfl⟩
  -- every cell has a colour
  have hcol : ∀ (i : Nat) f key v, M.cmap[i]? = some f → Between f2c tags markers f key v →
      ∃ (n : Nat) (d : _), iface[n]? = some (key, d) ∧ M.marking[i]? = some n ∧ f ∈ facets ∧ d.lookup f = some v := by
    intro i f key v hi hb
    have hff := ((h5 f).1 (List.mem_iff_getElem?.2 ⟨i, hi⟩)).1
    obtain ⟨⟨k, d⟩, hk, rfl⟩ := List.mem_map.1 ((h2 key).2 ⟨f, hff, v, hb⟩)
    obtain ⟨n, hn⟩ := List.mem_iff_getElem?.1 hk
    exact ⟨n, d, hn, (h10 i f n hi).2 ⟨k, d, v, hn, hb⟩, hff, (h3 k d hk f v).2 ⟨hff, hb⟩⟩
  have hspec : ∀ im, mapColors S M 0 iface [] = .ok im → ∀ (i : Nat) f key v, M.cmap[i]? = some f → Between f2c tags markers f key v →
      v.1 < S.numSub key.1 ∧ v.2 < S.numSub key.2 ∧
      im.lookup (key.1, i) = (S.facets key.1 v.1).find? (fun g => S.near i key.1 g) ∧
      im.lookup (key.2, i) = (S.facets key.2 v.2).find? (fun g => S.near i key.2 g) ∧
      ∀ t, t ≠ key.1 → t ≠ key.2 → im.lookup (t, i) = none := by
    intro im him i f key v hi hb
    obtain ⟨_, b⟩ := mapColors_spec (fun p hp => by have := hlt p.1 p.2 hp; omega) (fun _ _ _ _ => rfl) him
    obtain ⟨n, d, hn, hmn, _, hl⟩ := hcol i f key v hi hb
    obtain ⟨f', g, c1, c2, c3⟩ := b n key d hn i (by rw [hmn, Nat.zero_add])
    rw [hi] at c1
    obtain rfl := Option.some.inj c1
    rw [hl] at c2
    obtain rfl := Option.some.inj c2
    exact c3
  refine ⟨iface.map (fun p => p.1), M, h1, h2, h4, h5, h6, h7, h8, hml, h9, ?_, ?_, ?_⟩
  · intro i f n hi
    rw [h10 i f n hi]
    constructor
    · rintro ⟨key, d, v, hn, hb⟩; exact ⟨key, v, (hkey n key).2 ⟨d, hn⟩, hb⟩
    · rintro ⟨key, v, hn, hb⟩
      obtain ⟨d, hd⟩ := (hkey n key).1 hn
      exact ⟨key, d, v, hd, hb⟩
  · constructor
    · rintro ⟨r, hr⟩
      unfold mortarMeshes at hr
      obtain ⟨⟨iface', M'⟩, q1, q2⟩ := py_bind_eq_ok.1 hr
      obtain ⟨im, q3, q4⟩ := py_bind_eq_ok.1 q2
      rw [e strictOk] at q1
      obtain ⟨_, q5, q6⟩ := py_bind_eq_ok.1 q1
      obtain ⟨rfl, rfl⟩ := Prod.mk.inj (Except.ok.inj q6)
      refine ⟨pyAssert_eq_ok.1 q5, fun f hff key v hb => ?_⟩
      obtain ⟨i, hi⟩ := List.mem_iff_getElem?.1 ((h5 f).2 ⟨hff, key, v, hb⟩)
      obtain ⟨a, b, _⟩ := hspec im q3 i f key v hi hb
      exact ⟨a, b⟩
    · rintro ⟨hs, hr⟩
      obtain ⟨im, him⟩ := mapColors_ok (S := S) (M := M) (iface := iface) (n := 0) [] (by
        intro n key d hn i hi
        rw [Nat.zero_add] at hi
        obtain ⟨f, hf'⟩ : ∃ f, M.cmap[i]? = some f :=
          ⟨_, List.getElem?_eq_getElem (by rw [← hml]; exact (List.getElem?_eq_some_iff.1 hi).1)⟩
        obtain ⟨key', d', v, hn', hb⟩ := (h10 i f n hf').1 hi
        rw [hn] at hn'
        obtain ⟨rfl, rfl⟩ := Prod.mk.inj (Option.some.inj hn')
        have hff := ((h5 f).1 (List.mem_iff_getElem?.2 ⟨i, hf'⟩)).1
        exact ⟨f, v, hf', (h3 key d (List.mem_iff_getElem?.2 ⟨n, hn⟩) f v).2 ⟨hff, hb⟩, hr f hff key v hb⟩)
      refine ⟨(M, im, colorMap iface markers), ?_⟩
      unfold mortarMeshes
      simp only [e strictOk, hs, pyAssert_true, py_bind_ok, him]
  · intro M' im cm hr
    unfold mortarMeshes at hr
    obtain ⟨⟨iface', M''⟩, q1, q2⟩ := py_bind_eq_ok.1 hr
    obtain ⟨im', q3, q4⟩ := py_bind_eq_ok.1 q2
    rw [e strictOk] at q1
    obtain ⟨_, q5, q6⟩ := py_bind_eq_ok.1 q1
    obtain ⟨rfl, rfl⟩ := Prod.mk.inj (Except.ok.inj q6)
    obtain ⟨rfl, q7⟩ := Prod.mk.inj (Except.ok.inj q4)
    obtain ⟨rfl, rfl⟩ := Prod.mk.inj q7
    refine ⟨rfl, by simp [colorMap], ?_, fun i f key v hi hb => ?_⟩
    · intro n p key hp hk
      obtain ⟨d, hd⟩ := (hkey n key).1 hk
      unfold colorMap at hp
      rw [List.getElem?_map, hd] at hp
      obtain rfl := Option.some.inj hp
      obtain ⟨f, _, v, hb⟩ := (h2 key).1 (List.mem_iff_getElem?.2 ⟨n, hk⟩)
      have hidx : ∀ t ∈ markers, markers[markers.idxOf t]? = some t := fun t ht =>
        List.getElem?_eq_some_iff.2 ⟨List.idxOf_lt_length_of_mem ht, List.getElem_idxOf _⟩
      exact ⟨hidx _ hb.2.2.1, hidx _ hb.2.2.2.1⟩
    · obtain ⟨_, _, c⟩ := hspec _ q3 i f key v hi hb
      exact c

/-- `c2c` gives the cell of the submesh whose parent is `gc` only if it has the same number as its parent.
    `cmap` is the map of the cells of the submesh to their parents. -/
theorem mortar_local_cell (numSub : Nat → Nat) (tag gc : Nat) (cmap : List Nat) (hl : cmap.length = numSub tag)
    (l : Nat) (hlc : cmap[l]? = some gc) :
    c2c numSub tag gc = .ok l ↔ l = gc := by
  unfold c2c
  have hll := (List.getElem?_eq_some_iff.1 hlc).1
  constructor
  · intro h
    split at h
    · exact (Except.ok.inj h).symm
    · simp at h
  · rintro rfl
    rw [if_pos (by omega)]

/-- Two triangles with a common facet 2 and the tags 1 and 2. -/
def squareF2c (f : Nat) : List Nat := [[0], [0], [0, 1], [1], [1]].getD f []
def squareF2v (f : Nat) : List Nat := [[0, 1], [0, 2], [1, 2], [1, 3], [2, 3]].getD f []

/-- For the unit square of two triangles the call raises KeyError. -/
theorem mortar_raises :
    mortarMeshes squareF2c squareF2v (fun v => v) 2 5 (fun _ => ⟨[], [], [], []⟩) [1, 2] [1, 2] [0, 1, 2, 3, 4]
      (fun _ => true) ⟨fun _ => 1, fun _ _ => [0, 1, 2], fun _ _ _ => true⟩ = .error .keyError := by
  decide +kernel

/-- Three triangles with the tags 1, 2, 2; the triangles 1 and 2 are the cells 0 and 1 of the submesh of the
    tag 2, and only the facet 0 of its cell 0 is at the interface.  The search looks at the cell 1, so the
    interface has no facet on the side of the tag 2. -/
theorem mortar_not_found :
    mortarMeshes (fun f => [[0], [0], [0, 1], [1], [1, 2], [2], [2]].getD f [])
      (fun f => [[0, 1], [0, 2], [1, 2], [1, 3], [2, 3], [2, 4], [3, 4]].getD f []) (fun v => v) 2 7
      (fun _ => ⟨[], [], [], []⟩) [1, 2, 2] [1, 2] [0, 1, 2, 3, 4, 5, 6] (fun _ => true)
      ⟨fun t => if t = 1 then 1 else 2, fun t c => if t = 1 then [2, 1, 0] else if c = 0 then [2, 1, 0] else [4, 3, 2],
       fun _ t f => if t = 1 then f = 2 else f = 0⟩ =
    .ok (⟨[[0, 1]], [1, 2], [1, 2], [2], [0], [0]⟩, [((1, 0), 2)], [(0, 1)]) := by
  decide +kernel

/-- The hypotheses of `mortar_interface` for the unit square. -/
example : Manifold squareF2c 2 5 ∧ (∃ f ∈ [0, 1, 2, 3, 4], ∃ key v, Between squareF2c [2, 1] [1, 2] f key v) := by
  refine ⟨?_, 2, by simp, (1, 2), (1, 0), by simp [Between, squareF2c]⟩
  intro f hf
  match f, hf with
  | 0, _ => simp [squareF2c]
  | 1, _ => simp [squareF2c]
  | 2, _ => simp [squareF2c]
  | 3, _ => simp [squareF2c]
  | 4, _ => simp [squareF2c]

end Verif.Mortar
