import Verif.Lemmas.Embedded
import Mathlib.Tactic.Push
/-! More lemmas about embedded meshes. -/
namespace Verif.Embedded
open Verif Verif.BlockOps Verif.DofMat
variable {P : Type}

theorem flatten_nodup (marks : List Nat) : ∀ markers : List Nat, markers.Nodup →
    (markers.map (whereEq marks)).flatten.Nodup
  | [], _ => by simp
  | m :: ms, h => by
      rw [List.nodup_cons] at h
      rw [List.map_cons, List.flatten_cons, List.nodup_append]
      refine ⟨whereEq_nodup _ _, flatten_nodup marks ms h.2, ?_⟩
      rintro a ha b hb rfl
      rw [List.mem_flatten] at hb
      obtain ⟨l, hl, hb⟩ := hb
      obtain ⟨m', hm', rfl⟩ := List.mem_map.1 hl
      rw [mem_whereEq] at ha hb
      rw [ha] at hb
      obtain rfl := Option.some.inj hb
      exact h.1 hm'

theorem mem_entities {marks markers : List Nat} {e : Nat} :
    e ∈ (markers.map (whereEq marks)).flatten ↔ ∃ m ∈ markers, marks[e]? = some m := by
  rw [List.mem_flatten]
  constructor
  · rintro ⟨l, hl, he⟩
    obtain ⟨m, hm, rfl⟩ := List.mem_map.1 hl
    exact ⟨m, hm, mem_whereEq.1 he⟩
  · rintro ⟨m, hm, he⟩
    exact ⟨_, List.mem_map.2 ⟨m, hm, rfl⟩, mem_whereEq.2 he⟩

/-- Renumbering the vertices of the entities. -/
theorem renumber {verts : List Nat} (hn : verts.Nodup) : ∀ ev : List (List Nat),
    (∀ vs ∈ ev, ∀ v ∈ vs, v ∈ verts) →
    ∃ cells, pyMap (fun vs => pyMap (dictGet verts.zipIdx) vs) ev = .ok cells ∧ cells.length = ev.length ∧
      ∀ (i : Nat) (c vs : List Nat), cells[i]? = some c → ev[i]? = some vs →
        c.map (fun v => verts[v]?) = vs.map some := by
  intro ev h
  have hidx : ∀ v, ∃ i, v ∈ verts → dictGet verts.zipIdx v = .ok i ∧ verts[i]? = some v := by
    intro v
    by_cases hv : v ∈ verts
    · obtain ⟨i, hi⟩ := dict_index hn hv
      exact ⟨i, fun _ => hi⟩
    · exact ⟨0, fun h => absurd h hv⟩
  choose idx hidx using hidx
  have e1 : ∀ vs ∈ ev, pyMap (dictGet verts.zipIdx) vs = .ok (vs.map idx) := fun vs hvs =>
    pyMap_ok (fun v hv => (hidx v (h vs hvs v hv)).1)
  refine ⟨ev.map (fun vs => vs.map idx), pyMap_ok e1, by simp, ?_⟩
  intro i c vs hc hvs
  rw [List.getElem?_map, hvs] at hc
  obtain rfl := Option.some.inj hc
  rw [List.map_map]
  refine List.map_congr_left (fun v hv => ?_)
  exact (hidx v (h vs (List.mem_iff_getElem?.2 ⟨i, hvs⟩) v hv)).2

/-- The marking of the entities. -/
theorem marking_get (marks markers : List Nat) (hm : markers ≠ []) (i e : Nat)
    (hi : (markers.map (whereEq marks)).flatten[i]? = some e) :
    (if 1 < markers.length then fillMarkers markers (markers.map (whereEq marks)) 0
        (List.replicate (markers.map (whereEq marks)).flatten.length 0)
      else List.replicate (markers.map (whereEq marks)).flatten.length (markers.headD 0))[i]? = marks[e]? := by
  split
  · rw [fillMarkers_get marks markers 0 _ (by simp) i, if_pos (Nat.zero_le _), Nat.sub_zero, hi]
  · rename_i h1
    match markers, hm with
    | [m], _ =>
      have hlt := (List.getElem?_eq_some_iff.1 hi).1
      rw [List.getElem?_replicate, if_pos hlt]
      have hmem := mem_entities.1 (List.mem_iff_getElem?.2 ⟨i, hi⟩)
      obtain ⟨m', hm', h⟩ := hmem
      rw [h, List.mem_singleton.1 hm']; rfl
    | a :: b :: l, _ => simp at h1

theorem embedEntities_ok (e2v : Nat → List Nat) (coords : Nat → P) {marks markers : List Nat}
    (hm : markers ≠ []) (hn : markers.Nodup) :
    ∃ M, embedEntities e2v coords marks markers = .ok M ∧ Represents M e2v coords marks markers ∧
      ∀ v, v ∈ M.vmap ↔ ∃ e ∈ M.cmap, v ∈ e2v e := by
  have hme : markers.isEmpty = false := by cases markers <;> simp_all
  have hmem : ∀ v, v ∈ npUnique (((markers.map (whereEq marks)).flatten.map e2v)).flatten ↔
      ∃ e ∈ (markers.map (whereEq marks)).flatten, v ∈ e2v e := by
    intro v
    rw [mem_npUnique, List.mem_flatten]
    constructor
    · rintro ⟨l, hl, hv⟩
      obtain ⟨e, he, rfl⟩ := List.mem_map.1 hl
      exact ⟨e, he, hv⟩
    · rintro ⟨e, he, hv⟩
      exact ⟨_, List.mem_map.2 ⟨e, he, rfl⟩, hv⟩
  obtain ⟨cells, e1, l1, g1⟩ := renumber
    (npUnique_nodup (((markers.map (whereEq marks)).flatten.map e2v)).flatten)
    ((markers.map (whereEq marks)).flatten.map e2v) (fun vs hvs v hv =>
      mem_npUnique.2 (List.mem_flatten.2 ⟨vs, hvs, hv⟩))
  rw [List.length_map] at l1
  refine ⟨_, by
    unfold embedEntities
    rw [hme, show (!false) = true from rfl, pyAssert_true]
    simp only [py_bind_ok]
    rw [e1]
    simp only [py_bind_ok]
    rfl, ?_, hmem⟩
  refine ⟨⟨?_, ?_⟩, ⟨flatten_nodup marks markers hn, fun e => mem_entities⟩, npUnique_nodup _, rfl, ?_, ?_⟩
  · change (cells.map _).length = _
    rw [List.length_map, l1]
  · change List.length (if 1 < markers.length then _ else _) = _
    split
    · rw [fillMarkers_len, List.length_replicate, l1]
    · rw [List.length_replicate, l1]
  · intro i e vs he hvs
    change (cells.map _)[i]? = some vs at hvs
    change (markers.map (whereEq marks)).flatten[i]? = some e at he
    rw [List.getElem?_map] at hvs
    obtain ⟨c, hc, rfl⟩ := Option.map_eq_some_iff.1 hvs
    have := g1 i c (e2v e) hc (by rw [List.getElem?_map, he]; rfl)
    rw [← this]
    exact (List.perm_insertionSort (· ≤ ·) c).map _
  · intro i e he
    have := marking_get marks markers hm i e he
    rw [← l1] at this
    exact this

/-- The function `one_cell_f` marks exactly the cells with one of the markers. -/
theorem markOnes_colors (marks markers : List Nat) :
    ∃ one, markOnes ((markers.dedup.map (fun m => (m, whereEq marks m))).map (fun p => p.2))
        (List.replicate marks.length 0) = .ok one ∧ one.length = marks.length ∧
      ∀ c : Nat, one[c]? = some 1 ↔ ∃ m ∈ markers, marks[c]? = some m := by
  have hx : ∀ c, (∃ cs ∈ (markers.dedup.map (fun m => (m, whereEq marks m))).map (fun p => p.2), c ∈ cs) ↔
      ∃ m ∈ markers, marks[c]? = some m := by
    intro c
    constructor
    · rintro ⟨cs, hcs, hc⟩
      rw [List.map_map] at hcs
      obtain ⟨m, hm, rfl⟩ := List.mem_map.1 hcs
      exact ⟨m, List.mem_dedup.1 hm, mem_whereEq.1 hc⟩
    · rintro ⟨m, hm, hc⟩
      refine ⟨whereEq marks m, ?_, mem_whereEq.2 hc⟩
      rw [List.map_map]
      exact List.mem_map.2 ⟨m, List.mem_dedup.2 hm, rfl⟩
  obtain ⟨one, e, l, g⟩ := markOnes_ok
    ((markers.dedup.map (fun m => (m, whereEq marks m))).map (fun p => p.2)) (List.replicate marks.length 0)
    (fun cs hcs c hc => by
      rw [List.length_replicate]
      obtain ⟨m, _, h⟩ := (hx c).1 ⟨cs, hcs, hc⟩
      exact (List.getElem?_eq_some_iff.1 h).1)
  refine ⟨one, e, by rw [l, List.length_replicate], fun c => ?_⟩
  rw [g, ← hx c]
  split
  · simp_all
  · rename_i h
    constructor
    · intro h1
      rw [List.getElem?_replicate] at h1
      split at h1 <;> simp at h1
    · intro h1; exact absurd h1 h

theorem embedCells_ok (submesh : List Nat → SubMesh P) (c2v : Nat → List Nat) (coords : Nat → P)
    {marks markers : List Nat} (hs : ∀ f : List Nat, f.length = marks.length → (submesh f).OK c2v coords f)
    (hm : markers ≠ []) :
    ∃ M, embedCells submesh marks markers = .ok M ∧ Represents M c2v coords marks markers := by
  have hme : markers.isEmpty = false := by cases markers <;> simp_all
  obtain ⟨one, e1, l1, g1⟩ := markOnes_colors marks markers
  have S := hs one l1
  have hcm : ∀ e, e ∈ (submesh one).cmap ↔ ∃ m ∈ markers, marks[e]? = some m := fun e => by
    rw [S.cells.2, g1]
  obtain ⟨f, e2, l2, g2⟩ : ∃ f, (if 1 < markers.length then colorCells (submesh one).cmap.zipIdx
        (markers.dedup.map (fun m => (m, whereEq marks m))) (List.replicate (submesh one).cells.length 0)
      else .ok (List.replicate (submesh one).cells.length (markers.headD 0))) = Except.ok f ∧
      f.length = (submesh one).cmap.length ∧
      ∀ i e : Nat, (submesh one).cmap[i]? = some e → f[i]? = marks[e]? := by
    split
    · obtain ⟨f, e, l, g⟩ := colorCells_ok S.cells.1 (markers.dedup.map (fun m => (m, whereEq marks m)))
        (List.replicate (submesh one).cells.length 0) (by rw [List.length_replicate, S.len])
        (by
          intro p hp o ho
          obtain ⟨m, hm, rfl⟩ := List.mem_map.1 hp
          exact (hcm o).2 ⟨m, List.mem_dedup.1 hm, mem_whereEq.1 ho⟩)
        (by
          intro p hp q hq o ho ho'
          obtain ⟨m, _, rfl⟩ := List.mem_map.1 hp
          obtain ⟨m', _, rfl⟩ := List.mem_map.1 hq
          have h1 := mem_whereEq.1 ho
          have h2 := mem_whereEq.1 ho'
          rw [h1] at h2
          exact Option.some.inj h2)
      refine ⟨f, e, by rw [l, List.length_replicate, S.len], fun i o hi => ?_⟩
      obtain ⟨m, hm', hmo⟩ := (hcm o).1 (List.mem_iff_getElem?.2 ⟨i, hi⟩)
      rw [(g i o hi).1 (m, whereEq marks m) (List.mem_map.2 ⟨m, List.mem_dedup.2 hm', rfl⟩)
        (mem_whereEq.2 hmo), hmo]
    · rename_i h1
      refine ⟨_, rfl, by rw [List.length_replicate, S.len], fun i o hi => ?_⟩
      match markers, hm with
      | [m], _ =>
        have hlt := (List.getElem?_eq_some_iff.1 hi).1
        rw [List.getElem?_replicate, if_pos (by rw [S.len]; exact hlt)]
        obtain ⟨m', hm', h⟩ := (hcm o).1 (List.mem_iff_getElem?.2 ⟨i, hi⟩)
        rw [h, List.mem_singleton.1 hm']; rfl
      | a :: b :: l, _ => simp at h1
  refine ⟨⟨(submesh one).cells, (submesh one).coords, (submesh one).vmap, (submesh one).cmap, f, markers⟩, ?_,
    ⟨⟨S.len, l2⟩, ⟨S.cells.1, hcm⟩, S.verts, S.coord, S.cell, g2⟩⟩
  unfold embedCells
  rw [hme, show (!false) = true from rfl, pyAssert_true, py_bind_ok]
  dsimp only
  rw [e1, py_bind_ok]
  by_cases h1 : 1 < markers.length
  · rw [if_pos h1] at e2 ⊢
    rw [e2, py_bind_ok]
  · rw [if_neg h1] at e2 ⊢
    rw [e2, py_bind_ok]

/-! ## Translation of markers -/

variable {parent child : Topo} {vmap cmap : List Nat} {k : Nat}

theorem SameEntity.unique (hp : parent.Simplicial k) {p p' e : Nat}
    (h : SameEntity parent child vmap p e) (h' : SameEntity parent child vmap p' e) : p = p' :=
  hp.inj p h.1 p' h'.1 (fun v => by rw [h.2.2, h'.2.2])

theorem SameEntity.unique_child (hc : child.Simplicial k) (he : IsEmbedding parent child vmap cmap) {p e e' : Nat}
    (h : SameEntity parent child vmap p e) (h' : SameEntity parent child vmap p e') : e = e' := by
  have key : ∀ {a b : Nat}, SameEntity parent child vmap p a → SameEntity parent child vmap p b →
      ∀ v, v ∈ child.e2v a → v ∈ child.e2v b := by
    intro a b ha hb v hv
    obtain ⟨c, hcm⟩ := List.exists_mem_of_ne_nil _ (he.covered a ha.2.1)
    obtain ⟨c1, c2⟩ := (hc.e2c a ha.2.1 c).1 hcm
    have hlt := he.vlt c c1 v (c2 v hv)
    have h1 := (ha.2.2 vmap[v]).2 ⟨v, hv, List.getElem?_eq_getElem hlt⟩
    obtain ⟨v', hv', e'⟩ := (hb.2.2 _).1 h1
    have : v = v' := (List.getElem?_inj hlt he.vnodup).1 (by rw [e', List.getElem?_eq_getElem hlt])
    rw [this]; exact hv'
  exact hc.inj e h.2.1 e' h'.2.1 (fun v => ⟨key h h' v, key h' h v⟩)

/-- Cells containing the entity correspond. -/
theorem SameEntity.cell (hp : parent.Simplicial k) (hc : child.Simplicial k)
    (he : IsEmbedding parent child vmap cmap) {p e c : Nat} (h : SameEntity parent child vmap p e)
    (hce : c ∈ child.e2c e) : ∃ pc, cmap[c]? = some pc ∧ pc ∈ parent.e2c p := by
  obtain ⟨c1, c2⟩ := (hc.e2c e h.2.1 c).1 hce
  have hlt : c < cmap.length := by rw [he.clen]; exact c1
  refine ⟨cmap[c], List.getElem?_eq_getElem hlt, (hp.e2c p h.1 _).2 ⟨he.clt _ (List.getElem_mem hlt), ?_⟩⟩
  intro w hw
  obtain ⟨v, hv, hvw⟩ := (h.2.2 w).1 hw
  exact (he.cell c _ (List.getElem?_eq_getElem hlt) w).2 ⟨v, c2 v hv, hvw⟩

/-- Lines 224-238 for one parent entity. -/
theorem translateEntity_ok (hp : parent.Simplicial k) (hc : child.Simplicial k)
    (he : IsEmbedding parent child vmap cmap) {values f : List Nat} {p t : Nat} (hpe : p < parent.numEntities)
    (hv : values[p]? = some t) (hf : f.length = child.numEntities) :
    ∃ f', translateEntity parent child vmap cmap values f p = .ok f' ∧ f'.length = f.length ∧
      ∀ e, e < child.numEntities → (SameEntity parent child vmap p e → f'[e]? = some t) ∧
        (¬ SameEntity parent child vmap p e → f'[e]? = f[e]?) := by
  have hgood : ∀ e, SameEntity parent child vmap p e →
      ((parent.e2v p).map (inverseGet vmap)).any (fun v => v.isNone) = false ∧
      ((parent.e2c p).filter (fun c => (inverseGet cmap c).isSome)) ≠ [] := by
    intro e h
    constructor
    · rw [List.any_eq_false]
      intro x hx
      obtain ⟨w, hw, rfl⟩ := List.mem_map.1 hx
      obtain ⟨v, _, hvw⟩ := (h.2.2 w).1 hw
      rw [(inverseGet_iff he.vnodup).2 hvw]; simp
    · obtain ⟨c, hcm⟩ := List.exists_mem_of_ne_nil _ (he.covered e h.2.1)
      obtain ⟨pc, h1, h2⟩ := h.cell hp hc he hcm
      apply List.ne_nil_of_mem (a := pc)
      rw [List.mem_filter]
      exact ⟨h2, by rw [(inverseGet_iff he.cnodup).2 h1]; rfl⟩
  unfold translateEntity
  by_cases hany : ((parent.e2v p).map (inverseGet vmap)).any (fun v => v.isNone) = true
  · refine ⟨f, ?_, rfl, fun e _ => ⟨fun h => ?_, fun _ => rfl⟩⟩
    · dsimp only; rw [if_pos hany]
    · rw [(hgood e h).1] at hany; simp at hany
  · have hget : pyGet values p = .ok t := pyGet_eq_ok.2 hv
    dsimp only
    rw [if_neg hany, hget, py_bind_ok]
    rcases hrev : ((parent.e2c p).filter (fun c => (inverseGet cmap c).isSome)).reverse with _ | ⟨pc, rest⟩
    · refine ⟨f, rfl, rfl, fun e _ => ⟨fun h => ?_, fun _ => rfl⟩⟩
      exact absurd (List.reverse_eq_nil_iff.1 hrev) (hgood e h).2
    · have hpc : pc ∈ (parent.e2c p).filter (fun c => (inverseGet cmap c).isSome) := by
        rw [← List.mem_reverse, hrev]; simp
      rw [List.mem_filter] at hpc
      obtain ⟨cc, hcc⟩ := Option.isSome_iff_exists.1 hpc.2
      have hcm := (inverseGet_iff he.cnodup).1 hcc
      have hcclt : cc < child.numCells := by rw [← he.clen]; exact (List.getElem?_eq_some_iff.1 hcm).1
      obtain ⟨hplt, hpv⟩ := (hp.e2c p hpe pc).1 hpc.1
      -- the child vertices
      have hall : ∀ w ∈ parent.e2v p, ∃ v : Nat, vmap[v]? = some w := by
        intro w hw
        have h1 : ¬ (inverseGet vmap w).isNone = true := by
          intro hh
          exact hany (List.any_eq_true.2 ⟨_, List.mem_map.2 ⟨w, hw, rfl⟩, hh⟩)
        rcases hi : inverseGet vmap w with _ | v
        · rw [hi] at h1; simp at h1
        · exact ⟨v, (inverseGet_iff he.vnodup).1 hi⟩
      have hav : ∀ v, v ∈ ((parent.e2v p).map (inverseGet vmap)).filterMap id ↔
          ∃ w ∈ parent.e2v p, vmap[v]? = some w := by
        intro v
        rw [List.mem_filterMap]
        constructor
        · rintro ⟨x, hx, hxv⟩
          obtain ⟨w, hw, rfl⟩ := List.mem_map.1 hx
          exact ⟨w, hw, (inverseGet_iff he.vnodup).1 hxv⟩
        · rintro ⟨w, hw, h⟩
          exact ⟨_, List.mem_map.2 ⟨w, hw, rfl⟩, (inverseGet_iff he.vnodup).2 h⟩
      have hsub : ∀ v ∈ ((parent.e2v p).map (inverseGet vmap)).filterMap id, v ∈ child.c2v cc := by
        intro v hvm
        obtain ⟨w, hw, hvw⟩ := (hav v).1 hvm
        obtain ⟨v', hv', hv'w⟩ := (he.cell cc pc hcm w).1 (hpv w hw)
        have hlt := (List.getElem?_eq_some_iff.1 hvw).1
        have : v = v' := (List.getElem?_inj hlt he.vnodup).1 (by rw [hvw, hv'w])
        rw [this]; exact hv'
      have hnd : (((parent.e2v p).map (inverseGet vmap)).filterMap id).Nodup ∧
          (((parent.e2v p).map (inverseGet vmap)).filterMap id).length = k + 1 := by
        obtain ⟨n1, n2⟩ := hp.len p hpe
        choose! g hg using hall
        have heq : ((parent.e2v p).map (inverseGet vmap)).filterMap id = (parent.e2v p).map g := by
          rw [List.filterMap_map]
          rw [← List.filterMap_eq_map]
          refine List.filterMap_congr (fun w hw => ?_)
          exact (inverseGet_iff he.vnodup).2 (hg w hw)
        rw [heq, List.length_map]
        refine ⟨n1.map_on ?_, n2⟩
        intro a ha b hb hab
        have h1 := hg a ha
        rw [hab, hg b hb] at h1
        exact (Option.some.inj h1).symm
      obtain ⟨e, hel, hee⟩ := hc.face cc hcclt _ hnd.1 hnd.2 hsub
      have hsame : SameEntity parent child vmap p e := by
        refine ⟨hpe, hel, fun w => ⟨fun hw => ?_, ?_⟩⟩
        · obtain ⟨v, hv⟩ := hall w hw
          exact ⟨v, (hee v).2 ((hav v).2 ⟨w, hw, hv⟩), hv⟩
        · rintro ⟨v, hv, hvw⟩
          obtain ⟨w', hw', hvw'⟩ := (hav v).1 ((hee v).1 hv)
          rw [hvw] at hvw'
          rw [Option.some.inj hvw']; exact hw'
      have hfilter : (child.c2e cc).filter (fun e => setEq (child.e2v e)
          (((parent.e2v p).map (inverseGet vmap)).filterMap id)) = [e] := by
        have hnodup := (hc.c2e cc hcclt).1.filter (fun e => setEq (child.e2v e)
          (((parent.e2v p).map (inverseGet vmap)).filterMap id))
        have hmem : ∀ x, x ∈ (child.c2e cc).filter (fun e => setEq (child.e2v e)
          (((parent.e2v p).map (inverseGet vmap)).filterMap id)) ↔ x = e := by
          intro x
          rw [List.mem_filter, setEq_iff, (hc.c2e cc hcclt).2]
          constructor
          · rintro ⟨⟨h1, _⟩, h2⟩
            exact hc.inj x h1 e hel (fun v => by rw [h2, hee])
          · rintro rfl
            exact ⟨⟨hel, fun v hv => hsub v ((hee v).1 hv)⟩, hee⟩
        have hperm : ((child.c2e cc).filter (fun e => setEq (child.e2v e)
          (((parent.e2v p).map (inverseGet vmap)).filterMap id))).Perm [e] := by
          rw [List.perm_ext_iff_of_nodup hnodup (List.nodup_singleton e)]
          intro x; rw [hmem, List.mem_singleton]
        exact List.perm_singleton.1 hperm
      obtain ⟨f', s1, s2, s3⟩ := setAll_ok t [e] f (fun c hcm => by
        rw [List.mem_singleton.1 hcm, hf]; exact hel)
      refine ⟨f', ?_, s2, fun e' he' => ⟨fun h => ?_, fun h => ?_⟩⟩
      · simp only [findLoop, hcc, hfilter, s1]
      · rw [s3, if_pos (by rw [List.mem_singleton]; exact h.unique_child hc he hsame)]
      · rw [s3, if_neg]
        rw [List.mem_singleton]
        rintro rfl
        exact h hsame

theorem translateLoop_ok (hp : parent.Simplicial k) (hc : child.Simplicial k)
    (he : IsEmbedding parent child vmap cmap) {values : List Nat} : ∀ (ps f : List Nat),
    (∀ p ∈ ps, p < parent.numEntities ∧ p < values.length) → f.length = child.numEntities →
    ∃ f', translateLoop parent child vmap cmap values ps f = .ok f' ∧ f'.length = f.length ∧
      ∀ e, e < child.numEntities →
        (∀ p t, SameEntity parent child vmap p e → values[p]? = some t → p ∈ ps → f'[e]? = some t) ∧
        ((∀ p, SameEntity parent child vmap p e → p ∉ ps) → f'[e]? = f[e]?)
  | [], f, _, _ => ⟨f, rfl, rfl, fun e _ => ⟨by simp, fun _ => rfl⟩⟩
  | p :: ps, f, h, hf => by
      obtain ⟨h1, h2⟩ := h p (by simp)
      obtain ⟨f1, e1, l1, g1⟩ := translateEntity_ok hp hc he h1 (List.getElem?_eq_getElem h2) hf
      obtain ⟨f2, e2, l2, g2⟩ := translateLoop_ok hp hc he ps f1 (fun q hq => h q (by simp [hq])) (by rw [l1, hf])
      refine ⟨f2, by rw [translateLoop, e1, py_bind_ok, e2], by rw [l2, l1], fun e hel => ⟨?_, ?_⟩⟩
      · intro q t hq ht hmem
        by_cases hr : q ∈ ps
        · exact (g2 e hel).1 q t hq ht hr
        · have hqp : q = p := by simpa [hr] using hmem
          subst hqp
          rw [(g2 e hel).2 (fun q' hq' => by rw [hq'.unique hp hq]; exact hr), (g1 e hel).1 hq]
          rw [List.getElem?_eq_getElem h2] at ht
          exact ht
      · intro hn
        rw [(g2 e hel).2 (fun q hq hm => hn q hq (by simp [hm])), (g1 e hel).2 (fun hs => hn p hs (by simp))]

/-- Transfer: one child entity. -/
theorem matchEntity_ok (parent : Topo) {values markers av : List Nat} : ∀ es : List Nat, (∀ e ∈ es, e < values.length) →
    ∃ r, matchEntity parent values markers av es = .ok r ∧
      (∀ e, r = some e → e ∈ es ∧ (∃ v ∈ markers, values[e]? = some v) ∧ ∀ v, v ∈ parent.e2v e ↔ v ∈ av) ∧
      (r = none → ∀ e ∈ es, (∃ v ∈ markers, values[e]? = some v) → ¬ ∀ v, v ∈ parent.e2v e ↔ v ∈ av)
  | [], _ => ⟨none, rfl, by simp, by simp⟩
  | e :: es, h => by
      have hlt := h e (by simp)
      have hget : pyGet values e = .ok values[e] := pyGet_eq_ok.2 (List.getElem?_eq_getElem hlt)
      rw [matchEntity, hget, py_bind_ok]
      by_cases hc : (decide (values[e] ∈ markers) && setEq (parent.e2v e) av) = true
      · refine ⟨some e, by rw [if_pos hc], ?_, by simp⟩
        rintro _ ⟨⟩
        rw [Bool.and_eq_true, decide_eq_true_eq, setEq_iff] at hc
        exact ⟨by simp, ⟨_, hc.1, List.getElem?_eq_getElem hlt⟩, hc.2⟩
      · obtain ⟨r, e1, g1, g2⟩ := matchEntity_ok parent (markers := markers) (av := av) es
          (fun x hx => h x (by simp [hx]))
        refine ⟨r, by rw [if_neg hc, e1], fun x hx => ?_, fun hr x hx hm hs => ?_⟩
        · obtain ⟨a, b⟩ := g1 x hx
          exact ⟨by simp [a], b⟩
        · rcases List.mem_cons.1 hx with rfl | hx
          · apply hc
            obtain ⟨v, hv, hv'⟩ := hm
            rw [List.getElem?_eq_getElem hlt] at hv'
            rw [Bool.and_eq_true, decide_eq_true_eq, setEq_iff, Option.some.inj hv']
            exact ⟨hv, hs⟩
          · exact g2 hr x hx hm hs

theorem transferCells_ok (hp : parent.Simplicial k) {values markers av : List Nat}
    (hvals : values.length = parent.numEntities) : ∀ cs : List Nat,
    (∀ c ∈ cs, ∃ pc, cmap[c]? = some pc ∧ pc < parent.numCells ∧ ∀ w ∈ av, w ∈ parent.c2v pc) →
    ∃ r, transferCells parent cmap values markers av cs = .ok r ∧
      (∀ t, r = some t → ∃ p, p < parent.numEntities ∧ t ∈ markers ∧ values[p]? = some t ∧
        ∀ v, v ∈ parent.e2v p ↔ v ∈ av) ∧
      (r = none → cs ≠ [] → ∀ p t, p < parent.numEntities → t ∈ markers → values[p]? = some t →
        ¬ ∀ v, v ∈ parent.e2v p ↔ v ∈ av)
  | [], _ => ⟨none, rfl, by simp, by simp⟩
  | c :: cs, h => by
      obtain ⟨pc, h1, h2, h3⟩ := h c (by simp)
      have hget : pyGet cmap c = .ok pc := pyGet_eq_ok.2 h1
      obtain ⟨r, e1, g1, g2⟩ := matchEntity_ok parent (markers := markers) (av := av) (values := values)
        (parent.c2e pc) (fun e hem => by rw [hvals]; exact (((hp.c2e pc h2).2 e).1 hem).1)
      rw [transferCells, hget, py_bind_ok, e1, py_bind_ok]
      rcases r with _ | e
      · obtain ⟨r', e2, a, b⟩ := transferCells_ok hp hvals (markers := markers) cs (fun x hx => h x (by simp [hx]))
        refine ⟨r', e2, a, fun _ _ p t hpl ht hv hs => ?_⟩
        refine g2 rfl p (((hp.c2e pc h2).2 p).2 ⟨hpl, fun v hvm => h3 v ((hs v).1 hvm)⟩) ⟨t, ht, hv⟩ hs
      · obtain ⟨a, ⟨t, ht, hv⟩, hs⟩ := g1 e rfl
        have hget' : pyGet values e = .ok t := pyGet_eq_ok.2 hv
        refine ⟨some t, by simp only [hget', py_bind_ok], ?_, by simp⟩
        rintro _ ⟨⟩
        exact ⟨e, by rw [← hvals]; exact (List.getElem?_eq_some_iff.1 hv).1, ht, hv, hs⟩

theorem transferLoop_ok (hp : parent.Simplicial k) (hc : child.Simplicial k)
    (he : IsEmbedding parent child vmap cmap) {values markers : List Nat}
    (hvals : values.length = parent.numEntities) : ∀ es : List Nat, (∀ e ∈ es, e < child.numEntities) →
    ∃ f, transferLoop parent child vmap cmap values markers es = .ok f ∧ f.length = es.length ∧
      ∀ i e : Nat, es[i]? = some e →
        (∀ p t, SameEntity parent child vmap p e → values[p]? = some t → t ∈ markers → f[i]? = some t) ∧
        ((∀ p t, SameEntity parent child vmap p e → values[p]? = some t → t ∉ markers) → f[i]? = some 0)
  | [], _ => ⟨[], rfl, rfl, fun i e h => by simp at h⟩
  | e :: es, h => by
      have hel := h e (by simp)
      have hin : ∀ v ∈ child.e2v e, ∃ w, vmap[v]? = some w := by
        intro v hv
        obtain ⟨c, hcm⟩ := List.exists_mem_of_ne_nil _ (he.covered e hel)
        obtain ⟨c1, c2⟩ := (hc.e2c e hel c).1 hcm
        exact ⟨_, List.getElem?_eq_getElem (he.vlt c c1 v (c2 v hv))⟩
      choose! g hg using hin
      have e1 : pyMap (pyGet vmap) (child.e2v e) = .ok ((child.e2v e).map g) :=
        pyMap_ok (fun v hv => pyGet_eq_ok.2 (hg v hv))
      have hsame : ∀ p, p < parent.numEntities →
          ((∀ v, v ∈ parent.e2v p ↔ v ∈ (child.e2v e).map g) ↔ SameEntity parent child vmap p e) := by
        intro p hpl
        have : ∀ w, w ∈ (child.e2v e).map g ↔ ∃ v ∈ child.e2v e, vmap[v]? = some w := by
          intro w
          rw [List.mem_map]
          constructor
          · rintro ⟨v, hv, rfl⟩; exact ⟨v, hv, hg v hv⟩
          · rintro ⟨v, hv, hw⟩
            rw [hg v hv] at hw
            exact ⟨v, hv, Option.some.inj hw⟩
        unfold SameEntity
        simp only [this]
        exact ⟨fun h => ⟨hpl, hel, h⟩, fun h => h.2.2⟩
      obtain ⟨r, e2, a, b⟩ := transferCells_ok (cmap := cmap) (markers := markers) (av := (child.e2v e).map g) hp hvals
        (child.e2c e) (fun c hcm => by
          obtain ⟨c1, c2⟩ := (hc.e2c e hel c).1 hcm
          have hlt : c < cmap.length := by rw [he.clen]; exact c1
          refine ⟨_, List.getElem?_eq_getElem hlt, he.clt _ (List.getElem_mem hlt), fun w hw => ?_⟩
          obtain ⟨v, hv, rfl⟩ := List.mem_map.1 hw
          exact (he.cell c _ (List.getElem?_eq_getElem hlt) _).2 ⟨v, c2 v hv, hg v hv⟩)
      obtain ⟨f, e3, l3, g3⟩ := transferLoop_ok hp hc he hvals (markers := markers) es (fun x hx => h x (by simp [hx]))
      refine ⟨r.getD 0 :: f, ?_, by simp [l3], fun i x hi => ?_⟩
      · rw [transferLoop, e1, py_bind_ok, e2, py_bind_ok, e3, py_bind_ok]
      · match i with
        | 0 =>
          rw [List.getElem?_cons_zero] at hi ⊢
          obtain rfl := Option.some.inj hi
          constructor
          · intro p t hs hv ht
            rcases r with _ | t'
            · exact absurd ((hsame p hs.1).2 hs) (b rfl (he.covered _ hel) p t hs.1 ht hv)
            · obtain ⟨p', h1, _, h3, h4⟩ := a t' rfl
              have := ((hsame p' h1).1 h4).unique hp hs
              subst this
              rw [hv] at h3
              rw [Option.some.inj h3]; rfl
          · intro hn
            rcases r with _ | t'
            · rfl
            · obtain ⟨p', h1, h2, h3, h4⟩ := a t' rfl
              exact absurd h2 (hn p' t' ((hsame p' h1).1 h4) h3)
        | i + 1 =>
          rw [List.getElem?_cons_succ] at hi ⊢
          exact g3 i x hi

end Verif.Embedded
