import Verif.Lemmas.Dual2
/-!
# Repeated subdivision of a mesh
-/
namespace Verif.Dual
open Verif Verif.BlockOps
variable {K E : Type} [Field K] [LinearOrder K] [IsStrictOrderedRing K] [AddCommGroup E] [Module K E]

omit [IsStrictOrderedRing K] in
theorem inTri_perm {i j l x y z : Nat} {vs : List E} {p a b c a' b' c' : E} (h : [i, j, l].Perm [x, y, z])
    (hi : vs[i]? = some a) (hj : vs[j]? = some b) (hl : vs[l]? = some c) (hx : vs[x]? = some a') (hy : vs[y]? = some b')
    (hz : vs[z]? = some c') : InTri K p a b c ↔ InTri K p a' b' c' := by
  have e : ∀ {n : Nat} {u v : E}, vs[n]? = some u → vs[n]? = some v → u = v := by
    intro n u v h1 h2
    rw [h1] at h2
    injection h2
  rcases perm3 h with ⟨rfl, rfl, rfl⟩ | ⟨rfl, rfl, rfl⟩ | ⟨rfl, rfl, rfl⟩ | ⟨rfl, rfl, rfl⟩ | ⟨rfl, rfl, rfl⟩ | ⟨rfl, rfl, rfl⟩
  · rw [e hi hx, e hj hy, e hl hz]
  · rw [e hi hx, e hj hz, e hl hy]; exact ⟨InTri.swap23, InTri.swap23⟩
  · rw [e hi hy, e hj hx, e hl hz]; exact ⟨InTri.swap12, InTri.swap12⟩
  · rw [e hi hy, e hj hz, e hl hx]; exact ⟨fun h => h.swap23.swap12, fun h => h.swap12.swap23⟩
  · rw [e hi hz, e hj hx, e hl hy]; exact ⟨fun h => h.swap12.swap23, fun h => h.swap23.swap12⟩
  · rw [e hi hz, e hj hy, e hl hx]; exact ⟨fun h => h.swap12.swap23.swap12, fun h => h.swap12.swap23.swap12⟩

omit [IsStrictOrderedRing K] in
theorem has_iff {M : TMesh E} {k i j l : Nat} {cell : List Nat} {p a b c : E} (hk : M.cells[k]? = some cell)
    (hp : cell.Perm [i, j, l]) (hi : M.verts[i]? = some a) (hj : M.verts[j]? = some b) (hl : M.verts[l]? = some c) :
    M.Has K k p ↔ InTri K p a b c := by
  constructor
  · rintro ⟨a', b', c', ⟨i', j', l', h1, h2, h3, h4⟩, h⟩
    rw [hk] at h1
    injection h1 with h1
    subst h1
    exact (inTri_perm hp h2 h3 h4 hi hj hl).1 h
  · intro h
    match cell, hp with
    | [i', j', l'], hp =>
        have hm : ∀ n ∈ [i', j', l'], ∃ q, M.verts[n]? = some q := by
          intro n hn
          have := hp.mem_iff.1 hn
          simp only [List.mem_cons, List.not_mem_nil, or_false] at this
          rcases this with rfl | rfl | rfl
          · exact ⟨_, hi⟩
          · exact ⟨_, hj⟩
          · exact ⟨_, hl⟩
        obtain ⟨a', ha'⟩ := hm i' (by simp)
        obtain ⟨b', hb'⟩ := hm j' (by simp)
        obtain ⟨c', hc'⟩ := hm l' (by simp)
        exact ⟨a', b', c', ⟨i', j', l', hk, ha', hb', hc'⟩, (inTri_perm hp ha' hb' hc' hi hj hl).2 h⟩
    | [], hp => have := hp.length_eq; simp at this
    | [_], hp => have := hp.length_eq; simp at this
    | [_, _], hp => have := hp.length_eq; simp at this
    | _ :: _ :: _ :: _ :: _, hp => have := hp.length_eq; simp at this

theorem prefix_get {α : Type} {l l' : List α} (h : l <+: l') {i : Nat} {a : α} (hi : l[i]? = some a) : l'[i]? = some a := by
  obtain ⟨t, rfl⟩ := h
  rw [List.getElem?_append_left (List.getElem?_eq_some_iff.1 hi).1]
  exact hi

section
variable {topo : TMesh E → Topo} {order : List Nat → List Nat} {center : List E → Py E} {M M' : TMesh E} {cmap : List Nat}

omit [LinearOrder K] [IsStrictOrderedRing K] in
/-- The cells of the new mesh with their parents. -/
theorem mem_cells (hT : TopoOK M (topo M)) (hM : M.OK) (h : Made K topo order center M M' cmap) {k : Nat} {cell : List Nat} :
    (∃ j : Nat, cmap[j]? = some k ∧ M'.cells[j]? = some cell) ↔
      k < M.cells.length ∧ ∃ c0 ∈ cellParts (topo M) M.verts.length M.cells.length k, cell = order c0 := by
  have h1 : (∃ j : Nat, cmap[j]? = some k ∧ M'.cells[j]? = some cell) ↔ (cell, k) ∈ M'.cells.zip cmap := by
    rw [← exists_zip]
    constructor <;> rintro ⟨j, h1, h2⟩ <;> exact ⟨j, h2, h1⟩
  have h2 : M'.cells.zip cmap = (List.range M.cells.length).flatMap (fun k =>
      ((cellParts (topo M) M.verts.length M.cells.length k).map order).zip (List.replicate 6 k)) := by
    rw [h.cells, h.cmap, List.map_flatMap]
    apply zip_flatMap
    intro a ha
    rw [List.mem_range] at ha
    obtain ⟨x, y, z, he, _⟩ := hM.2 _ (List.getElem_mem ha)
    rw [List.length_map, (mem_parts hT (by rw [List.getElem?_eq_getElem ha, he])).1, List.length_replicate]
  rw [h1, h2, List.mem_flatMap]
  constructor
  · rintro ⟨a, ha, hm⟩
    have hz := List.of_mem_zip hm
    rw [List.mem_replicate] at hz
    obtain ⟨hz1, _, rfl⟩ := hz
    obtain ⟨c0, hc0, rfl⟩ := List.mem_map.1 hz1
    exact ⟨List.mem_range.1 ha, c0, hc0, rfl⟩
  · rintro ⟨hk, c0, hc0, rfl⟩
    refine ⟨k, List.mem_range.2 hk, ?_⟩
    obtain ⟨x, y, z, he, _⟩ := hM.2 _ (List.getElem_mem hk)
    have hl := (mem_parts (nv := M.verts.length) (nc := M.cells.length) hT
      (by rw [List.getElem?_eq_getElem hk, he])).1
    obtain ⟨i, hi, hic⟩ := List.mem_iff_getElem.1 hc0
    rw [← exists_zip]
    refine ⟨i, ?_, ?_⟩
    · rw [List.getElem?_map, List.getElem?_eq_getElem hi, hic]; rfl
    · rw [List.getElem?_replicate, if_pos (by omega)]

omit [LinearOrder K] [IsStrictOrderedRing K] in
/-- The points of a part. -/
theorem part_points (hT : TopoOK M (topo M)) (h : Made K topo order center M M' cmap) {k ia ib ic : Nat} {a b c : E}
    (hk : M.cells[k]? = some [ia, ib, ic]) (ha : M.verts[ia]? = some a) (hb : M.verts[ib]? = some b)
    (hc : M.verts[ic]? = some c) {f v w : Nat} {x y : E} (hf : f < (topo M).nf) (hfv : ((topo M).f2v f).Perm [v, w])
    (hx : M.verts[v]? = some x) (hy : M.verts[w]? = some y) :
    ∃ z, center [a, b, c] = .ok z ∧ M'.verts[M.verts.length + k]? = some z ∧
      M'.verts[M.verts.length + M.cells.length + f]? = some ((1 / 2 : K) • (x + y)) ∧ M'.verts[v]? = some x := by
  obtain ⟨z, hz1, hz2⟩ := h.centers k a b c ⟨ia, ib, ic, hk, ha, hb, hc⟩
  refine ⟨z, hz1, hz2, ?_, prefix_get h.verts hx⟩
  match hfv0 : (topo M).f2v f, hfv with
  | [v', w'], hfv =>
      have hp : (v' = v ∧ w' = w) ∨ (v' = w ∧ w' = v) := by
        rcases perm3 (List.Perm.cons 0 hfv) with h | h | h | h | h | h
        · exact .inl ⟨h.2.1, h.2.2⟩
        · exact .inr ⟨h.2.1, h.2.2⟩
        · exact .inl ⟨by rw [h.2.1, h.1], h.2.2⟩
        · exact .inr ⟨h.2.1, by rw [h.2.2, h.1]⟩
        · exact .inr ⟨by rw [h.2.1, h.1], h.2.2⟩
        · exact .inl ⟨h.2.1, by rw [h.2.2, h.1]⟩
      rcases hp with ⟨rfl, rfl⟩ | ⟨rfl, rfl⟩
      · exact h.mids f hf v' w' x y hfv0 hx hy
      · rw [h.mids f hf v' w' y x hfv0 hy hx, add_comm]
  | [], hfv => have := hfv.length_eq; simp at this
  | [_], hfv => have := hfv.length_eq; simp at this
  | _ :: _ :: _ :: _, hfv => have := hfv.length_eq; simp at this

theorem made_subdivides (hT : TopoOK M (topo M)) (hM : M.OK) (ho : ∀ l, (order l).Perm l)
    (hc : ∀ k a b c z, M.At k a b c → center [a, b, c] = .ok z → InTri K z a b c)
    (h : Made K topo order center M M' cmap) : Subdivides K M M' cmap := by
  have hlen : cmap.length = M'.cells.length := by
    rw [h.cells, h.cmap, List.length_map, List.length_flatMap, List.length_flatMap]
    congr 1
    apply List.map_congr_left
    intro k hk
    rw [List.mem_range] at hk
    obtain ⟨x, y, z, he, _⟩ := hM.2 _ (List.getElem_mem hk)
    rw [(mem_parts hT (by rw [List.getElem?_eq_getElem hk, he])).1, List.length_replicate]
  refine ⟨h.verts, hlen, ?_, ?_⟩
  · intro k hk p
    obtain ⟨ia, ib, ic, he, hab, hac, hbc, ha, hb, hcl⟩ := hM.2 _ (List.getElem_mem hk)
    have hcell : M.cells[k]? = some [ia, ib, ic] := by rw [List.getElem?_eq_getElem hk, he]
    have hva := List.getElem?_eq_getElem ha
    have hvb := List.getElem?_eq_getElem hb
    have hvc := List.getElem?_eq_getElem hcl
    obtain ⟨z, hz1, hz2⟩ := h.centers k _ _ _ ⟨ia, ib, ic, hcell, hva, hvb, hvc⟩
    have hzin := hc k _ _ _ z ⟨ia, ib, ic, hcell, hva, hvb, hvc⟩ hz1
    rw [has_iff hcell (List.Perm.refl _) hva hvb hvc, six_cover hzin]
    obtain ⟨_, hp1, hp2⟩ := mem_parts (nv := M.verts.length) (nc := M.cells.length) hT hcell
    constructor
    · have mk : ∀ (v w : Nat) (x y : E), v ≠ w → ({v, w} : Finset Nat) ∈ ([{ib, ic}, {ia, ic}, {ia, ib}] : List (Finset Nat)) →
          M.verts[v]? = some x → M.verts[w]? = some y → InTri K p z ((1 / 2 : K) • (x + y)) x →
          ∃ j, cmap[j]? = some k ∧ M'.Has K j p := by
        intro v w x y hvw hm hx hy hin
        obtain ⟨f, hf1, hf2, hf3⟩ := hp2 v w hvw hm
        obtain ⟨j, hj1, hj2⟩ := (mem_cells hT hM h).2 ⟨hk, _, hf3, rfl⟩
        obtain ⟨z', hz1', hz2', hz3, hz4⟩ := part_points hT h hcell hva hvb hvc hf1 hf2 hx hy
        rw [hz1] at hz1'
        injection hz1' with hz1'
        subst hz1'
        exact ⟨j, hj1, (has_iff hj2 (ho _) hz2' hz3 hz4).2 hin⟩
      rintro ((hin | hin) | (hin | hin) | (hin | hin))
      · exact mk ib ic _ _ hbc (by simp) hvb hvc hin
      · rw [add_comm] at hin
        exact mk ic ib _ _ hbc.symm (by rw [Finset.pair_comm ic ib]; simp) hvc hvb hin
      · exact mk ia ic _ _ hac (by simp) hva hvc hin
      · rw [add_comm] at hin
        exact mk ic ia _ _ hac.symm (by rw [Finset.pair_comm ic ia]; simp) hvc hva hin
      · exact mk ia ib _ _ hab (by simp) hva hvb hin
      · rw [add_comm] at hin
        exact mk ib ia _ _ hab.symm (by rw [Finset.pair_comm ib ia]; simp) hvb hva hin
    · rintro ⟨j, hj1, hj2⟩
      obtain ⟨cell, hcj⟩ : ∃ cell, M'.cells[j]? = some cell := by
        have := (List.getElem?_eq_some_iff.1 hj1).1
        exact ⟨_, List.getElem?_eq_getElem (by omega)⟩
      obtain ⟨_, c0, hc0, rfl⟩ := (mem_cells hT hM h).1 ⟨j, hj1, hcj⟩
      obtain ⟨f, v, w, rfl, hf1, hf2, hf3⟩ := hp1 c0 hc0
      have fin : ∀ (x y : E), M.verts[v]? = some x → M.verts[w]? = some y → InTri K p z ((1 / 2 : K) • (x + y)) x := by
        intro x y hx hy
        obtain ⟨z', hz1', hz2', hz3, hz4⟩ := part_points hT h hcell hva hvb hvc hf1 hf2 hx hy
        rw [hz1] at hz1'
        injection hz1' with hz1'
        subst hz1'
        exact (has_iff hcj (ho _) hz2' hz3 hz4).1 hj2
      rcases pair_cases hab hac hbc hf3 with ⟨rfl, rfl⟩ | ⟨rfl, rfl⟩ | ⟨rfl, rfl⟩ | ⟨rfl, rfl⟩ | ⟨rfl, rfl⟩ | ⟨rfl, rfl⟩
      · exact .inl (.inl (fin _ _ hvb hvc))
      · exact .inl (.inr (by rw [add_comm]; exact fin _ _ hvc hvb))
      · exact .inr (.inl (.inl (fin _ _ hva hvc)))
      · exact .inr (.inl (.inr (by rw [add_comm]; exact fin _ _ hvc hva)))
      · exact .inr (.inr (.inl (fin _ _ hva hvb)))
      · exact .inr (.inr (.inr (by rw [add_comm]; exact fin _ _ hvb hva)))
  · intro k hk
    rw [h.cmap, List.mem_flatMap] at hk
    obtain ⟨a, ha, hk⟩ := hk
    rw [(List.mem_replicate.1 hk).2]
    exact List.mem_range.1 ha

omit [LinearOrder K] [IsStrictOrderedRing K] in
theorem made_ok (hT : TopoOK M (topo M)) (hM : M.OK) (ho : ∀ l, (order l).Perm l)
    (h : Made K topo order center M M' cmap) : M'.OK := by
  obtain ⟨hne, hcells⟩ := hM
  refine ⟨?_, ?_⟩
  · intro e
    have hl : cmap.length = 0 := by
      have h0 : 0 < M.cells.length := List.length_pos_iff.2 hne
      obtain ⟨x, y, z, he, _⟩ := hcells _ (List.getElem_mem h0)
      have hp := (mem_parts (nv := M.verts.length) (nc := M.cells.length) hT (by rw [List.getElem?_eq_getElem h0, he])).1
      have hx := h.cells
      rw [e] at hx
      have hy : (cellParts (topo M) M.verts.length M.cells.length 0) = [] := by
        have := List.map_eq_nil_iff.1 hx.symm
        rw [List.flatMap_eq_nil_iff] at this
        exact this 0 (List.mem_range.2 h0)
      rw [hy] at hp
      simp at hp
    rw [h.cmap, List.length_flatMap] at hl
    have h0 : 0 < M.cells.length := List.length_pos_iff.2 hne
    obtain ⟨n, hn⟩ : ∃ n, M.cells.length = n + 1 := ⟨M.cells.length - 1, by omega⟩
    rw [hn, List.range_succ_eq_map] at hl
    simp at hl
  · intro cell hc
    rw [h.cells] at hc
    obtain ⟨c0, hc0, rfl⟩ := List.mem_map.1 hc
    rw [List.mem_flatMap] at hc0
    obtain ⟨k, hk, hc0⟩ := hc0
    rw [List.mem_range] at hk
    obtain ⟨ia, ib, ic, he, hab, hac, hbc, ha, hb, hcl⟩ := hcells _ (List.getElem_mem hk)
    obtain ⟨_, hp1, _⟩ := mem_parts hT (by rw [List.getElem?_eq_getElem hk, he])
    obtain ⟨f, v, w, rfl, hf1, hf2, hf3⟩ := hp1 c0 hc0
    have hv : v < M.verts.length := by
      rcases pair_cases hab hac hbc hf3 with ⟨rfl, _⟩ | ⟨rfl, _⟩ | ⟨rfl, _⟩ | ⟨rfl, _⟩ | ⟨rfl, _⟩ | ⟨rfl, _⟩ <;> assumption
    have hperm := ho [M.verts.length + k, M.verts.length + M.cells.length + f, v]
    have hlen := h.length
    match hord : order [M.verts.length + k, M.verts.length + M.cells.length + f, v], hperm with
    | [i', j', l'], hp =>
        refine ⟨i', j', l', rfl, ?_⟩
        rcases perm3 hp with ⟨rfl, rfl, rfl⟩ | ⟨rfl, rfl, rfl⟩ | ⟨rfl, rfl, rfl⟩ | ⟨rfl, rfl, rfl⟩ | ⟨rfl, rfl, rfl⟩ |
          ⟨rfl, rfl, rfl⟩ <;> refine ⟨?_, ?_, ?_, ?_, ?_, ?_⟩ <;> omega
    | [], hp => have := hp.length_eq; simp at this
    | [_], hp => have := hp.length_eq; simp at this
    | [_, _], hp => have := hp.length_eq; simp at this
    | _ :: _ :: _ :: _ :: _, hp => have := hp.length_eq; simp at this

end

omit [IsStrictOrderedRing K] in
theorem subdivides_trans {M M0 M1 : TMesh E} {c0 c1 c : List Nat} (h0 : Subdivides K M M0 c0) (h1 : Subdivides K M0 M1 c1)
    (hc : pyMap (pyGet c0) c1 = .ok c) : Subdivides K M M1 c := by
  rw [pyMap_eq_ok] at hc
  have hget : ∀ (j k : Nat), c[j]? = some k ↔ ∃ i, c1[j]? = some i ∧ c0[i]? = some k := by
    intro j k
    constructor
    · intro hj
      have hjl := (List.getElem?_eq_some_iff.1 hj).1
      have h2 := List.Forall₂.get hc (i := j) (by rw [hc.length_eq]; exact hjl) hjl
      simp only [List.get_eq_getElem] at h2
      rw [pyGet_eq_ok] at h2
      refine ⟨c1[j]'(by rw [hc.length_eq]; exact hjl), List.getElem?_eq_getElem _, ?_⟩
      rw [h2, ← hj, List.getElem?_eq_getElem hjl]
    · rintro ⟨i, hi, hk⟩
      have hil := (List.getElem?_eq_some_iff.1 hi).1
      have h2 := List.Forall₂.get hc (i := j) hil (by rw [← hc.length_eq]; exact hil)
      simp only [List.get_eq_getElem] at h2
      rw [pyGet_eq_ok] at h2
      rw [List.getElem?_eq_getElem hil] at hi
      injection hi with hi
      rw [hi, hk] at h2
      injection h2 with h2
      rw [List.getElem?_eq_getElem (by rw [← hc.length_eq]; exact hil), h2]
  refine ⟨h0.verts.trans h1.verts, by rw [← hc.length_eq, h1.length], ?_, ?_⟩
  · intro k hk p
    rw [h0.cover k hk p]
    constructor
    · rintro ⟨i, hi, hp⟩
      have hil : i < M0.cells.length := by
        rw [← h0.length]
        exact (List.getElem?_eq_some_iff.1 hi).1
      obtain ⟨j, hj, hp⟩ := (h1.cover i hil p).1 hp
      exact ⟨j, (hget j k).2 ⟨i, hj, hi⟩, hp⟩
    · rintro ⟨j, hj, hp⟩
      obtain ⟨i, hi1, hi2⟩ := (hget j k).1 hj
      have hil : i < M0.cells.length := by
        rw [← h0.length]
        exact (List.getElem?_eq_some_iff.1 hi2).1
      exact ⟨i, hi2, (h1.cover i hil p).2 ⟨j, hi1, hp⟩⟩
  · intro k hk
    obtain ⟨j, hj⟩ := List.mem_iff_getElem?.1 hk
    obtain ⟨i, _, hi⟩ := (hget j k).1 hj
    exact h0.range k (List.mem_of_getElem? hi)

end Verif.Dual
