import Verif.Lemmas.Union
/-!
# The glued mesh
-/
namespace Verif.Union
open Verif Verif.BlockOps Verif.Mortar
variable {P K : Type} [LinearOrder K] {dist : P → P → K} {tol : K}

theorem dictGet_eq_ok {d : List (Nat × Nat)} (h : (d.map (fun p => p.1)).Nodup) {k v : Nat} :
    dictGet d k = .ok v ↔ (k, v) ∈ d := by
  unfold dictGet
  rw [← lookup_iff_mem h]
  cases d.lookup k <;> simp

theorem mem_zip_range' {l : List Nat} {o j i : Nat} :
    (j, i) ∈ l.zip (List.range' o l.length) ↔ ∃ k : Nat, l[k]? = some j ∧ i = o + k := by
  constructor
  · intro h
    obtain ⟨k, hk, e⟩ := List.getElem_of_mem h
    rw [List.getElem_zip, Prod.mk.injEq] at e
    have hk' : k < l.length := by simpa using hk
    refine ⟨k, by rw [List.getElem?_eq_getElem hk', e.1], ?_⟩
    rw [← e.2]
    simp
  · rintro ⟨k, hk, rfl⟩
    obtain ⟨hk', e⟩ := List.getElem?_eq_some_iff.1 hk
    refine List.mem_of_getElem? (i := k) ?_
    rw [List.getElem?_zip_eq_some]
    exact ⟨hk, by simp [hk']⟩

/-- The map of vertices. -/
theorem makeMap_eq_ok {offset n1 : Nat} {unshared : List Nat} {shared : List (Nat × Nat)} {g : List Nat}
    (hk : (shared.map (fun p => p.1)).Nodup) (hu : unshared.Nodup)
    (hd : ∀ j, j ∈ unshared ↔ j < n1 ∧ j ∉ shared.map (fun p => p.1))
    (h : makeMap offset n1 unshared shared = .ok g) : g.length = n1 ∧
    ∀ j i : Nat, g[j]? = some i ↔ j < n1 ∧ ((∃ k : Nat, unshared[k]? = some j ∧ i = offset + k) ∨ (j, i) ∈ shared) := by
  unfold makeMap at h
  rw [pyMap_eq_ok] at h
  have hlen : g.length = n1 := by rw [← h.length_eq]; simp
  have hkeys : ((unshared.zip (List.range' offset unshared.length) ++ shared).map (fun p => p.1)).Nodup := by
    rw [List.map_append]
    have : (unshared.zip (List.range' offset unshared.length)).map (fun p => p.1) = unshared :=
      List.map_fst_zip (by simp)
    rw [this, List.nodup_append]
    refine ⟨hu, hk, ?_⟩
    rintro a ha b hb rfl
    exact ((hd a).1 ha).2 hb
  refine ⟨hlen, ?_⟩
  intro j i
  rw [← mem_zip_range', ← List.mem_append, ← dictGet_eq_ok hkeys]
  constructor
  · intro hj
    obtain ⟨hj', e⟩ := List.getElem?_eq_some_iff.1 hj
    refine ⟨by omega, ?_⟩
    have := (List.forall₂_iff_get.1 h).2 j (by simp; omega) hj'
    simp only [List.get_eq_getElem, List.getElem_range, e] at this
    exact this
  · rintro ⟨hj, hi⟩
    have := (List.forall₂_iff_get.1 h).2 j (by simp; omega) (by omega)
    simp only [List.get_eq_getElem, List.getElem_range] at this
    rw [hi] at this
    injection this with this
    rw [List.getElem?_eq_getElem (by omega), this]

theorem makeMap_total {offset n1 : Nat} {unshared : List Nat} {shared : List (Nat × Nat)}
    (hk : (shared.map (fun p => p.1)).Nodup) (hu : unshared.Nodup)
    (hd : ∀ j, j ∈ unshared ↔ j < n1 ∧ j ∉ shared.map (fun p => p.1)) :
    ∃ g, makeMap offset n1 unshared shared = .ok g := by
  have hkeys : ((unshared.zip (List.range' offset unshared.length) ++ shared).map (fun p => p.1)).Nodup := by
    rw [List.map_append]
    have : (unshared.zip (List.range' offset unshared.length)).map (fun p => p.1) = unshared :=
      List.map_fst_zip (by simp)
    rw [this, List.nodup_append]
    refine ⟨hu, hk, ?_⟩
    rintro a ha b hb rfl
    exact ((hd a).1 ha).2 hb
  have : ∀ j ∈ List.range n1, ∃ i, dictGet (unshared.zip (List.range' offset unshared.length) ++ shared) j = .ok i := by
    intro j hj
    rw [List.mem_range] at hj
    by_cases hs : j ∈ shared.map (fun p => p.1)
    · obtain ⟨⟨j', i⟩, hm, e⟩ := List.mem_map.1 hs
      dsimp only at e
      subst e
      exact ⟨i, (dictGet_eq_ok hkeys).2 (List.mem_append_right _ hm)⟩
    · obtain ⟨k, hk, e⟩ := List.getElem_of_mem ((hd j).2 ⟨hj, hs⟩)
      exact ⟨offset + k, (dictGet_eq_ok hkeys).2 (List.mem_append_left _
        (mem_zip_range'.2 ⟨k, by rw [List.getElem?_eq_getElem hk, e], rfl⟩))⟩
  choose! f hf using this
  exact ⟨_, pyMap_ok hf⟩

/-- What a successful union is. -/
theorem unionTwo_eq_ok {bdry : UMesh P → List Nat} {order : List Nat → List Nat} {newId : Nat} {M0 M1 U M0' : UMesh P}
    (h : unionTwo dist tol bdry order newId M0 M1 = .ok (U, M0')) :
    M0.gdim = M1.gdim ∧ M0.tdim = M1.tdim ∧ ∃ rest shared xs g mapped leafs1,
      pyMap (fun j => do let p ← pyGet M1.coords j; .ok (j, p)) (bdry M1) = .ok rest ∧
      matchLoop dist tol M0.coords (bdry M0).reverse rest [] = .ok shared ∧
      pyMap (pyGet M1.coords) (order ((List.range M1.coords.length).filter (fun j => decide (j ∉ shared.map (fun p => p.1))))) = .ok xs ∧
      makeMap M0.coords.length M1.coords.length
        (order ((List.range M1.coords.length).filter (fun j => decide (j ∉ shared.map (fun p => p.1))))) shared = .ok g ∧
      pyMap (pyMap (pyGet g)) M1.cells = .ok mapped ∧ mapLeafs g M1 = .ok leafs1 ∧
      U = ⟨newId, M0.tdim, M0.gdim, M0.coords ++ xs, M0.cells ++ mapped, some (M0.allLeafs ++ leafs1)⟩ ∧
      M0' = { M0 with leafs := M0.leafs.map (fun _ => M0.allLeafs ++ leafs1) } := by
  unfold unionTwo at h
  by_cases hd : M0.gdim = M1.gdim ∧ M0.tdim = M1.tdim
  · rw [if_pos hd] at h
    by_cases hb : bdry M0 = [] ∨ bdry M1 = []
    · rw [if_pos hb] at h
      simp at h
    · rw [if_neg hb] at h
      simp only [py_bind_ok, py_bind_eq_ok] at h
      obtain ⟨rest, h1, shared, h2, xs, h3, g, h4, mapped, h5, leafs1, h6, h7⟩ := h
      injection h7 with h7
      rw [Prod.mk.injEq] at h7
      exact ⟨hd.1, hd.2, rest, shared, xs, g, mapped, leafs1, h1, h2, h3, h4, h5, h6, h7.1.symm, h7.2.symm⟩
  · rw [if_neg hd] at h
    simp at h

theorem pyGet_getD {g : List Nat} {cell m : List Nat} (h : pyMap (pyGet g) cell = .ok m) : m = cell.map (fun v => g.getD v 0) := by
  rw [pyMap_eq_ok] at h
  induction h with
  | nil => rfl
  | cons h _ ih =>
      rw [pyGet_eq_ok] at h
      rw [List.map_cons, ← ih, List.getD_eq_getElem?_getD, h]
      rfl

/-- Boundary vertices are vertices. -/
theorem IsBdry.lt {M : UMesh P} (hM : M.OK) {v : Nat} (h : IsBdry M v) : v < M.coords.length := by
  obtain ⟨facet, _, hv, c, hc⟩ := h
  obtain ⟨cell, hcell, hsub⟩ := (hc c).2 rfl
  exact hM cell (List.mem_of_getElem? hcell) v (List.mem_toFinset.1 (hsub hv))

theorem near_iff {bdry : UMesh P → List Nat} (hb : BdryOK bdry) {M0 M1 : UMesh P} {i j : Nat} :
    Near dist tol M0 M1 i j ↔ i ∈ bdry M0 ∧ j ∈ bdry M1 ∧ Close dist tol M0.coords M1.coords i j := by
  unfold Near Close
  rw [(hb M0).2 i, (hb M1).2 j]

theorem sep_iff {bdry : UMesh P → List Nat} (hb : BdryOK bdry) {M0 M1 : UMesh P} (h : Separated dist tol M0 M1) :
    Sep dist tol M0.coords M1.coords (bdry M0) (bdry M1) :=
  ⟨fun i hi i' hi' j hj h1 h2 => h.1 i i' j ((near_iff hb).2 ⟨hi, hj, h1⟩) ((near_iff hb).2 ⟨hi', hj, h2⟩),
    fun i hi j hj j' hj' h1 h2 => h.2 i j j' ((near_iff hb).2 ⟨hi, hj, h1⟩) ((near_iff hb).2 ⟨hi, hj', h2⟩)⟩

theorem unshared_iff {order : List Nat → List Nat} (ho : ∀ l, (order l).Perm l) (n : Nat) (keys : List Nat) (j : Nat) :
    j ∈ order ((List.range n).filter (fun j => decide (j ∉ keys))) ↔ j < n ∧ j ∉ keys := by
  rw [(ho _).mem_iff, List.mem_filter, List.mem_range, decide_eq_true_iff]

theorem unshared_nodup {order : List Nat → List Nat} (ho : ∀ l, (order l).Perm l) (n : Nat) (keys : List Nat) :
    (order ((List.range n).filter (fun j => decide (j ∉ keys)))).Nodup :=
  (ho _).nodup_iff.2 (List.nodup_range.filter _)

theorem glued {bdry : UMesh P → List Nat} {order : List Nat → List Nat} {newId : Nat} {M0 M1 U M0' : UMesh P}
    (hb : BdryOK bdry) (ho : ∀ l, (order l).Perm l) (h0 : M0.OK) (h1 : M1.OK)
    (h : unionTwo dist tol bdry order newId M0 M1 = .ok (U, M0')) :
    ∃ g leafs1, Glued dist tol M0 M1 U g ∧ mapLeafs g M1 = .ok leafs1 ∧ U.leafs = some (M0.allLeafs ++ leafs1) ∧ U.OK ∧
      (Separated dist tol M0 M1 → ∀ i j, Near dist tol M0 M1 i j → g[j]? = some i) := by
  obtain ⟨_, _, rest, shared, xs, g, mapped, leafs1, e1, e2, e3, e4, e5, e6, rfl, _⟩ := unionTwo_eq_ok h
  obtain ⟨rest', hi, hf⟩ := matchLoop_inv (b0 := bdry M0) (minv_init (dist := dist) (tol := tol) (x0 := M0.coords) (hb M1).1 e1) (by simp)
    (List.nodup_reverse.2 (hb M0).1) e2
  have hd := unshared_iff ho M1.coords.length (shared.map (fun p => p.1))
  have hn := unshared_nodup ho M1.coords.length (shared.map (fun p => p.1))
  obtain ⟨hlen, hg⟩ := makeMap_eq_ok hi.keys hn hd e4
  rw [pyMap_eq_ok] at e3
  have hxs := e3.length_eq
  have hsound : ∀ {j i : Nat}, (j, i) ∈ shared → Near dist tol M0 M1 i j := by
    intro j i hm
    obtain ⟨a, b, c⟩ := hi.sound j i hm
    rw [near_iff hb]
    refine ⟨?_, b, c⟩
    simpa using a
  have hcells : mapped = M1.cells.map (fun cell => cell.map (fun v => g.getD v 0)) := by
    rw [pyMap_eq_ok] at e5
    clear e6 h h1
    generalize M1.cells = cells at e5
    induction e5 with
    | nil => rfl
    | cons h _ ih => rw [List.map_cons, ← ih, pyGet_getD h]
  have gl : Glued dist tol M0 M1 ⟨newId, M0.tdim, M0.gdim, M0.coords ++ xs, M0.cells ++ mapped, some (M0.allLeafs ++ leafs1)⟩ g := by
    refine ⟨⟨xs, rfl⟩, hlen, ?_, ?_, ?_, ?_, ?_⟩
    · rw [List.nodup_iff_injective_getElem]
      rintro ⟨a, ha⟩ ⟨b, hb'⟩ hab
      dsimp only at hab
      have ga := (hg a g[a]).1 (List.getElem?_eq_getElem ha)
      have gb := (hg b g[a]).1 (by rw [hab]; exact List.getElem?_eq_getElem hb')
      have lt : ∀ {j i : Nat}, (j, i) ∈ shared → i < M0.coords.length := fun hm => (hsound hm).1.lt h0
      rw [Fin.mk.injEq]
      rcases ga with ⟨_, ⟨k, h1, h2⟩ | h1⟩
      · rcases gb with ⟨_, ⟨k', h3, h4⟩ | h3⟩
        · have : k = k' := by omega
          subst this
          rw [h1] at h3
          injection h3
        · have := lt h3; omega
      · rcases gb with ⟨_, ⟨k', h3, h4⟩ | h3⟩
        · have := lt h1; omega
        · have hv := hi.values
          have hinj := List.inj_on_of_nodup_map hv h1 h3 rfl
          rw [Prod.mk.injEq] at hinj
          exact hinj.1
    · rw [hcells]
    · intro j i hji hge
      rcases ((hg j i).1 hji).2 with ⟨k, h2, rfl⟩ | h2
      · change (M0.coords ++ xs)[_]? = _
        rw [List.getElem?_append_right (by omega), Nat.add_sub_cancel_left]
        obtain ⟨hk, e⟩ := List.getElem?_eq_some_iff.1 h2
        have := (List.forall₂_iff_get.1 e3).2 k hk (by omega)
        rw [pyGet_eq_ok] at this
        simp only [List.get_eq_getElem, e] at this
        rw [this, List.getElem?_eq_getElem (by omega)]
      · have := (hsound h2).1.lt h0
        omega
    · intro i
      change i < (M0.coords ++ xs).length ↔ _
      rw [List.length_append]
      constructor
      · intro hlt
        by_cases hi0 : i < M0.coords.length
        · exact .inl hi0
        · right
          have hk : i - M0.coords.length < (order ((List.range M1.coords.length).filter (fun j => decide (j ∉ shared.map (fun p => p.1))))).length := by omega
          have hj := (hd _).1 (List.getElem_mem hk)
          exact List.mem_of_getElem? ((hg _ i).2 ⟨hj.1, .inl ⟨i - M0.coords.length, List.getElem?_eq_getElem hk, by omega⟩⟩)
      · rintro (h2 | h2)
        · omega
        · obtain ⟨j, hj, e⟩ := List.getElem_of_mem h2
          rcases ((hg j i).1 (by rw [List.getElem?_eq_getElem hj, e])).2 with ⟨k, h3, rfl⟩ | h3
          · have := (List.getElem?_eq_some_iff.1 h3).1
            omega
          · have := (hsound h3).1.lt h0
            omega
    · intro j i hji hlt
      rcases ((hg j i).1 hji).2 with ⟨k, h2, rfl⟩ | h2
      · omega
      · exact hsound h2
  refine ⟨g, leafs1, gl, e6, rfl, ?_, ?_⟩
  · intro cell hc v hv
    rw [gl.all]
    rw [gl.cells] at hc
    rcases List.mem_append.1 hc with hc | hc
    · exact .inl (h0 cell hc v hv)
    · obtain ⟨c, hc', rfl⟩ := List.mem_map.1 hc
      obtain ⟨w, hw, rfl⟩ := List.mem_map.1 hv
      right
      have := h1 c hc' w hw
      rw [List.getD_eq_getElem?_getD, List.getElem?_eq_getElem (by omega)]
      exact List.getElem_mem _
  · intro hs i j hn
    have h2 := (near_iff hb).1 hn
    have := hf (sep_iff hb hs) (by simp) (by simp) (by intro k hk; simp at hk) i (by simpa using h2.1) j h2.2.1 h2.2.2
    exact (hg j i).2 ⟨h2.2.1 |> fun hj => ((hb M1).2 j |>.1 hj).lt h1, .inr this⟩

/-- The union is made when a boundary vertex of the second mesh is far from the first mesh. -/
theorem unionTwo_total {bdry : UMesh P → List Nat} {order : List Nat → List Nat} {newId : Nat} {M0 M1 : UMesh P}
    (hb : BdryOK bdry) (ho : ∀ l, (order l).Perm l) (h0 : M0.OK) (h1 : M1.OK) (hg : M0.gdim = M1.gdim)
    (ht : M0.tdim = M1.tdim) (hne : bdry M0 ≠ []) {j0 : Nat} (hj0 : IsBdry M1 j0)
    (hfar : ∀ i, ¬ Close dist tol M0.coords M1.coords i j0)
    (hl : ∀ l, M1.leafs = some l → ∀ p ∈ l, ∀ v ∈ p.2, v < M1.coords.length) :
    ∃ U M0', unionTwo dist tol bdry order newId M0 M1 = .ok (U, M0') := by
  have hj0' := ((hb M1).2 j0).2 hj0
  have hlt := hj0.lt h1
  have hP : Nonempty P := ⟨M1.coords[j0]⟩
  unfold unionTwo
  rw [if_pos ⟨hg, ht⟩, if_neg]
  · have : ∀ j ∈ bdry M1, ∃ r : Nat × P, (do let p ← pyGet M1.coords j; .ok (j, p) : Py (Nat × P)) = .ok r := by
      intro j hj
      have := (((hb M1).2 j).1 hj).lt h1
      refine ⟨(j, M1.coords[j]), ?_⟩
      rw [pyGet_eq_ok.2 (List.getElem?_eq_getElem this)]
      rfl
    choose! f hf using this
    have e1 := pyMap_ok hf
    have hi := minv_init (dist := dist) (tol := tol) (x0 := M0.coords) (hb M1).1 e1
    obtain ⟨shared, e2⟩ := matchLoop_total hj0' (List.getElem?_eq_getElem hlt) hfar hi (todo := (bdry M0).reverse)
      (by simp) (by
        intro i hi
        exact (((hb M0).2 i).1 (by simpa using hi)).lt h0) (List.nodup_reverse.2 (hb M0).1)
    obtain ⟨rest', hi', -⟩ := matchLoop_inv (b0 := bdry M0) hi (by simp) (List.nodup_reverse.2 (hb M0).1) e2
    have hd := unshared_iff ho M1.coords.length (shared.map (fun p => p.1))
    have hn := unshared_nodup ho M1.coords.length (shared.map (fun p => p.1))
    have e3 : ∀ j ∈ order ((List.range M1.coords.length).filter (fun j => decide (j ∉ shared.map (fun p => p.1)))),
        ∃ x, pyGet M1.coords j = .ok x := by
      intro j hj
      exact ⟨_, pyGet_eq_ok.2 (List.getElem?_eq_getElem ((hd j).1 hj).1)⟩
    choose! f3 hf3 using e3
    obtain ⟨g, e4⟩ := makeMap_total (offset := M0.coords.length) hi'.keys hn hd
    obtain ⟨hlen, _⟩ := makeMap_eq_ok hi'.keys hn hd e4
    have e5' : ∀ m : List Nat, (∀ v ∈ m, v < M1.coords.length) → ∃ r, pyMap (pyGet g) m = .ok r := by
      intro m hm
      have : ∀ v ∈ m, ∃ x, pyGet g v = .ok x := by
        intro v hv
        exact ⟨_, pyGet_eq_ok.2 (List.getElem?_eq_getElem (by rw [hlen]; exact hm v hv))⟩
      choose! f5 hf5 using this
      exact ⟨_, pyMap_ok hf5⟩
    have e5 : ∀ c ∈ M1.cells, ∃ r, pyMap (pyGet g) c = .ok r := fun c hc => e5' c (h1 c hc)
    choose! f5 hf5 using e5
    have e6 : ∃ r, mapLeafs g M1 = .ok r := by
      unfold mapLeafs
      cases hM : M1.leafs with
      | none => exact ⟨_, rfl⟩
      | some l =>
          have : ∀ p ∈ l, ∃ r : Nat × List Nat, (do let m ← pyMap (pyGet g) p.2; .ok (p.1, m) : Py (Nat × List Nat)) = .ok r := by
            intro p hp
            obtain ⟨r, hr⟩ := e5' p.2 (hl l hM p hp)
            exact ⟨(p.1, r), by rw [hr]; rfl⟩
          choose! f6 hf6 using this
          exact ⟨_, pyMap_ok hf6⟩
    obtain ⟨leafs1, e6⟩ := e6
    simp only [py_bind_ok]
    rw [e1]
    simp only [py_bind_ok]
    rw [e2]
    simp only [py_bind_ok]
    rw [pyMap_ok hf3]
    simp only [py_bind_ok]
    rw [e4]
    simp only [py_bind_ok]
    rw [pyMap_ok hf5]
    simp only [py_bind_ok]
    rw [e6]
    exact ⟨_, _, rfl⟩
  · rintro (h | h)
    · exact hne h
    · rw [h] at hj0'
      simp at hj0'

end Verif.Union
