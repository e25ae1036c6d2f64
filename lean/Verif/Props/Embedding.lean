import Verif.Lemmas.EntityMap
import Verif.Lemmas.EmbeddedCheck
import Mathlib.Algebra.Order.Field.Rat
import Mathlib.Tactic.IntervalCases
/-!
# C42, C43: embedding maps
-/
namespace Verif.Embedding
open Verif Verif.BlockOps Verif.DofMat Verif.Embedded
variable {K : Type}

/-! ## C42: build_embedding_map -/

/-- Whenever `build_embedding_map` returns, every cell with one of the tags is mapped, every entry of the map is a
    cell with one of the tags and an entity with the same vertices up to `tol*scale`, and the vertices of these
    cells are mapped to vertices closer than that.

    Without subdomains all cells are marked 0, without tags the tag is 0.
    `k` is the dimension of the embedded mesh, which has cells of `k + 1` vertices; dolfin has `k ≤ 2`. -/
theorem embedding_map_sound [Field K] [LinearOrder K] {D : Data K} {T : Topo} {k : Nat} (hT : BackgroundOK T k)
    (hk : 0 < k ∧ k ≤ 2) (hc : ∀ v, ∀ m ∈ D.collide v, m < T.numCells) {dimsOk : Bool} {numVerts numCells : Nat}
    {cells : Nat → List Nat} {marks' tags' : Option (List Nat)} {marks tags : List Nat}
    (hm : marks = marks'.getD (List.replicate numCells 0)) (ht : tags = tags'.getD [0])
    (hcells : ∀ c, c < marks.length → (cells c).Nodup ∧ (cells c).length = k + 1)
    (hsep : ∀ c, c < marks.length → Separated D.dist (D.tol * D.scale) (cells c)) {vmap emap : List (Nat × Nat)}
    (h : buildEmbeddingMap D T dimsOk numVerts numCells cells marks' tags' = .ok (vmap, emap)) :
    (∀ c x, x ∈ tags → marks[c]? = some x → (∃ e, emap.lookup c = some e) ∧
      ∀ v ∈ cells c, ∃ w, vmap.lookup v = some w) ∧
    (∀ c e, emap.lookup c = some e → (∃ x ∈ tags, marks[c]? = some x) ∧ e < T.numEntities ∧
      Coincide D.dist (D.tol * D.scale) (cells c) (T.e2v e)) ∧
    ∀ v w, vmap.lookup v = some w → D.dist v w < D.tol * D.scale := by
  unfold buildEmbeddingMap at h
  simp only [py_bind_eq_ok, ← hm, ← ht] at h
  obtain ⟨_, _, _, _, ⟨vm, em⟩, h1, _, _, _, _, _, _, _, _, h2⟩ := h
  obtain ⟨rfl, rfl⟩ := Prod.mk.inj (Except.ok.inj h2)
  have hin : ∀ c, c ∈ tags.flatMap (whereEq marks) ↔ ∃ x ∈ tags, marks[c]? = some x := by
    intro c; rw [List.mem_flatMap]; simp only [mem_whereEq]
  obtain ⟨a1, _, _, a4, a5, a6⟩ := cellLoop_spec (Q := fun c e => c < marks.length → e < T.numEntities ∧
      Coincide D.dist (D.tol * D.scale) (cells c) (T.e2v e))
    (fun c vm vm' s e hg h1 h2 hlt => cell_sound hT hk hc (hcells c hlt) (hsep c hlt) hg h1 h2)
    (by intro p hp; simp at hp) h1
  have hkey : ∀ {l : List (Nat × Nat)} {c e : Nat}, (c, e) ∈ l → ∃ e', l.lookup c = some e' := by
    intro l c e hm
    rcases hl : l.lookup c with _ | e'
    · rw [List.lookup_eq_none_iff] at hl
      have := hl _ hm
      simp at this
    · exact ⟨e', rfl⟩
  refine ⟨fun c x hx hcx => ⟨?_, fun v hv => ?_⟩, fun c e hl => ?_, fun v w hl => ?_⟩
  · obtain ⟨e, he⟩ := a5 c ((hin c).2 ⟨x, hx, hcx⟩)
    exact hkey he
  · obtain ⟨r, hr⟩ := a6 c ((hin c).2 ⟨x, hx, hcx⟩) v hv
    exact hkey (e := r.1) (List.mem_map.2 ⟨(v, r), hr, rfl⟩)
  · rcases a4 _ (mem_of_lookup hl) with h | ⟨h, hq⟩
    · simp at h
    · obtain ⟨x, hx, hcx⟩ := (hin c).1 h
      have hlt : c < marks.length := (List.getElem?_eq_some_iff.1 hcx).1
      exact ⟨⟨x, hx, hcx⟩, hq hlt⟩
  · obtain ⟨p, hp, he⟩ := List.mem_map.1 (mem_of_lookup hl)
    obtain ⟨rfl, rfl⟩ := Prod.mk.inj he
    exact (a1 p hp).2.2

/-- When a cell with one of the tags coincides with no entity the call fails. -/
theorem embedding_map_fails [Field K] [LinearOrder K] {D : Data K} {T : Topo} {k : Nat} (hT : BackgroundOK T k)
    (hk : 0 < k ∧ k ≤ 2) (hc : ∀ v, ∀ m ∈ D.collide v, m < T.numCells) {dimsOk : Bool} {numVerts numCells : Nat}
    {cells : Nat → List Nat} {marks' tags' : Option (List Nat)} {marks tags : List Nat}
    (hm : marks = marks'.getD (List.replicate numCells 0)) (ht : tags = tags'.getD [0])
    (hcells : ∀ c, c < marks.length → (cells c).Nodup ∧ (cells c).length = k + 1)
    (hsep : ∀ c, c < marks.length → Separated D.dist (D.tol * D.scale) (cells c)) {c x : Nat} (hx : x ∈ tags)
    (hcx : marks[c]? = some x)
    (hno : ∀ e, e < T.numEntities → ¬ Coincide D.dist (D.tol * D.scale) (cells c) (T.e2v e)) :
    ∃ err, buildEmbeddingMap D T dimsOk numVerts numCells cells marks' tags' = .error err := by
  rcases h : buildEmbeddingMap D T dimsOk numVerts numCells cells marks' tags' with err | ⟨vmap, emap⟩
  · exact ⟨err, rfl⟩
  · obtain ⟨a, b, _⟩ := embedding_map_sound hT hk hc hm ht hcells hsep h
    obtain ⟨⟨e, he⟩, _⟩ := a c x hx hcx
    obtain ⟨_, h1, h2⟩ := b c e he
    exact absurd h2 (hno e h1)

/-- Conversely the call succeeds if each cell with one of the tags coincides with an entity and collisions are
    exact. -/
theorem embedding_map_complete [Field K] [LinearOrder K] [IsStrictOrderedRing K] {D : Data K} {T : Topo} {k : Nat}
    (hT : BackgroundOK T k) (hC : CollisionsExact D.collide D.dist (D.tol * D.scale) T) {numVerts numCells : Nat}
    {cells : Nat → List Nat} {marks tags : List Nat}
    (hco : ∀ c x, x ∈ tags → marks[c]? = some x → cells c ≠ [] ∧ ∃ e, e < T.numEntities ∧
      Coincide D.dist (D.tol * D.scale) (cells c) (T.e2v e)) :
    ∃ r, buildEmbeddingMap D T true numVerts numCells cells (some marks) (some tags) = .ok r := by
  obtain ⟨r, hr⟩ := cellLoop_ok hT hC (cells := cells) (tags.flatMap (whereEq marks)) [] [] (by intro p hp; simp at hp)
    (fun c hc => by
      rw [List.mem_flatMap] at hc
      obtain ⟨x, hx, hcx⟩ := hc
      exact hco c x hx (mem_whereEq.1 hcx))
  refine ⟨(r.1.map (fun p => (p.1, p.2.1)), r.2), ?_⟩
  unfold buildEmbeddingMap
  simp only [Option.getD_some, Option.isSome_some, Option.isNone_some, Bool.true_or, Bool.not_false, pyAssert_true,
    py_bind_ok, hr]

/-- A mesh with one cell cannot be embedded without tags: `is_1_sequence` is false for one number. -/
theorem embedding_map_one_cell [Field K] [LinearOrder K] (D : Data K) (T : Topo) (dimsOk : Bool) (numVerts : Nat)
    (cells : Nat → List Nat) (marks : Option (List Nat)) :
    ∃ err, buildEmbeddingMap D T dimsOk numVerts 1 cells marks none = .error err := by
  rcases h : buildEmbeddingMap D T dimsOk numVerts 1 cells marks none with err | r
  · exact ⟨err, rfl⟩
  · exfalso
    unfold buildEmbeddingMap at h
    simp only [py_bind_eq_ok, pyAssert_eq_ok, Option.isNone_none, Bool.not_true, Bool.false_or, decide_eq_true_eq] at h
    obtain ⟨_, _, _, _, r1, _, _, _, _, h1, _, _, _, h2, _⟩ := h
    obtain ⟨a, ha⟩ := List.length_eq_one_iff.1 h1
    rw [ha] at h2
    simp [is1Sequence, diffs, npUnique] at h2

/-- Without tags and subdomains the call succeeds, if each cell coincides with an entity and collisions are exact,
    exactly for meshes of at least two cells and two vertices in which every vertex is in a cell. -/
theorem embedding_map_all_iff [Field K] [LinearOrder K] [IsStrictOrderedRing K] {D : Data K} {T : Topo} {k : Nat}
    (hT : BackgroundOK T k) (hC : CollisionsExact D.collide D.dist (D.tol * D.scale) T) {numVerts numCells : Nat}
    {cells : Nat → List Nat} (hcells : ∀ c < numCells, ∀ v ∈ cells c, v < numVerts)
    (hco : ∀ c < numCells, cells c ≠ [] ∧ ∃ e, e < T.numEntities ∧
      Coincide D.dist (D.tol * D.scale) (cells c) (T.e2v e)) :
    (∃ r, buildEmbeddingMap D T true numVerts numCells cells none none = .ok r) ↔
      2 ≤ numCells ∧ 2 ≤ numVerts ∧ ∀ v < numVerts, ∃ c < numCells, v ∈ cells c := by
  have hin : ∀ c, c ∈ [0].flatMap (whereEq (List.replicate numCells 0)) ↔ c < numCells := by
    intro c
    simp only [List.flatMap_cons, List.flatMap_nil, List.append_nil, mem_whereEq, List.getElem?_replicate]
    split <;> simp_all
  obtain ⟨⟨vm, em⟩, hr⟩ := cellLoop_ok hT hC (cells := cells) ([0].flatMap (whereEq (List.replicate numCells 0))) [] []
    (by intro p hp; simp at hp) (fun c hc => hco c ((hin c).1 hc))
  obtain ⟨_, _, _, a4, a5, a6⟩ := cellLoop_spec (Q := fun _ _ => True) (fun _ _ _ _ _ _ _ _ => trivial)
    (by intro p hp; simp at hp) hr
  have ak := cellLoop_keys hr
  have hv : ∀ v, v ∈ (vm.map (fun p => p.1)).dedup ↔ ∃ c < numCells, v ∈ cells c := by
    intro v
    rw [List.mem_dedup, List.mem_map]
    constructor
    · rintro ⟨p, hp, rfl⟩
      rcases ak p hp with h | ⟨c, hc, h⟩
      · simp at h
      · exact ⟨c, (hin c).1 hc, h⟩
    · rintro ⟨c, hc, h⟩
      obtain ⟨r, hr⟩ := a6 c ((hin c).2 hc) v h
      exact ⟨_, hr, rfl⟩
  have hc : ∀ c, c ∈ (em.map (fun p => p.1)).dedup ↔ c < numCells := by
    intro c
    rw [List.mem_dedup, List.mem_map, ← hin]
    constructor
    · rintro ⟨p, hp, rfl⟩
      rcases a4 p hp with h | h
      · simp at h
      · exact h.1
    · intro h
      obtain ⟨e, he⟩ := a5 c h
      exact ⟨_, he, rfl⟩
  have hlen : (em.map (fun p => p.1)).dedup.length = numCells := by
    have := ((List.perm_ext_iff_of_nodup (List.nodup_dedup _) List.nodup_range).2
      (fun x => by rw [hc, List.mem_range])).length_eq (l₂ := List.range numCells)
    rw [this, List.length_range]
  have hsub : (vm.map (fun p => p.1)).dedup.Subperm (List.range numVerts) :=
    (List.nodup_dedup _).subperm (fun v h => by
      obtain ⟨c, h1, h2⟩ := (hv v).1 h
      exact List.mem_range.2 (hcells c h1 v h2))
  have hvl : (vm.map (fun p => p.1)).dedup.length = numVerts ↔ ∀ v < numVerts, ∃ c < numCells, v ∈ cells c := by
    constructor
    · intro h v hlt
      exact (hv v).1 ((hsub.perm_of_length_le (by simp [h])).mem_iff.2 (List.mem_range.2 hlt))
    · intro h
      have := ((List.perm_ext_iff_of_nodup (List.nodup_dedup _) List.nodup_range).2
        (fun x => by
          rw [hv, List.mem_range]
          exact ⟨fun ⟨c, h1, h2⟩ => hcells c h1 x h2, h x⟩)).length_eq
        (l₁ := (vm.map (fun p => p.1)).dedup) (l₂ := List.range numVerts)
      rw [this, List.length_range]
  have hi := is1Sequence_iff (List.nodup_dedup _) hc
  have e : buildEmbeddingMap D T true numVerts numCells cells none none = (do
      pyAssert (decide ((vm.map (fun p => p.1)).dedup.length = numVerts))
      pyAssert (decide ((em.map (fun p => p.1)).dedup.length = numCells))
      pyAssert (is1Sequence (vm.map (fun p => p.1)).dedup)
      pyAssert (is1Sequence (em.map (fun p => p.1)).dedup)
      .ok (vm.map (fun p => (p.1, p.2.1)), em)) := by
    unfold buildEmbeddingMap
    simp only [Option.getD_none, Option.isSome_none, Option.isNone_none, Bool.or_true, Bool.not_true, Bool.false_or,
      pyAssert_true, py_bind_ok, hr]
  rw [e]
  simp only [py_bind_eq_ok, pyAssert_eq_ok, decide_eq_true_eq, hi, hvl, hlen]
  constructor
  · rintro ⟨r, _, h1, _, _, _, h2, _, h3, _⟩
    exact ⟨h3, (is1Sequence_iff (List.nodup_dedup _) (fun x => by
      rw [hv]; exact ⟨fun ⟨c, h4, h5⟩ => hcells c h4 x h5, h1 x⟩)).1 h2, h1⟩
  · rintro ⟨h3, h2, h1⟩
    exact ⟨_, (), h1, (), trivial, (), (is1Sequence_iff (List.nodup_dedup _) (fun x => by
      rw [hv]; exact ⟨fun ⟨c, h4, h5⟩ => hcells c h4 x h5, h1 x⟩)).2 h2, (), h3, rfl⟩

/-- The edges 1-2 and 2-3 of the triangles 0-1-2, 1-2-3. -/
def pathData : Data ℚ := ⟨fun v => if v ≤ 1 then [0, 1] else if v = 2 then [1] else [],
  fun v w => if w = v + 1 ∧ w ≤ 3 then 0 else 1, 1, 1 / 100⟩

example : BackgroundOK twoTriangles 1 ∧
    CollisionsExact pathData.collide pathData.dist (pathData.tol * pathData.scale) twoTriangles ∧
    (∀ c < 2, ∀ v ∈ [c, c + 1], v < 3) ∧
    ∀ c < 2, [c, c + 1] ≠ [] ∧ ∃ e, e < twoTriangles.numEntities ∧
      Coincide pathData.dist (pathData.tol * pathData.scale) [c, c + 1] (twoTriangles.e2v e) := by
  have key : ∀ v w, pathData.dist v w < pathData.tol * pathData.scale ↔ w = v + 1 ∧ w ≤ 3 := by
    intro v w
    simp only [pathData]
    split <;> rename_i h
    · exact ⟨fun _ => h, fun _ => by norm_num⟩
    · exact ⟨fun h' => absurd h' (by norm_num), fun h' => absurd h' h⟩
  refine ⟨⟨Topo.simplicial_of_check (by decide +kernel), ?_, ?_⟩, ⟨?_, ?_⟩, ?_, ?_⟩
  · intro c hc
    change c < 2 at hc
    interval_cases c <;> decide
  · intro e he
    change e < 5 at he
    interval_cases e <;> decide
  · intro v w h m
    obtain ⟨rfl, h⟩ := (key v w).1 h
    have hm : (m ∈ pathData.collide v ∧ 2 ≤ m → False) := by
      rintro ⟨h1, h2⟩
      have hv : v ≤ 2 := by omega
      interval_cases v <;> simp [pathData] at h1 <;> omega
    have hv : v ≤ 2 := by omega
    rcases Nat.lt_or_ge m 2 with hlt | hge
    · interval_cases v <;> interval_cases m <;> decide
    · exact ⟨fun h1 => (hm ⟨h1, hge⟩).elim, fun h1 => absurd (show m < 2 from h1.1) (by omega)⟩
  · intro v w w' h h'
    rw [key] at h h'
    omega
  · intro c hc v hv
    simp at hv
    omega
  · intro c hc
    refine ⟨by simp, ?_⟩
    simp only [Coincide, key]
    interval_cases c
    · exact ⟨2, by decide, by decide, by decide⟩
    · exact ⟨4, by decide, by decide, by decide⟩

/-- Tags without subdomains are refused. -/
theorem embedding_map_needs_subdomains [Field K] [LinearOrder K] (D : Data K) (T : Topo) (dimsOk : Bool)
    (numVerts numCells : Nat) (cells : Nat → List Nat) (tags : List Nat) :
    buildEmbeddingMap D T dimsOk numVerts numCells cells none (some tags) = .error .assertion := by
  unfold buildEmbeddingMap
  cases dimsOk <;> rfl

/-- The interval 1-2 in the triangles 0-1-2, 1-2-3: vertices 0, 1 of the embedded mesh are 1, 2. -/
def sampleData : Data ℚ := ⟨fun v => if v = 0 then [0, 1] else if v = 1 then [0, 1] else [],
  fun v w => if w = v + 1 then 0 else 1, 1, 1 / 100⟩

example : BackgroundOK twoTriangles 1 ∧
    (∀ v, ∀ m ∈ sampleData.collide v, m < twoTriangles.numCells) ∧
    Separated sampleData.dist (sampleData.tol * sampleData.scale) [0, 1] ∧
    buildEmbeddingMap sampleData twoTriangles true 2 1 (fun _ => [0, 1]) (some [4]) (some [4])
      = .ok ([(1, 2), (0, 1)], [(0, 2)]) := by
  refine ⟨⟨Topo.simplicial_of_check (by decide +kernel), ?_, ?_⟩, ?_, ?_, by decide +kernel⟩
  · intro c hc
    change c < 2 at hc
    interval_cases c <;> decide
  · intro e he
    change e < 5 at he
    interval_cases e <;> decide
  · intro v m hm
    change m < 2
    simp only [sampleData] at hm
    split at hm
    · simp at hm; omega
    · split at hm
      · simp at hm; omega
      · simp at hm
  · intro v hv v' hv' w h1 h2
    have h0 : sampleData.tol * sampleData.scale < 1 := by decide +kernel
    have key : ∀ u, sampleData.dist u w < sampleData.tol * sampleData.scale → w = u + 1 := by
      intro u hu
      by_contra hne
      have : sampleData.dist u w = 1 := if_neg hne
      rw [this] at hu
      exact absurd (lt_trans hu h0) (lt_irrefl _)
    have := key v h1
    have := key v' h2
    omega

/-! ## C42: OverlapMesh -/

/-- Each entry of the map of `OverlapMesh` is a cell of `mesh2` with the same vertices, provided that the first
    vertices of the cell (all but the last) share a cell of `mesh2`.

    Partial: the proviso is needed, see `overlap_wrong`. -/
theorem overlap_sound_partial [Field K] [LinearOrder K] {D : Data K} {c2v cells : Nat → List Nat} {numVerts numCells k : Nat}
    (hcol : ∀ v w m, D.dist v w < D.tol * D.scale → m ∈ D.collide v → w ∈ c2v m)
    (hlen : ∀ m, (c2v m).length = k + 1) (hcells : ∀ c, c < numCells → (cells c).Nodup ∧ (cells c).length = k + 1)
    (hsep : ∀ c, c < numCells → Separated D.dist (D.tol * D.scale) (cells c))
    (hfirst : ∀ c, c < numCells → ∃ m, ∀ v ∈ (cells c).take k, m ∈ D.collide v) {em : List (Nat × Nat)}
    (h : overlapMap D c2v cells numVerts numCells = .ok em) :
    (∀ c, c < numCells → ∃ m, em.lookup c = some m) ∧
    ∀ c m, em.lookup c = some m → Coincide D.dist (D.tol * D.scale) (cells c) (c2v m) := by
  unfold overlapMap at h
  simp only [py_bind_eq_ok] at h
  obtain ⟨⟨vm, em'⟩, h1, _, _, _, _, h2⟩ := h
  obtain rfl := Except.ok.inj h2
  obtain ⟨_, a, b⟩ := overlapLoop_spec (Q := fun c m => c < numCells →
      Coincide D.dist (D.tol * D.scale) (cells c) (c2v m))
    (fun c vm vm' s e hg h1 h2 hlt => by
      obtain ⟨rs, r1, r2, _⟩ := overlapVertices_spec hg h1
      rw [single_eq h2] at r2
      have hall : ∀ r ∈ rs, e ∈ r.2 := by
        rcases rs with _ | ⟨r0, rs⟩
        · simp
        · rw [List.map_cons, List.foldl_cons, meet_nil] at r2
          obtain ⟨mf, hmf⟩ := hfirst c hlt
          have hlr : rs.length = k := by
            have := r1.length_eq
            rw [(hcells c hlt).2, List.length_cons] at this
            omega
          have hpre : ∀ n, n < k → ∀ r ∈ (r0 :: rs).take (n + 1), mf ∈ r.2 := by
            intro n hn r hr
            have hF := List.forall₂_take (n + 1) r1
            obtain ⟨v, hv, hgd⟩ := forall₂_preimage hF r hr
            rw [hgd.1]
            refine hmf v ?_
            exact (List.take_subset_take_left _ (by omega)) hv
          obtain ⟨x, y⟩ := foldl_meet_mem (e := e) (rs.map (fun r => r.2)) r0.2
            (by
              obtain ⟨_, _, _, ⟨m, hm, _⟩, _⟩ := forall₂_preimage r1 r0 (by simp)
              exact List.ne_nil_of_mem hm)
            (fun n hn => by
              rw [List.length_map, hlr] at hn
              refine ⟨mf, hpre n hn r0 (by simp), fun S hS => ?_⟩
              rw [← List.map_take] at hS
              obtain ⟨r, hr, rfl⟩ := List.mem_map.1 hS
              exact hpre n hn r (by rw [List.take_succ_cons]; exact List.mem_cons_of_mem _ hr))
            (by rw [← r2]; simp)
          intro r hr
          rcases List.mem_cons.1 hr with rfl | hr
          · exact x
          · exact y _ (List.mem_map.2 ⟨r, hr, rfl⟩)
      refine coincide_of (by rw [hlen, (hcells c hlt).2]) (hcells c hlt).1 (hsep c hlt) (fun v hv => ?_)
      obtain ⟨r, hr, hgd⟩ := forall₂_image r1 v hv
      refine ⟨r.1, hcol v r.1 e hgd.2.2 ?_, hgd.2.2⟩
      rw [← hgd.1]; exact hall r hr)
    (by intro p hp; simp at hp) h1
  refine ⟨fun c hc => ?_, fun c m hl => ?_⟩
  · obtain ⟨m, hm⟩ := b c (List.mem_range.2 hc)
    rcases hl : em'.lookup c with _ | e'
    · rw [List.lookup_eq_none_iff] at hl
      have := hl _ hm
      simp at this
    · exact ⟨e', rfl⟩
  · rcases a _ (mem_of_lookup hl) with h | ⟨h, hq⟩
    · simp at h
    · exact hq (List.mem_range.1 h)

/-- The pentagon 0-1-2-3-4 with the cells 1-2-3, 0-1-3, 0-3-4, and a cell with the vertices 1, 4, 2. -/
def pentagon : Data ℚ := ⟨fun v => [[0, 1], [2], [0]].getD v [],
  fun v w => if [1, 4, 2].getD v 9 = w then 0 else 1, 1, 1 / 100⟩
/-- Cells of the pentagon. -/
def pentagonCells (m : Nat) : List Nat := [[1, 2, 3], [0, 1, 3], [0, 3, 4]].getD m []

/-- `OverlapMesh` maps the triangle 1-4-2 to the triangle 1-2-3, although collisions are exact: the intersection
    of the cells at 1 and at 4 is empty, so the search starts again from those at 2. -/
theorem overlap_wrong :
    (∀ v w, pentagon.dist v w < pentagon.tol * pentagon.scale → ∀ m, m < 3 →
      (m ∈ pentagon.collide v ↔ w ∈ pentagonCells m)) ∧
    overlapMap pentagon pentagonCells (fun _ => [0, 1, 2]) 3 1 = .ok [(0, 0)] ∧
    ¬ Coincide pentagon.dist (pentagon.tol * pentagon.scale) [0, 1, 2] (pentagonCells 0) := by
  have h0 : pentagon.tol * pentagon.scale < 1 := by decide +kernel
  have key : ∀ v w, pentagon.dist v w < pentagon.tol * pentagon.scale → [1, 4, 2].getD v 9 = w := by
    intro v w hu
    by_contra hne
    have : pentagon.dist v w = 1 := if_neg hne
    rw [this] at hu
    exact absurd (lt_trans hu h0) (lt_irrefl _)
  refine ⟨?_, by decide +kernel, ?_⟩
  · intro v w h m hm
    obtain rfl := key v w h
    match v with
    | 0 => interval_cases m <;> decide
    | 1 => interval_cases m <;> decide
    | 2 => interval_cases m <;> decide
    | v + 3 => interval_cases m <;> simp [pentagon, pentagonCells]
  · rintro ⟨h, _⟩
    obtain ⟨w, hw, hd⟩ := h 1 (by simp)
    obtain rfl := key 1 w hd
    simp [pentagonCells] at hw

/-- For an interval mesh the proviso of `overlap_sound_partial` holds. -/
theorem overlap_sound_intervals [Field K] [LinearOrder K] {D : Data K} {c2v cells : Nat → List Nat} {numVerts numCells : Nat}
    (hcol : ∀ v w m, D.dist v w < D.tol * D.scale → m ∈ D.collide v → w ∈ c2v m)
    (hlen : ∀ m, (c2v m).length = 2) (hcells : ∀ c, c < numCells → (cells c).Nodup ∧ (cells c).length = 2)
    (hsep : ∀ c, c < numCells → Separated D.dist (D.tol * D.scale) (cells c))
    (hne : ∀ c, c < numCells → ∀ v ∈ cells c, D.collide v ≠ []) {em : List (Nat × Nat)}
    (h : overlapMap D c2v cells numVerts numCells = .ok em) :
    (∀ c, c < numCells → ∃ m, em.lookup c = some m) ∧
    ∀ c m, em.lookup c = some m → Coincide D.dist (D.tol * D.scale) (cells c) (c2v m) := by
  refine overlap_sound_partial (k := 1) hcol hlen hcells hsep (fun c hc => ?_) h
  obtain ⟨_, h2⟩ := hcells c hc
  rcases hcc : cells c with _ | ⟨v, vs⟩
  · rw [hcc] at h2; simp at h2
  · obtain ⟨m, hm⟩ := List.exists_mem_of_ne_nil _ (hne c hc v (by rw [hcc]; simp))
    refine ⟨m, fun u hu => ?_⟩
    simp at hu
    rw [hu]; exact hm

/-- Two intervals 0-1, 1-2 and the cell 2-1. -/
example : overlapMap (K := ℚ) ⟨fun v => [[1], [0, 1]].getD v [], fun v w => if [2, 1].getD v 9 = w then 0 else 1, 1, 1 / 100⟩
    (fun m => [[0, 1], [1, 2]].getD m []) (fun _ => [0, 1]) 2 1 = .ok [(0, 1)] := by decide +kernel

/-! ## C42: compute_embedding -/

/-- `compute_embedding` maps to tagged entities with the same vertices up to `tol`; every tagged entity is used. -/
theorem compute_embedding_sound [LinearOrder K] {collide : Nat → List Nat} {dist : Nat → Nat → K} {tol : K}
    {dimsOk present : Bool} {e2v c2v : Nat → List Nat} {marks tags : List Nat} {n : Nat} {em : List (Nat × Nat)}
    (hlen : ∀ e, (e2v e).length = n) (hcells : ∀ c, (c2v c).Nodup ∧ (c2v c).length = n)
    (hsep : ∀ c, Separated dist tol (c2v c))
    (h : computeEmbedding collide dist tol dimsOk present e2v c2v marks tags = .ok em) :
    (∀ t ∈ tags, ∀ e, marks[e]? = some t → ∃ c, (c, e) ∈ em) ∧
    ∀ p ∈ em, (∃ t ∈ tags, marks[p.2]? = some t) ∧ Coincide dist tol (c2v p.1) (e2v p.2) := by
  unfold computeEmbedding at h
  simp only [py_bind_eq_ok] at h
  obtain ⟨_, _, h⟩ := h
  split at h
  · simp at h
  · obtain ⟨_, a, b⟩ := embedTags_spec h
    refine ⟨a, fun p hp => ?_⟩
    rcases b p hp with h | ⟨h1, h2⟩
    · simp at h
    · exact ⟨h1, coincide_of (by rw [hlen, (hcells p.1).2]) (hcells p.1).1 (hsep p.1) h2⟩

/-- A second embedding in the same mesh is refused. -/
theorem compute_embedding_twice [LinearOrder K] (collide : Nat → List Nat) (dist : Nat → Nat → K) (tol : K)
    (e2v c2v : Nat → List Nat) (marks tags : List Nat) :
    computeEmbedding collide dist tol true true e2v c2v marks tags = .error .valueError := rfl

/-- The entities 1-2 and 2-3 are found as the cells 1-0, 0-2 (vertices 2, 1, 3). -/
example : computeEmbedding (K := ℚ) (fun w => [[], [0], [0, 1], [1]].getD w [])
    (fun v w => if [2, 1, 3].getD v 9 = w then 0 else 1) (1 / 100) true false
    (fun e => [[0, 1], [1, 2], [2, 3]].getD e []) (fun c => [[1, 0], [0, 2]].getD c []) [0, 7, 7] [7] =
    .ok [(1, 2), (0, 1)] := by decide +kernel

/-! ## C43 -/

/-- After the first request for a mesh the cells with the tags are mapped. -/
theorem entity_map_first {build : List Nat → Py (List (Nat × Nat))} {id : Nat} {marks tags : List Nat}
    {t t' : TraceMesh} (hb : BuildsAll build marks) (hn : ∀ maps, t.maps = some maps → maps.lookup id = none)
    (h : getEntityMap build id (some marks) (some tags) t = .ok t') : Mapped t' id marks tags :=
  (getEntityMap_new hb hn h).1

/-- What is mapped stays mapped, for all histories. -/
theorem entity_map_stays {build : Nat → List Nat → Py (List (Nat × Nat))} {id : Nat} {marks tags : List Nat} :
    ∀ {rs : List (Nat × List Nat)} {t t' : TraceMesh}, Mapped t id marks tags →
    requests build marks rs t = .ok t' → Mapped t' id marks tags
  | [], t, t', hM, h => by obtain rfl := Except.ok.inj h; exact hM
  | (id', tags') :: rs, t, t', hM, h => by
      rw [requests] at h
      simp only [py_bind_eq_ok] at h
      obtain ⟨t1, h1, h2⟩ := h
      exact entity_map_stays (hM.stays h1) h2

/-- For all histories of requests for one mesh, all cells with the tags of all the requests are mapped, if the
    history starts from a trace mesh without any maps, or the map of the mesh has all cells of `tagged_cells` (as
    the parent mesh of an `EmbeddedMesh` does).

    Partial: false for the other meshes of an `EmbeddedMesh` and for several meshes, see `entity_map_not_mapped` and
    `entity_map_two_meshes`. -/
theorem entity_map_history_partial {build : Nat → List Nat → Py (List (Nat × Nat))} {id : Nat} {marks : List Nat}
    (hb : BuildsAll (build id) marks) : ∀ {rs : List (Nat × List Nat)} {t t' : TraceMesh},
    (∀ r ∈ rs, r.1 = id) →
    ((t.maps = none ∧ t.tagged = none) ∨ ∃ tagged, t.tagged = some tagged ∧ Mapped t id marks tagged) →
    requests build marks rs t = .ok t' → ∀ r ∈ rs, Mapped t' id marks r.2
  | [], t, t', _, _, _ => by simp
  | (id', tags) :: rs, t, t', hid, hI, h => by
      obtain rfl : id' = id := hid (id', tags) (by simp)
      rw [requests] at h
      simp only [py_bind_eq_ok] at h
      obtain ⟨t1, h1, h2⟩ := h
      obtain ⟨a, b⟩ := Inv.step hb hI h1
      intro r hr
      rcases List.mem_cons.1 hr with rfl | hr
      · exact entity_map_stays b h2
      · exact entity_map_history_partial hb (fun r hr => hid r (by simp [hr])) a h2 r hr

/-- A `build` which maps all cells. -/
def sampleBuild (marks tags : List Nat) : Py (List (Nat × Nat)) :=
  .ok ((tags.flatMap (whereEq marks)).map (fun c => (c, 10 + c)))

theorem sampleBuild_all (marks : List Nat) : BuildsAll (sampleBuild marks) marks := by
  intro tags m h c x hx hc
  obtain rfl := Except.ok.inj h
  have hm : c ∈ tags.flatMap (whereEq marks) := List.mem_flatMap.2 ⟨x, hx, mem_whereEq.2 hc⟩
  rcases hl : ((tags.flatMap (whereEq marks)).map (fun c => (c, 10 + c))).lookup c with _ | e'
  · rw [List.lookup_eq_none_iff] at hl
    have := hl (c, 10 + c) (List.mem_map.2 ⟨c, hm, rfl⟩)
    simp at this
  · exact ⟨e', rfl⟩

/-- An `EmbeddedMesh` with three tags, viewed from another mesh first by the tag 1 and then by the tag 2:
    the request returns but the cell with the tag 2 is not mapped. -/
theorem entity_map_not_mapped :
    ∃ t', requests (fun _ => sampleBuild [1, 2, 3]) [1, 2, 3] [(5, [1]), (5, [2])] ⟨some [], some [1, 2, 3]⟩ = .ok t' ∧
      t'.maps = some [(5, [(0, 10)])] ∧ ¬ Mapped t' 5 [1, 2, 3] [2] := by
  refine ⟨⟨some [(5, [(0, 10)])], some [1, 2, 3]⟩, rfl, rfl, ?_⟩
  rintro ⟨maps, m, h1, h2, h3⟩
  obtain rfl := Option.some.inj h1
  obtain rfl := Option.some.inj h2
  obtain ⟨e, he⟩ := h3 1 2 (by simp) rfl
  simp at he

/-- A trace mesh without maps and two meshes. -/
theorem entity_map_two_meshes :
    ∃ t', requests (fun _ => sampleBuild [1, 2, 3]) [1, 2, 3] [(4, [1]), (5, [2]), (5, [3])] ⟨none, none⟩ = .ok t' ∧
      ¬ Mapped t' 5 [1, 2, 3] [3] := by
  refine ⟨⟨some [(5, [(1, 11)]), (4, [(0, 10)])], some [1]⟩, rfl, ?_⟩
  rintro ⟨maps, m, h1, h2, h3⟩
  obtain rfl := Option.some.inj h1
  obtain rfl := Option.some.inj h2
  obtain ⟨e, he⟩ := h3 2 3 (by simp) rfl
  simp at he

/-- A history to which `entity_map_history_partial` applies. -/
example : requests (fun _ => sampleBuild [1, 2, 3]) [1, 2, 3] [(4, [1]), (4, [2]), (4, [3, 1])] ⟨none, none⟩ =
    .ok ⟨some [(4, [(2, 12), (0, 10), (1, 11), (0, 10)]), (4, [(1, 11), (0, 10)]), (4, [(0, 10)])], some [1]⟩ := rfl

end Verif.Embedding
