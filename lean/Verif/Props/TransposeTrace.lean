import Verif.Lemmas.TransposeTrace
/-!
# C76: transposed traces
-/
namespace Verif.TransposeTrace
open Verif Verif.DofMat Verif.Trace Verif.Embedding Finset
variable {K X : Type} [CommRing K] {g : Nat}

/-- If the cells of the trace mesh cannot be matched with facets of the full mesh there is no matrix. -/
theorem transpose_trace_unmatched {C : Meshes} {id : Nat} {t : TraceMesh} {e : PyErr} (h : request C id C.marks.dedup t = .error e)
    (V TV : Space K X) (D : Trace.Data K X g) : transposeTraceMat C id t V TV D = .error e := by
  rw [transposeTraceMat, no_restrict_map_error (by rw [traced]; simp only [h]; rfl)]
  rfl

/-- The edge was never put into the mesh 6 itself. -/
example : request (⟨1, 2, 1, fun _ => [0, 1], [7], fun _ => 1, fun _ => ⟨fun _ => [0], fun _ _ => 0, 1, 1⟩,
    fun _ => ⟨1, 3, fun _ => [], fun _ => [], fun _ => [], fun _ => []⟩⟩ : Meshes) 6 [7] ⟨some [(5, [(0, 2)])], some [7]⟩ =
    .error .assertion := rfl

/-- `transpose_trace_mat(V, TV, ...)` for `V` on the full mesh and `TV` on the trace mesh is the transpose of the
    trace: the pairing of its value at `w` with `u` is the pairing of `w` with the degrees of freedom of the
    trace of `u`. -/
theorem transpose_trace_pairs_partial {C : Meshes} {id : Nat} {t : TraceMesh} {V TV : Space K X} (hV : V.WF) (hT : TV.WF)
    (hL : TV.LinearDofs) {D : Trace.Data K X g} {t1 : TraceMesh} (hr : request C id C.marks.dedup t = .ok t1)
    (hh : D.hdivTrace = none) (hm : C.marks.length = TV.numCells)
    (hdg : TV.isDG = true → Discontinuous TV) {facet cell : Nat → Nat}
    (hmap : ∀ c, c < TV.numCells → (((t1.maps.getD []).lookup id).getD []).lookup c = some (facet c) ∧
      (D.f2c (facet c)).head? = some (cell c) ∧ cell c < V.numCells) :
    ∃ R : Mat K, transposeTraceMat C id t V TV D = .ok R ∧ R.rows = V.dim ∧ R.cols = TV.dim ∧
      ∀ u w tr : Nat → K,
        (∀ c l d, c < TV.numCells → (TV.cellDofs c)[l]? = some d → tr d = TV.dofs c l (fnOn V u (cell c))) →
        (∀ d, (∀ c, c < TV.numCells → d ∉ TV.cellDofs c) → tr d = 0) →
        ∑ i ∈ range V.dim, R.act w i * u i = ∑ d ∈ range TV.dim, w d * tr d := by
  obtain ⟨t2, hr2, hsame⟩ := request_twice hr
  have h1 : (traced C id t D).map1 = .ok () := by
    simp only [traced, hr]
    rfl
  have h2 : (traced C id t D).map2 = .ok () := by
    simp only [traced, hr, py_bind_ok, hr2]
    rfl
  have hmapping : ∀ c, (traced C id t D).mapping.lookup c = (((t1.maps.getD []).lookup id).getD []).lookup c := by
    intro c
    simp only [traced, hr, py_bind_ok, hr2]
    exact hsame c
  have hlt : ∀ c ∈ traceCells C.marks C.marks.dedup, c < TV.numCells := by
    intro c hc
    obtain ⟨tag, _, htag⟩ := mem_traceCells.1 hc
    rw [← hm]
    by_contra hcon
    rw [List.getElem?_eq_none (by omega)] at htag
    exact absurd htag (by simp)
  obtain ⟨M, hM, hE⟩ := no_restrict_evaluates_dofs (D := traced C id t D) hV hT hL h1 h2 hh hm
    (List.nodup_dedup C.marks) hdg (facet := facet) (cell := cell) (fun c hc => by
      rw [hmapping]
      exact hmap c (hlt c hc))
  refine ⟨M.tr, by rw [transposeTraceMat, hM]; rfl, hE.cols, hE.rows, ?_⟩
  intro u w tr htr hz
  have hact : ∀ d, M.act u d = tr d := by
    intro d
    by_cases hd : ∃ c, c < TV.numCells ∧ d ∈ TV.cellDofs c
    · obtain ⟨c, hc, hdc⟩ := hd
      obtain ⟨l, hl⟩ := List.getElem?_of_mem hdc
      have hu : Unambiguous V TV (traceCells C.marks C.marks.dedup) cell u := by
        intro a ha b hb l l' e hla hlb
        rw [← htr a l e (hlt a ha) hla, ← htr b l' e (hlt b hb) hlb]
      rw [htr c l d hc hl]
      exact hE.all hu (SurfaceMean.mem_allCells (marks := C.marks) (by omega)) hl
    · push Not at hd
      rw [hz d hd]
      exact hE.untouched u d (fun c hc => hd c (hlt c hc))
  simp only [Mat.act, Mat.tr]
  rw [hE.rows]
  simp only [sum_mul]
  rw [sum_comm]
  refine sum_congr rfl (fun d _ => ?_)
  rw [← hact d, Mat.act, hE.cols, mul_sum]
  refine sum_congr rfl (fun i _ => by ring)

/-- Whatever was asked of the trace mesh before, the reduction matrix of an argument on the trace mesh itself
    cannot be computed: the spaces are passed in the wrong order, and the trace mesh is not embedded in itself. -/
theorem transpose_trace_assembly_raises {C : Meshes} {own : Nat} (h : C.dim own = C.edim) (V TV : Space K X)
    (D : Trace.Data K X g) : ∀ (rs : List (Nat × List Nat)) (t : TraceMesh),
    (t.maps.getD []).lookup own = none →
    reductionMatrix C own (afterRequests C rs t) V TV D = .error .assertion
  | [], t, hk => by
      rw [afterRequests, reductionMatrix, transposeTraceMat,
        no_restrict_map_error (by rw [traced]; simp only [request_own (le_of_eq h) _ hk]; rfl)]
      rfl
  | (id, tags) :: rs, t, hk => by
      rw [afterRequests]
      split
      · next t' hr => exact transpose_trace_assembly_raises h V TV D rs t' (request_other (le_of_eq h) hk hr)
      · exact transpose_trace_assembly_raises h V TV D rs t hk

/-- What `TransposeTrace` accepts: a terminal and a mesh with the map into the full mesh, which is the only parent
    if it is not given. -/
theorem transpose_trace_accepts (isTerminal : Bool) (maps parents : Option (List Nat)) (full : Option Nat) (f : Nat) :
    transposeTrace isTerminal maps parents full = .ok f ↔
      isTerminal = true ∧ (∃ ks, maps = some ks ∧ f ∈ ks) ∧ (full = some f ∨ full = none ∧ parents = some [f]) := by
  cases isTerminal
  · simp [transposeTrace]
  cases maps with
  | none => simp [transposeTrace]
  | some ks =>
    cases full with
    | some f' => simp [transposeTrace, assert_contains]
    | none =>
      match parents with
      | none => simp [transposeTrace]
      | some [] => simp [transposeTrace]
      | some [f'] => simp [transposeTrace, assert_contains]
      | some (_ :: _ :: _) => simp [transposeTrace]

deriving instance DecidableEq for TraceMesh

/-! The triangle and its bottom edge: mesh 5 and the trace mesh 6. -/

/-- Vertices 0, 1 of the edge are those of the triangle, the edge is its facet 2. -/
def triangleMeshes : Meshes where
  edim := 1
  numVerts := 2
  numCells := 1
  cells _ := [0, 1]
  marks := [7]
  dim id := if id = 5 then 2 else 1
  geom _ := ⟨fun _ => [0], fun v w => if w = v then 0 else 1, 1, 1 / 100⟩
  topo _ := ⟨1, 3, fun _ => [0, 1, 2], fun e => [[1, 2], [0, 2], [0, 1]].getD e [], fun _ => [0, 1, 2], fun _ => [0]⟩

/-- The attributes set by `EmbeddedMesh`. -/
def edgeMesh : TraceMesh := ⟨some [(5, [(0, 2)])], some [7]⟩

/-- The transposed trace of `w` at the edge paired with `u`. -/
example : ∃ R, transposeTraceMat triangleMeshes 5 edgeMesh SurfaceMean.triangleP1 SurfaceMean.edgeP1
      SurfaceMean.edgeData = .ok R ∧ R.rows = 3 ∧ R.cols = 2 ∧
      ∀ u w : Nat → ℚ, ∑ i ∈ range 3, R.act w i * u i = w 0 * u 0 + w 1 * u 1 := by
  obtain ⟨R, h, hr, hc, hp⟩ := transpose_trace_pairs_partial (C := triangleMeshes) (id := 5) (t := edgeMesh)
    (V := SurfaceMean.triangleP1) (TV := SurfaceMean.edgeP1) (D := SurfaceMean.edgeData)
    (facet := fun _ => 2) (cell := fun _ => 0)
    ⟨fun _ _ => rfl, fun _ _ => by simp [SurfaceMean.triangleP1], fun _ _ => by simp [SurfaceMean.triangleP1]⟩
    ⟨fun _ _ => rfl, fun _ _ => by simp [SurfaceMean.edgeP1], fun _ _ => by simp [SurfaceMean.edgeP1]⟩
    ⟨fun _ l f g => by simp only [SurfaceMean.edgeP1]; split <;> rfl,
      fun _ l a f => by simp only [SurfaceMean.edgeP1]; split <;> rfl⟩
    (t1 := ((request triangleMeshes 5 [7] edgeMesh).toOption).getD edgeMesh) (by decide +kernel) rfl rfl
    (fun h => absurd h (by decide))
    (fun t ht => by
      have : t = 0 := by simpa [SurfaceMean.edgeP1] using ht
      subst this
      exact ⟨by decide +kernel, rfl, by decide⟩)
  refine ⟨R, h, hr, hc, fun u w => ?_⟩
  have := hp u w (fun d => if d = 0 then u 0 else if d = 1 then u 1 else 0) ?_ ?_
  · simpa [SurfaceMean.triangleP1, SurfaceMean.edgeP1, sum_range_succ] using this
  · intro c l d _ hl
    simp only [SurfaceMean.edgeP1] at hl
    match l, hl with
    | 0, hl =>
      have : d = 0 := by simpa using hl.symm
      subst this
      simp [SurfaceMean.edgeP1, fnOn, SurfaceMean.triangleP1, sum_range_succ]
    | 1, hl =>
      have : d = 1 := by simpa using hl.symm
      subst this
      simp [SurfaceMean.edgeP1, fnOn, SurfaceMean.triangleP1, sum_range_succ]
    | l + 2, hl => simp at hl
  · intro d hd
    have := hd 0 (by decide)
    simp only [SurfaceMean.edgeP1, List.mem_cons, List.not_mem_nil, or_false, not_or] at this
    rw [if_neg this.1, if_neg this.2]

/-- The argument in the space on the edge, which the assembler passes first. -/
example : reductionMatrix triangleMeshes 6 (afterRequests triangleMeshes [(5, [7])] edgeMesh) SurfaceMean.edgeP1
    SurfaceMean.triangleP1 SurfaceMean.edgeData = .error .assertion :=
  transpose_trace_assembly_raises rfl _ _ _ _ _ rfl

example : transposeTrace true (some [5]) (some [5]) none = .ok 5 := rfl

end Verif.TransposeTrace
