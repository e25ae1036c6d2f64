import Verif.Spec.Elements
import Verif.Lemmas.BlockOps
/-!
# C61: elements of reduced functions

For all elements.
-/
namespace Verif.Elements
open Verif BlockOps

/-! ## Cells -/

/-- Traces have one dimension less and stay in the same space; only triangles and tetrahedra have them. -/
theorem trace_cell_ok {c c' : UCell} (h : traceCell c = .ok c') : c'.tdim + 1 = c.tdim ∧ c'.gdim = c.gdim := by
  obtain ⟨n, g⟩ := c
  cases n <;> simp [traceCell] at h <;> subst h <;> exact ⟨rfl, rfl⟩

theorem trace_cell_iff {c : UCell} : (∃ c', traceCell c = .ok c') ↔ c.name = .triangle ∨ c.name = .tetrahedron := by
  obtain ⟨n, g⟩ := c
  cases n <;> simp [traceCell]

/-- The transposed trace goes back, between cells which exist. -/
theorem transpose_cell_inverse {c c' : UCell} : (traceCell c = .ok c' ∧ c.tdim ≤ c.gdim) ↔ transposeTraceCell c' = .ok c := by
  obtain ⟨n, g⟩ := c
  obtain ⟨n', g'⟩ := c'
  cases n <;> cases n' <;> simp [traceCell, transposeTraceCell, mkCell, UCell.tdim] <;> grind

/-- A curve in one coordinate is not the trace of anything. -/
theorem transpose_cell_line : transposeTraceCell ⟨.interval, 1⟩ = .error .runtimeError := rfl

theorem average_cell_ok {c c' : UCell} (h : averageCell c = .ok c') : c'.tdim + 2 = c.tdim ∧ c'.gdim = c.gdim := by
  obtain ⟨n, g⟩ := c
  cases n <;> simp [averageCell] at h <;> subst h <;> exact ⟨rfl, rfl⟩

/-! ## Traces -/

theorem build_ok {s : List Nat} {f : String} {c : UCell} {d : Nat} (hs : s = [] ∨ s = [c.gdim] ∨ s = [c.gdim, c.gdim]) :
    ∃ e, build s.length f c d = .ok e ∧ e.shape = s ∧ e.degree = d ∧ e.cell = some c ∧ e.family = f ∧
      ∀ es, e ≠ .mixed es := by
  rcases hs with rfl | rfl | rfl <;> exact ⟨_, rfl, rfl, rfl, rfl, rfl, by simp⟩

mutual
/-- Elements which are alike have the same shape and degree. -/
theorem alike_shape : ∀ e e' : Elem, Alike e e' → e.shape = e'.shape ∧ e.degree = e'.degree
  | .mixed es, e', h => by
      cases e' with
      | mixed es' =>
        have := alikeAll_sizes es es' h
        simp [Elem.shape, Elem.degree, this]
      | _ => exact h
  | .vector a n, e', h => by
      cases e' with
      | vector a' n' =>
        have := alike_shape a a' h.2
        simp [Elem.shape, Elem.degree, this, h.1]
      | _ => exact h
  | .finite _ _ _ _, _, h => h
  | .other _ _ _ _, _, h => h
  | .tensor _ _ _ _, _, h => h
theorem alikeAll_sizes : ∀ es es' : List Elem, AlikeAll es es' → sizes es = sizes es' ∧ degrees es = degrees es'
  | [], [], _ => ⟨rfl, rfl⟩
  | [], _ :: _, h => h.elim
  | _ :: _, [], h => h.elim
  | e :: es, e' :: es', h => by
      have h1 := alike_shape e e' h.1
      have h2 := alikeAll_sizes es es' h.2
      simp [sizes, degrees, h1, h2]
end

mutual
/-- The trace of a function has the same parts, with the same shapes and degrees, on the cell of the facets, for all elements on
    triangles and tetrahedra all of whose tensor elements have as many rows and columns as there are coordinates. -/
theorem trace_element {c c' : UCell} (hc : traceCell c = .ok c') : ∀ e : Elem, Natural c e → SquareTensors c.gdim e →
    ∃ e', traceElement e = .ok e' ∧ Alike e e' ∧ e'.cell = some c'
  | .finite f d k s, hn, _ => by
      obtain ⟨rfl, hs⟩ := hn
      have hg := (trace_cell_ok hc).2
      rw [← hg] at hs
      obtain ⟨e', h1, h2, h3, h4, -⟩ := build_ok (f := "Discontinuous Lagrange") (d := k) hs
      exact ⟨e', by rw [traceElement, hc, py_bind_ok, h1], ⟨h2.symm, h3.symm⟩, h4⟩
  | .other f d k s, hn, _ => by
      obtain ⟨rfl, hs⟩ := hn
      have hg := (trace_cell_ok hc).2
      rw [← hg] at hs
      obtain ⟨e', h1, h2, h3, h4, -⟩ := build_ok (f := "Discontinuous Lagrange") (d := k) hs
      exact ⟨e', by rw [traceElement, hc, py_bind_ok, h1], ⟨h2.symm, h3.symm⟩, h4⟩
  | .tensor f d k s, hn, ht => by
      obtain ⟨rfl, -⟩ := hn
      have hg := (trace_cell_ok hc).2
      have hs : s = [d.gdim, d.gdim] := ht
      rw [← hg] at hs
      obtain ⟨e', h1, h2, h3, h4, -⟩ := build_ok (f := "Discontinuous Lagrange") (d := k) (Or.inr (Or.inr hs))
      exact ⟨e', by rw [traceElement, hc, py_bind_ok, h1], ⟨h2.symm, h3.symm⟩, h4⟩
  | .vector sub n, hn, ht => by
      obtain ⟨e', h1, h2, h3⟩ := trace_element hc sub hn ht
      exact ⟨.vector e' n, by rw [traceElement, h1, py_bind_ok], ⟨rfl, h2⟩, by simp [Elem.cell, h3]⟩
  | .mixed subs, hn, ht => by
      obtain ⟨es, h1, h2, h3⟩ := trace_elements hc subs hn.2 ht
      exact ⟨.mixed es, by rw [traceElement, h1, py_bind_ok], h2, by rw [Elem.cell]; exact h3 hn.1⟩
theorem trace_elements {c c' : UCell} (hc : traceCell c = .ok c') : ∀ es : List Elem, NaturalAll c es → SquareTensorsAll c.gdim es →
    ∃ es', traceElements es = .ok es' ∧ AlikeAll es es' ∧ (es ≠ [] → firstCell es' = some c')
  | [], _, _ => ⟨[], rfl, trivial, fun h => absurd rfl h⟩
  | e :: es, hn, ht => by
      obtain ⟨e', h1, h2, h3⟩ := trace_element hc e hn.1 ht.1
      obtain ⟨es', g1, g2, -⟩ := trace_elements hc es hn.2 ht.2
      exact ⟨e' :: es', by rw [traceElements, h1, py_bind_ok, g1, py_bind_ok], ⟨h2, g2⟩, fun _ => by simp [firstCell, h3]⟩
end

/-- In particular it has the same shape and degree. -/
theorem trace_shape_partial {c c' : UCell} (hc : traceCell c = .ok c') {e : Elem} (hn : Natural c e) (ht : SquareTensors c.gdim e) :
    ∃ e', traceElement e = .ok e' ∧ e'.shape = e.shape ∧ e'.degree = e.degree ∧ e'.cell = some c' := by
  obtain ⟨e', h1, h2, h3⟩ := trace_element hc e hn ht
  exact ⟨e', h1, (alike_shape e e' h2).1.symm, (alike_shape e e' h2).2.symm, h3⟩

/-- Tensor elements of another shape lose it. -/
theorem trace_tensor_wrong : ∃ e e' : Elem, Natural ⟨.triangle, 2⟩ e ∧ traceElement e = .ok e' ∧ e'.shape ≠ e.shape :=
  ⟨.tensor "Lagrange" ⟨.triangle, 2⟩ 1 [3, 3], _, ⟨rfl, rfl⟩, rfl, by decide⟩

/-! ## Averages -/

/-- The average of a function has its shape if this is one which `FiniteElement`s have: scalars, vectors with three, tensors with
    nine components. -/
theorem average_element {c c' : UCell} (hc : averageCell c = .ok c') {e : Elem} (he : e.cell = some c)
    (hs : e.shape = [] ∨ e.shape = [c.gdim] ∨ e.shape = [c.gdim, c.gdim]) :
    ∃ e', averageElement e c' = .ok e' ∧ e'.shape = e.shape ∧ e'.degree = e.degree ∧ e'.cell = some c' := by
  have hg := (average_cell_ok hc).2
  rw [← hg] at hs
  obtain ⟨e', h1, h2, h3, h4, -⟩ := build_ok (f := "Discontinuous Lagrange") (d := e.degree) hs
  refine ⟨e', ?_, h2, h3, h4⟩
  rw [averageElement, cellVia, he]
  simp [hc, h1]

/-- A mesh of another cell is refused. -/
theorem average_mesh_refused {c c' m : UCell} (hc : averageCell c = .ok c') {e : Elem} (he : e.cell = some c) (hm : m ≠ c') :
    averageElement e m = .error .assertion ∧ fluxElement e m = .error .assertion := by
  simp [averageElement, fluxElement, cellVia, he, hc, hm]

/-- Whenever an element is found for a vector it has as many components as there are coordinates: the averages of vectors
    with another number, and of mixed functions, have the wrong shape. -/
theorem average_vector_shape {e e' : Elem} {c m : UCell} {n : Nat} (he : e.cell = some c) (hn : e.shape = [n])
    (h : averageElement e m = .ok e') : e'.shape = [c.gdim] := by
  rw [averageElement, cellVia, he] at h
  obtain ⟨c', h1, h⟩ := py_bind_eq_ok.1 h
  obtain ⟨_, hm, h⟩ := py_bind_eq_ok.1 h
  have hm : m = c' := by simpa using pyAssert_eq_ok.1 hm
  rw [hn] at h
  cases h
  simp [Elem.shape, hm, (average_cell_ok h1).2]

theorem average_vector_wrong : ∃ e e' : Elem, Natural ⟨.tetrahedron, 3⟩ e ∧ averageElement e ⟨.interval, 3⟩ = .ok e' ∧ e'.shape ≠ e.shape :=
  ⟨.vector (.finite "Lagrange" ⟨.tetrahedron, 3⟩ 1 []) 2, _, ⟨rfl, Or.inl rfl⟩, rfl, by decide⟩

/-- Fluxes of vectors are scalars of the same degree. -/
theorem flux_element {c c' : UCell} (hc : averageCell c = .ok c') {e : Elem} (he : e.cell = some c) :
    (∀ n, e.shape = [n] → ∃ e', fluxElement e c' = .ok e' ∧ e'.shape = [] ∧ e'.degree = e.degree ∧ e'.cell = some c') ∧
    (e.shape.length ≠ 1 → fluxElement e c' = .error .assertion) := by
  refine ⟨fun n hn => ⟨.finite "Discontinuous Lagrange" c' e.degree [], ?_, rfl, rfl, rfl⟩, fun hn => ?_⟩
  · simp [fluxElement, cellVia, he, hc, hn]
  · simp [fluxElement, cellVia, he, hc, hn]

/-! ## Transposed traces -/

/-- Elements found by the rank are alike, if the shape is a standard one. -/
theorem build_alike {e : Elem} (hm : ∀ es, e ≠ .mixed es) {f : String} {c : UCell}
    (hs : e.shape = [] ∨ e.shape = [c.gdim] ∨ e.shape = [c.gdim, c.gdim]) :
    ∃ e', build e.shape.length f c e.degree = .ok e' ∧ Alike e e' ∧ e'.cell = some c ∧ e'.family = f ∧
      ∀ es, e' ≠ .mixed es := by
  cases e with
  | mixed es => exact absurd rfl (hm es)
  | vector sub n =>
    simp only [Elem.shape, List.cons.injEq] at hs
    rcases hs with h | ⟨h1, h2⟩ | ⟨h1, h2⟩
    · cases h
    · refine ⟨.vector (.finite f c sub.degree []) c.gdim, by simp [Elem.shape, h2, build, Elem.degree], ⟨h1, ?_⟩, rfl, rfl,
        by simp⟩
      cases sub with
      | mixed es => simp [Elem.shape] at h2
      | vector a m => simp [Elem.shape] at h2
      | _ => exact ⟨h2, rfl⟩
    · exact ⟨.tensor f c sub.degree [c.gdim, c.gdim], by simp [Elem.shape, h2, build, Elem.degree],
        ⟨by simp [Elem.shape, h1, h2], rfl⟩, rfl, rfl, by simp⟩
  | _ =>
    obtain ⟨e', h1, h2, h3, h4, h5, h6⟩ := build_ok (f := f) hs
    exact ⟨e', h1, ⟨h2.symm, h3.symm⟩, h4, h5, h6⟩

theorem transpose_leaf {e : Elem} (hm : ∀ es, e ≠ .mixed es) : transposeElement e = (do
    let f ← transposeFamily e.family
    let c ← cellVia transposeTraceCell e
    build e.shape.length f c e.degree) := by
  cases e with
  | mixed es => exact absurd rfl (hm es)
  | _ => rw [transposeElement]; rfl

theorem extension_leaf {e : Elem} (hm : ∀ es, e ≠ .mixed es) : extensionElement e = (do
    let c ← cellVia extensionCell e
    build e.shape.length (extensionFamily e.family) c e.degree) := by
  cases e with
  | mixed es => exact absurd rfl (hm es)
  | _ => rw [extensionElement]; rfl

theorem standard_leaf {c : UCell} {e : Elem} (hm : ∀ es, e ≠ .mixed es) :
    Standard c e ↔ e.cell = some c ∧ (e.shape = [] ∨ e.shape = [c.gdim] ∨ e.shape = [c.gdim, c.gdim]) := by
  cases e with
  | mixed es => exact absurd rfl (hm es)
  | _ => rw [Standard]; simp

theorem continuous_leaf {e : Elem} (hm : ∀ es, e ≠ .mixed es) : Continuous e ↔ e.family = "Lagrange" := by
  cases e with
  | mixed es => exact absurd rfl (hm es)
  | _ => rw [Continuous]; simp

theorem transpose_one {c c' : UCell} (hc : transposeTraceCell c = .ok c') {e : Elem} (hm : ∀ es, e ≠ .mixed es)
    (hs : Standard c e) (hf : Continuous e) :
    ∃ e', transposeElement e = .ok e' ∧ Alike e e' ∧ e'.cell = some c' ∧ Continuous e' := by
  obtain ⟨h0, hs⟩ := (standard_leaf hm).1 hs
  rw [(trace_cell_ok (transpose_cell_inverse.2 hc).1).2] at hs
  obtain ⟨e', h1, h2, h3, h4, h5⟩ := build_alike (f := "Lagrange") hm hs
  refine ⟨e', ?_, h2, h3, (continuous_leaf h5).2 h4⟩
  rw [transpose_leaf hm, (continuous_leaf hm).1 hf, cellVia, h0]
  simp [transposeFamily, hc, h1]

mutual
/-- Continuous elements on facets whose parts have the standard shapes are extended part by part, with shapes and degrees, and stay
    continuous. -/
theorem transpose_element {c c' : UCell} (hc : transposeTraceCell c = .ok c') : ∀ e : Elem, Standard c e → Continuous e →
    ∃ e', transposeElement e = .ok e' ∧ Alike e e' ∧ e'.cell = some c' ∧ Continuous e'
  | .mixed es, hs, hf => by
      rw [Standard] at hs
      rw [Continuous] at hf
      obtain ⟨es', h1, h2, h3, h4⟩ := transpose_elements hc es hs.2 hf
      exact ⟨.mixed es', by rw [transposeElement, h1, py_bind_ok], h2, by rw [Elem.cell]; exact h3 hs.1,
        by rw [Continuous]; exact h4⟩
  | .finite f d k s, hs, hf => transpose_one hc (by simp) hs hf
  | .other f d k s, hs, hf => transpose_one hc (by simp) hs hf
  | .tensor f d k s, hs, hf => transpose_one hc (by simp) hs hf
  | .vector sub n, hs, hf => transpose_one hc (by simp) hs hf
theorem transpose_elements {c c' : UCell} (hc : transposeTraceCell c = .ok c') : ∀ es : List Elem, StandardAll c es →
    ContinuousAll es → ∃ es', transposeElements es = .ok es' ∧ AlikeAll es es' ∧ (es ≠ [] → firstCell es' = some c') ∧
      ContinuousAll es'
  | [], _, _ => ⟨[], rfl, trivial, fun h => absurd rfl h, trivial⟩
  | e :: es, hs, hf => by
      obtain ⟨e', h1, h2, h3, h4⟩ := transpose_element hc e hs.1 hf.1
      obtain ⟨es', g1, g2, -, g4⟩ := transpose_elements hc es hs.2 hf.2
      exact ⟨e' :: es', by rw [transposeElements, h1, py_bind_ok, g1, py_bind_ok], ⟨h2, g2⟩, fun _ => by simp [firstCell, h3],
        h4, g4⟩
end

/-- Other families are refused. -/
theorem transpose_family_refused {f : String} (hf : f ≠ "Lagrange") (c : UCell) (d : Nat) (s : List Nat) :
    transposeElement (.finite f c d s) = .error .keyError := by
  simp [transposeElement, transposeFamily, hf]

/-- A vector with three components on a curve in the plane becomes one with two. -/
theorem transpose_vector_wrong : ∃ e e' : Elem, Natural ⟨.interval, 2⟩ e ∧ transposeElement e = .ok e' ∧ e'.shape ≠ e.shape :=
  ⟨.vector (.finite "Lagrange" ⟨.interval, 2⟩ 1 []) 3, _, ⟨rfl, Or.inl rfl⟩, rfl, by decide⟩

/-! ## Extensions -/

theorem extension_one {c : UCell} (hc : c.name = .interval) (hg : c.gdim = 2 ∨ c.gdim = 3) {e : Elem}
    (hm : ∀ es, e ≠ .mixed es) (hs : Standard c e) :
    ∃ e', extensionElement e = .ok e' ∧ Alike e e' ∧ e'.cell = some ⟨.triangle, c.gdim⟩ ∧ (Continuous e → Continuous e') := by
  obtain ⟨h0, hs⟩ := (standard_leaf hm).1 hs
  have hx : extensionCell c = .ok ⟨.triangle, c.gdim⟩ := by
    rcases hg with hg | hg <;> simp [extensionCell, UCell.tdim, hc, hg]
  obtain ⟨e', h1, h2, h3, h4, h5⟩ := build_alike (f := extensionFamily e.family) (c := ⟨.triangle, c.gdim⟩) hm hs
  refine ⟨e', ?_, h2, h3, fun hf => (continuous_leaf h5).2 ?_⟩
  · rw [extension_leaf hm, cellVia, h0]
    simp [hx, h1]
  · rw [h4, (continuous_leaf hm).1 hf]; rfl

mutual
/-- Elements on curves whose parts have the standard shapes are extended to triangles part by part, with shapes and degrees;
    continuous elements stay continuous. -/
theorem extension_element {c : UCell} (hc : c.name = .interval) (hg : c.gdim = 2 ∨ c.gdim = 3) : ∀ e : Elem, Standard c e →
    ∃ e', extensionElement e = .ok e' ∧ Alike e e' ∧ e'.cell = some ⟨.triangle, c.gdim⟩ ∧ (Continuous e → Continuous e')
  | .mixed es, hs => by
      rw [Standard] at hs
      obtain ⟨es', h1, h2, h3, h4⟩ := extension_elements hc hg es hs.2
      exact ⟨.mixed es', by rw [extensionElement, h1, py_bind_ok], h2, by rw [Elem.cell]; exact h3 hs.1,
        by rw [Continuous, Continuous]; exact h4⟩
  | .finite f d k s, hs => extension_one hc hg (by simp) hs
  | .other f d k s, hs => extension_one hc hg (by simp) hs
  | .tensor f d k s, hs => extension_one hc hg (by simp) hs
  | .vector sub n, hs => extension_one hc hg (by simp) hs
theorem extension_elements {c : UCell} (hc : c.name = .interval) (hg : c.gdim = 2 ∨ c.gdim = 3) : ∀ es : List Elem,
    StandardAll c es → ∃ es', extensionElements es = .ok es' ∧ AlikeAll es es' ∧
      (es ≠ [] → firstCell es' = some ⟨.triangle, c.gdim⟩) ∧ (ContinuousAll es → ContinuousAll es')
  | [], _ => ⟨[], rfl, trivial, fun h => absurd rfl h, id⟩
  | e :: es, hs => by
      obtain ⟨e', h1, h2, h3, h4⟩ := extension_element hc hg e hs.1
      obtain ⟨es', g1, g2, -, g4⟩ := extension_elements hc hg es hs.2
      exact ⟨e' :: es', by rw [extensionElements, h1, py_bind_ok, g1, py_bind_ok], ⟨h2, g2⟩, fun _ => by simp [firstCell, h3],
        fun h => ⟨h4 h.1, g4 h.2⟩⟩
end

/-- A vector with two components on a curve in space becomes one with three. -/
theorem extension_vector_wrong : ∃ e e' : Elem, Natural ⟨.interval, 3⟩ e ∧ extensionElement e = .ok e' ∧ e'.shape ≠ e.shape :=
  ⟨.vector (.finite "Lagrange" ⟨.interval, 3⟩ 1 []) 2, _, ⟨rfl, Or.inl rfl⟩, rfl, by decide⟩

/-! ## Point values and means -/

/-- Point values keep the shape; vectors and tensors have to be such elements. -/
theorem point_element {e e' : Elem} {c : UCell} (h : pointElement e c = .ok (some e')) : e'.shape = e.shape := by
  unfold pointElement at h
  split at h
  · rename_i hs; cases h; rw [hs]; rfl
  · rename_i n hs
    split at h
    · cases h; rw [hs]; rfl
    · cases h
  · rename_i m n hs
    split at h
    · cases h; rw [hs]; rfl
    · cases h
  · cases h

/-- For three or more axes there is no space, and no error. -/
theorem point_element_none {e : Elem} {c : UCell} (h : 3 ≤ e.shape.length) : pointElement e c = .ok none := by
  unfold pointElement
  split
  · rename_i hs; rw [hs] at h; simp at h
  · rename_i hs; rw [hs] at h; simp at h
  · rename_i hs; rw [hs] at h; simp at h
  · rfl

/-- Means are numbers; functions which are not scalar are refused. -/
theorem mean_element {e : Elem} {c : UCell} (he : e.cell = some c) :
    (e.shape = [] → ∃ e', meanElement e c = .ok e' ∧ e'.shape = [] ∧ e'.cell = some c) ∧
    (e.shape ≠ [] → meanElement e c = .error .assertion) := by
  refine ⟨fun h => ⟨.finite "Real" c 0 [], by simp [meanElement, cellVia, he, h], rfl, rfl⟩,
    fun h => by simp [meanElement, cellVia, he, h]⟩

/-- A mesh of other cells is refused. -/
theorem mean_mesh_refused {e : Elem} {c m : UCell} (he : e.cell = some c) (hm : m ≠ c) :
    meanElement e m = .error .assertion := by
  simp [meanElement, cellVia, he, hm]

/-- Means over surfaces are numbers on the cell of the facets. -/
theorem surface_mean_element {e : Elem} {c c' : UCell} (he : e.cell = some c) (hc : traceCell c = .ok c') :
    (e.shape = [] → ∃ e', surfaceMeanElement e = .ok e' ∧ e'.shape = [] ∧ e'.cell = some c') ∧
    (e.shape ≠ [] → surfaceMeanElement e = .error .assertion) := by
  refine ⟨fun h => ⟨.finite "Real" c' 0 [], by simp [surfaceMeanElement, cellVia, he, hc, h], rfl, rfl⟩,
    fun h => by simp [surfaceMeanElement, h]⟩

/-- Derivatives at points are numbers. -/
theorem gradient_point_element (e : Elem) (c : UCell) :
    (e.shape = [] → ∃ e', gradientPointElement e c = .ok e' ∧ e'.shape = [] ∧ e'.cell = some c) ∧
    (e.shape ≠ [] → gradientPointElement e c = .error .assertion) := by
  refine ⟨fun h => ⟨.finite "Real" c 0 [], by simp [gradientPointElement, h], rfl, rfl⟩,
    fun h => by simp [gradientPointElement, h]⟩

/-! ## Examples -/

/-- A mixed element: velocity, pressure, Raviart-Thomas, and a 2 × 2 tensor. -/
def exMixed : Elem :=
  .mixed [.vector (.finite "Lagrange" ⟨.triangle, 2⟩ 2 []) 2, .finite "Lagrange" ⟨.triangle, 2⟩ 1 [],
    .finite "Raviart-Thomas" ⟨.triangle, 2⟩ 1 [2], .tensor "Discontinuous Lagrange" ⟨.triangle, 2⟩ 0 [2, 2]]

example : ∃ e', traceElement exMixed = .ok e' ∧ e'.shape = [9] ∧ e'.degree = 2 ∧ e'.cell = some ⟨.interval, 2⟩ := by
  have := trace_shape_partial (c := ⟨.triangle, 2⟩) (c' := ⟨.interval, 2⟩) rfl (e := exMixed)
    ⟨by simp, ⟨rfl, Or.inl rfl⟩, ⟨rfl, Or.inl rfl⟩, ⟨rfl, Or.inr (Or.inl rfl)⟩, ⟨rfl, rfl⟩, trivial⟩
    ⟨trivial, trivial, trivial, rfl, trivial⟩
  exact this

example : ∃ e', averageElement (.finite "Raviart-Thomas" ⟨.tetrahedron, 3⟩ 2 [3]) ⟨.interval, 3⟩ = .ok e' ∧ e'.shape = [3] ∧ e'.degree = 2 ∧
    e'.cell = some ⟨.interval, 3⟩ :=
  average_element (c := ⟨.tetrahedron, 3⟩) rfl rfl (Or.inr (Or.inl rfl))

example : ∃ e', fluxElement (.vector (.finite "Lagrange" ⟨.tetrahedron, 3⟩ 2 []) 3) ⟨.interval, 3⟩ = .ok e' ∧ e'.shape = [] ∧ e'.degree = 2 ∧
    e'.cell = some ⟨.interval, 3⟩ :=
  (flux_element (c := ⟨.tetrahedron, 3⟩) rfl rfl).1 3 rfl

/-- On a curve: displacement and multiplier. -/
def exLine (gdim : Nat) : Elem :=
  .mixed [.vector (.finite "Lagrange" ⟨.interval, gdim⟩ 2 []) gdim, .finite "Lagrange" ⟨.interval, gdim⟩ 1 []]

example : ∃ e', extensionElement (exLine 3) = .ok e' ∧ Alike (exLine 3) e' ∧ e'.cell = some ⟨.triangle, 3⟩ ∧
    (Continuous (exLine 3) → Continuous e') :=
  extension_element (c := ⟨.interval, 3⟩) rfl (Or.inr rfl) (exLine 3)
    ⟨by simp, ⟨rfl, Or.inr (Or.inl rfl)⟩, ⟨rfl, Or.inl rfl⟩, trivial⟩

example : ∃ e', transposeElement (exLine 2) = .ok e' ∧ Alike (exLine 2) e' ∧ e'.cell = some ⟨.triangle, 2⟩ ∧ Continuous e' :=
  transpose_element (c := ⟨.interval, 2⟩) rfl (exLine 2)
    ⟨by simp, ⟨rfl, Or.inr (Or.inl rfl)⟩, ⟨rfl, Or.inl rfl⟩, trivial⟩ ⟨rfl, rfl, trivial⟩

example : pointElement (.vector (.finite "Lagrange" ⟨.triangle, 2⟩ 2 []) 2) ⟨.triangle, 2⟩ =
    .ok (some (.vector (.finite "Real" ⟨.triangle, 2⟩ 0 []) 2)) := rfl

end Verif.Elements
