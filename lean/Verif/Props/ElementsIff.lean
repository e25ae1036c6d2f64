import Verif.Props.Elements
/-!
# C61: exactly which functions keep their shape

For all elements, nested in any way.
-/
namespace Verif.Elements
open Verif BlockOps

theorem build_only {n : Nat} {f : String} {c : UCell} {d : Nat} {e : Elem} (h : build n f c d = .ok e) :
    e.shape = [] ∨ e.shape = [c.gdim] ∨ e.shape = [c.gdim, c.gdim] := by
  match n, h with
  | 0, h => cases h; exact Or.inl rfl
  | 1, h => cases h; exact Or.inr (Or.inl rfl)
  | 2, h => cases h; exact Or.inr (Or.inr rfl)
  | n + 3, h => cases h

theorem build_returns_iff {n : Nat} {f : String} {c : UCell} {d : Nat} : (∃ e, build n f c d = .ok e) ↔ n ≤ 2 := by
  match n with
  | 0 => simp [build]
  | 1 => simp [build]
  | 2 => simp [build]
  | n + 3 => simp [build]

/-! ## Averages -/

/-- The average of a function is defined exactly for functions on tetrahedra, meshes of intervals with as many coordinates and
    values of rank two at most; mixed functions are vectors. -/
theorem average_returns_iff {e : Elem} {c m : UCell} (he : e.cell = some c) :
    (∃ e', averageElement e m = .ok e') ↔ c.name = .tetrahedron ∧ m = ⟨.interval, c.gdim⟩ ∧ e.shape.length ≤ 2 := by
  obtain ⟨n, g⟩ := c
  rw [averageElement, cellVia, he]
  cases n <;> simp only [averageCell, py_bind_error, py_bind_ok, reduceCtorEq, exists_false, false_and, true_and]
  by_cases hm : m = ⟨.interval, g⟩
  · simp [hm, build_returns_iff]
  · simp [hm]

/-- The average has the shape of the function exactly for scalars, and for vectors and tensors with as many components in each axis
    as there are coordinates; so the parts of a mixed function are kept together only if their numbers of components add up to
    the number of coordinates. -/
theorem average_shape_iff {c c' : UCell} (hc : averageCell c = .ok c') {e : Elem} (he : e.cell = some c) :
    (∃ e', averageElement e c' = .ok e' ∧ e'.shape = e.shape) ↔
      e.shape = [] ∨ e.shape = [c.gdim] ∨ e.shape = [c.gdim, c.gdim] := by
  constructor
  · rintro ⟨e', h, hs⟩
    rw [averageElement, cellVia, he] at h
    simp only [hc, py_bind_ok, decide_true, pyAssert_true] at h
    rw [← hs, ← (average_cell_ok hc).2]
    exact build_only h
  · intro hs
    obtain ⟨e', h1, h2, -⟩ := average_element hc he hs
    exact ⟨e', h1, h2⟩

/-- The average of a mixed function is a vector with as many components as there are coordinates, whatever the parts. -/
theorem average_mixed {c c' : UCell} (hc : averageCell c = .ok c') {es : List Elem} (he : (Elem.mixed es).cell = some c) :
    averageElement (.mixed es) c' =
      .ok (.vector (.finite "Discontinuous Lagrange" c' (Elem.mixed es).degree []) c.gdim) := by
  rw [averageElement, cellVia, he]
  simp [hc, build, Elem.shape, (average_cell_ok hc).2]

/-! ## Traces -/

mutual
theorem trace_only {c c' : UCell} (hc : traceCell c = .ok c') : ∀ e e' : Elem, Natural c e → traceElement e = .ok e' → Alike e e' →
    SquareTensors c.gdim e
  | .finite _ _ _ _, _, _, _, _ => trivial
  | .other _ _ _ _, _, _, _, _ => trivial
  | .tensor f d k s, e', hn, h, ha => by
      obtain ⟨rfl, hl⟩ := hn
      rw [traceElement, hc, py_bind_ok] at h
      have hb := build_only h
      have hs : s = e'.shape := ha.1
      rw [← hs, (trace_cell_ok hc).2] at hb
      rcases hb with rfl | rfl | hb
      · simp at hl
      · simp at hl
      · exact hb
  | .vector sub n, e', hn, h, ha => by
      rw [traceElement] at h
      obtain ⟨e1, h1, h2⟩ := py_bind_eq_ok.1 h
      cases h2
      exact trace_only hc sub e1 hn h1 ha.2
  | .mixed subs, e', hn, h, ha => by
      rw [traceElement] at h
      obtain ⟨es, h1, h2⟩ := py_bind_eq_ok.1 h
      cases h2
      exact traces_only hc subs es hn.2 h1 ha
theorem traces_only {c c' : UCell} (hc : traceCell c = .ok c') : ∀ es es' : List Elem, NaturalAll c es → traceElements es = .ok es' →
    AlikeAll es es' → SquareTensorsAll c.gdim es
  | [], _, _, _, _ => trivial
  | e :: es, es', hn, h, ha => by
      rw [traceElements] at h
      obtain ⟨e1, h1, h2⟩ := py_bind_eq_ok.1 h
      obtain ⟨es1, h3, h4⟩ := py_bind_eq_ok.1 h2
      cases h4
      exact ⟨trace_only hc e e1 hn.1 h1 ha.1, traces_only hc es es1 hn.2 h3 ha.2⟩
end

/-- The trace of a function on triangles or tetrahedra has the same parts, with the same shapes and degrees, exactly if all tensor
    elements in it have as many rows and columns as there are coordinates. -/
theorem trace_alike_iff {c c' : UCell} (hc : traceCell c = .ok c') {e : Elem} (hn : Natural c e) :
    (∃ e', traceElement e = .ok e' ∧ Alike e e') ↔ SquareTensors c.gdim e := by
  constructor
  · rintro ⟨e', h, ha⟩
    exact trace_only hc e e' hn h ha
  · intro ht
    obtain ⟨e', h1, h2, -⟩ := trace_element hc e hn ht
    exact ⟨e', h1, h2⟩

/-! ## Extensions -/

theorem onCell_leaf {c : UCell} {e : Elem} (hm : ∀ es, e ≠ .mixed es) : OnCell c e ↔ e.cell = some c := by
  cases e with
  | mixed es => exact absurd rfl (hm es)
  | _ => rw [OnCell]; simp

theorem extension_only_one {c : UCell} (hc : c.name = .interval) (hg : c.gdim = 2 ∨ c.gdim = 3) {e e' : Elem}
    (hm : ∀ es, e ≠ .mixed es) (ho : OnCell c e) (h : extensionElement e = .ok e') (ha : Alike e e') : Standard c e := by
  have ho := (onCell_leaf hm).1 ho
  refine (standard_leaf hm).2 ⟨ho, ?_⟩
  rw [extension_leaf hm, cellVia, ho] at h
  obtain ⟨c1, h1, h⟩ := py_bind_eq_ok.1 h
  have h1 : c1.gdim = c.gdim := by
    have h2 : extensionCell c = .ok c1 := h1
    rw [extensionCell] at h2
    obtain ⟨_, -, h2⟩ := py_bind_eq_ok.1 h2
    obtain ⟨_, -, h2⟩ := py_bind_eq_ok.1 h2
    cases h2
    rfl
  rw [(alike_shape e e' ha).1, ← h1]
  exact build_only h

mutual
theorem extension_only {c : UCell} (hc : c.name = .interval) (hg : c.gdim = 2 ∨ c.gdim = 3) : ∀ e e' : Elem, OnCell c e →
    extensionElement e = .ok e' → Alike e e' → Standard c e
  | .mixed es, e', ho, h, ha => by
      rw [OnCell] at ho
      rw [extensionElement] at h
      obtain ⟨es', h1, h2⟩ := py_bind_eq_ok.1 h
      cases h2
      rw [Standard]
      exact ⟨ho.1, extensions_only hc hg es es' ho.2 h1 ha⟩
  | .finite _ _ _ _, _, ho, h, ha => extension_only_one hc hg (by simp) ho h ha
  | .other _ _ _ _, _, ho, h, ha => extension_only_one hc hg (by simp) ho h ha
  | .tensor _ _ _ _, _, ho, h, ha => extension_only_one hc hg (by simp) ho h ha
  | .vector _ _, _, ho, h, ha => extension_only_one hc hg (by simp) ho h ha
theorem extensions_only {c : UCell} (hc : c.name = .interval) (hg : c.gdim = 2 ∨ c.gdim = 3) : ∀ es es' : List Elem, OnCellAll c es →
    extensionElements es = .ok es' → AlikeAll es es' → StandardAll c es
  | [], _, _, _, _ => trivial
  | e :: es, es', ho, h, ha => by
      rw [extensionElements] at h
      obtain ⟨e1, h1, h2⟩ := py_bind_eq_ok.1 h
      obtain ⟨es1, h3, h4⟩ := py_bind_eq_ok.1 h2
      cases h4
      exact ⟨extension_only hc hg e e1 ho.1 h1 ha.1, extensions_only hc hg es es1 ho.2 h3 ha.2⟩
end

/-- The extension of a function on a curve has the same parts, with the same shapes and degrees, exactly if all vectors and tensors in
    it have as many components in each axis as there are coordinates. -/
theorem extension_alike_iff {c : UCell} (hc : c.name = .interval) (hg : c.gdim = 2 ∨ c.gdim = 3) {e : Elem} (ho : OnCell c e) :
    (∃ e', extensionElement e = .ok e' ∧ Alike e e') ↔ Standard c e := by
  constructor
  · rintro ⟨e', h, ha⟩
    exact extension_only hc hg e e' ho h ha
  · intro hs
    obtain ⟨e', h1, h2, -⟩ := extension_element hc hg e hs
    exact ⟨e', h1, h2⟩

/-! ## Transposed traces -/

theorem transpose_only_one {c c' : UCell} (hc : transposeTraceCell c = .ok c') {e e' : Elem}
    (hm : ∀ es, e ≠ .mixed es) (ho : OnCell c e) (h : transposeElement e = .ok e') (ha : Alike e e') :
    Standard c e ∧ Continuous e := by
  have ho := (onCell_leaf hm).1 ho
  rw [transpose_leaf hm, cellVia, ho] at h
  obtain ⟨f, hf, h⟩ := py_bind_eq_ok.1 h
  obtain ⟨c1, h1, h⟩ := py_bind_eq_ok.1 h
  have h2 : transposeTraceCell c = .ok c1 := h1
  rw [hc] at h2
  cases h2
  constructor
  · refine (standard_leaf hm).2 ⟨ho, ?_⟩
    rw [(alike_shape e e' ha).1, (trace_cell_ok (transpose_cell_inverse.2 hc).1).2]
    exact build_only h
  · refine (continuous_leaf hm).2 ?_
    by_contra hn
    simp [transposeFamily, hn] at hf

mutual
theorem transpose_only {c c' : UCell} (hc : transposeTraceCell c = .ok c') : ∀ e e' : Elem, OnCell c e →
    transposeElement e = .ok e' → Alike e e' → Standard c e ∧ Continuous e
  | .mixed es, e', ho, h, ha => by
      rw [OnCell] at ho
      rw [transposeElement] at h
      obtain ⟨es', h1, h2⟩ := py_bind_eq_ok.1 h
      cases h2
      rw [Standard, Continuous]
      have := transposes_only hc es es' ho.2 h1 ha
      exact ⟨⟨ho.1, this.1⟩, this.2⟩
  | .finite _ _ _ _, _, ho, h, ha => transpose_only_one hc (by simp) ho h ha
  | .other _ _ _ _, _, ho, h, ha => transpose_only_one hc (by simp) ho h ha
  | .tensor _ _ _ _, _, ho, h, ha => transpose_only_one hc (by simp) ho h ha
  | .vector _ _, _, ho, h, ha => transpose_only_one hc (by simp) ho h ha
theorem transposes_only {c c' : UCell} (hc : transposeTraceCell c = .ok c') : ∀ es es' : List Elem, OnCellAll c es →
    transposeElements es = .ok es' → AlikeAll es es' → StandardAll c es ∧ ContinuousAll es
  | [], _, _, _, _ => ⟨trivial, trivial⟩
  | e :: es, es', ho, h, ha => by
      rw [transposeElements] at h
      obtain ⟨e1, h1, h2⟩ := py_bind_eq_ok.1 h
      obtain ⟨es1, h3, h4⟩ := py_bind_eq_ok.1 h2
      cases h4
      have a := transpose_only hc e e1 ho.1 h1 ha.1
      have b := transposes_only hc es es1 ho.2 h3 ha.2
      exact ⟨⟨a.1, b.1⟩, a.2, b.2⟩
end

/-- The transposed trace of a function has the same parts, with the same shapes and degrees, exactly if it is continuous and all
    vectors and tensors in it have as many components in each axis as there are coordinates. -/
theorem transpose_alike_iff {c c' : UCell} (hc : transposeTraceCell c = .ok c') {e : Elem} (ho : OnCell c e) :
    (∃ e', transposeElement e = .ok e' ∧ Alike e e') ↔ Standard c e ∧ Continuous e := by
  constructor
  · rintro ⟨e', h, ha⟩
    exact transpose_only hc e e' ho h ha
  · rintro ⟨hs, hf⟩
    obtain ⟨e', h1, h2, -⟩ := transpose_element hc e hs hf
    exact ⟨e', h1, h2⟩

/-! ## Examples -/

/-- Taylor-Hood on tetrahedra has four components: its average is a vector with three. -/
def exStokes : Elem :=
  .mixed [.vector (.finite "Lagrange" ⟨.tetrahedron, 3⟩ 2 []) 3, .finite "Lagrange" ⟨.tetrahedron, 3⟩ 1 []]

example : ¬ ∃ e', averageElement exStokes ⟨.interval, 3⟩ = .ok e' ∧ e'.shape = exStokes.shape := by
  rw [average_shape_iff (c := ⟨.tetrahedron, 3⟩) rfl rfl]
  decide

example : ∃ e', averageElement exStokes ⟨.interval, 3⟩ = .ok e' :=
  (average_returns_iff (c := ⟨.tetrahedron, 3⟩) rfl).2 ⟨rfl, rfl, by decide⟩

example : averageElement exStokes ⟨.interval, 3⟩ =
    .ok (.vector (.finite "Discontinuous Lagrange" ⟨.interval, 3⟩ 2 []) 3) :=
  average_mixed (c := ⟨.tetrahedron, 3⟩) rfl rfl

example : ∃ e', traceElement exStokes = .ok e' ∧ Alike exStokes e' :=
  (trace_alike_iff (c := ⟨.tetrahedron, 3⟩) (e := exStokes) rfl ⟨by simp, ⟨rfl, Or.inl rfl⟩, ⟨rfl, Or.inl rfl⟩, trivial⟩).2 ⟨trivial, trivial, trivial⟩

example : ¬ ∃ e', extensionElement (.vector (.finite "Lagrange" ⟨.interval, 3⟩ 1 []) 2) = .ok e' ∧
    Alike (.vector (.finite "Lagrange" ⟨.interval, 3⟩ 1 []) 2) e' := by
  rw [extension_alike_iff (c := ⟨.interval, 3⟩) rfl (Or.inr rfl)
    (e := .vector (.finite "Lagrange" ⟨.interval, 3⟩ 1 []) 2) rfl]
  simp [Standard, Elem.shape]

example : ∃ e', transposeElement (exLine 2) = .ok e' ∧ Alike (exLine 2) e' :=
  (transpose_alike_iff (c := ⟨.interval, 2⟩) (c' := ⟨.triangle, 2⟩) (e := exLine 2) rfl ⟨by simp, rfl, rfl, trivial⟩).2
    ⟨⟨by simp, ⟨rfl, Or.inr (Or.inl rfl)⟩, ⟨rfl, Or.inl rfl⟩, trivial⟩, rfl, rfl, trivial⟩

end Verif.Elements
