import Verif.Spec.Accept
import Verif.Props.Elements
import Verif.Props.Dispatch
import Verif.Model.PointTrace
/-!
# C105: what annotations accept

For all functions, elements and meshes.
-/
namespace Verif.Accept
open Verif Elements

/-! ## Acceptance -/

theorem traceCell_iff {c m : UCell} : traceCell c = .ok m ↔ Codim 1 c m := by
  obtain ⟨n, g⟩ := c
  obtain ⟨n', g'⟩ := m
  cases n <;> cases n' <;> simp [traceCell, Codim, Simplex, UCell.tdim] <;> grind

theorem averageCell_iff {c m : UCell} : averageCell c = .ok m ↔ Codim 2 c m := by
  obtain ⟨n, g⟩ := c
  obtain ⟨n', g'⟩ := m
  cases n <;> cases n' <;> simp [averageCell, Codim, Simplex, UCell.tdim] <;> grind

theorem patchCell_iff {c m : UCell} : patchCell c = .ok m ↔ Simplex c ∧ m.name = .interval ∧ m.gdim = c.gdim := by
  obtain ⟨n, g⟩ := c
  obtain ⟨n', g'⟩ := m
  cases n <;> cases n' <;> simp [patchCell, Simplex] <;> grind

theorem extensionCell_iff {c m : UCell} :
    extensionCell c = .ok m ↔ c.name = .interval ∧ (c.gdim = 2 ∨ c.gdim = 3) ∧ m.name = .triangle ∧ m.gdim = c.gdim := by
  obtain ⟨n, g⟩ := c
  obtain ⟨n', g'⟩ := m
  rw [extensionCell]
  constructor
  · intro h
    obtain ⟨_, h1, h⟩ := py_bind_eq_ok.1 h
    obtain ⟨_, h2, h⟩ := py_bind_eq_ok.1 h
    have h1 := pyAssert_eq_ok.1 h1
    have h2 := pyAssert_eq_ok.1 h2
    cases h
    cases n <;> simp_all [UCell.tdim]
  · rintro ⟨h1, h2, h3, h4⟩
    simp only at h1 h2 h3 h4
    subst h1 h3 h4
    rcases h2 with rfl | rfl <;> rfl

theorem transposeCell_iff {c m : UCell} : transposeTraceCell c = .ok m ↔ Codim 1 m c ∧ m.tdim ≤ m.gdim := by
  rw [← transpose_cell_inverse, traceCell_iff]

/-- A check of the cell of the function. -/
theorem cell_check {f : UCell → Py UCell} {e : Elem} {m : UCell} {P : UCell → Prop} (hf : ∀ c, f c = .ok m ↔ P c)
    {k : Py Unit} :
    (do let c ← cellVia f e
        pyAssert (c = m)
        k) = .ok () ↔ (∃ c, e.cell = some c ∧ P c) ∧ k = .ok () := by
  rw [cellVia]
  cases hc : e.cell with
  | none => simp
  | some c =>
      simp only [Option.some.injEq, exists_eq_left', ← hf]
      cases hfc : f c with
      | error x => simp
      | ok c' => by_cases h : c' = m <;> simp [h]

theorem cell_check_last {f : UCell → Py UCell} {e : Elem} {m : UCell} {P : UCell → Prop} (hf : ∀ c, f c = .ok m ↔ P c) :
    (do let c ← cellVia f e
        pyAssert (c = m)) = .ok () ↔ ∃ c, e.cell = some c ∧ P c := by
  rw [cellVia]
  cases hc : e.cell with
  | none => simp
  | some c =>
      simp only [Option.some.injEq, exists_eq_left', ← hf]
      cases hfc : f c with
      | error x => simp
      | ok c' => by_cases h : c' = m <;> simp [h]

/-- Exactly the acceptable requests for terminals are accepted. -/
theorem accept_iff (v : Fn) (r : Request) : accept v r = .ok () ↔ v.isTerminal = true ∧ Acceptable v.element r := by
  obtain ⟨b, e⟩ := v
  cases b with
  | false =>
      cases r <;> simp [accept]
      case patchAverage vertex mesh patch =>
        by_cases h1 : e.shape = [] <;> simp [h1]
        cases patch with
        | none => by_cases h2 : vertex.shape = [] <;> simp [patchDims, h2]
        | some p =>
            obtain ⟨a, d⟩ := p
            by_cases h3 : a = d <;> by_cases h2 : vertex.shape = [] <;> simp [patchDims, h2, h3]
      case mean => by_cases h1 : e.shape = [] <;> simp [h1]
  | true =>
      cases r with
      | trace restriction mesh =>
          simp only [accept, pyAssert_true, py_bind_ok, Acceptable, true_and]
          rw [cell_check (fun c => traceCell_iff)]
          simp [pyAssert_eq_ok]
      | average shape embedded mesh =>
          simp only [accept, pyAssert_true, py_bind_ok, Acceptable, true_and]
          rw [cell_check (fun c => averageCell_iff)]
          cases shape <;> cases embedded <;> simp [averageShape, pyAssert_eq_ok]
      | fluxAverage shape mesh =>
          simp only [accept, pyAssert_true, py_bind_ok, Acceptable, true_and]
          rw [cell_check (fun c => averageCell_iff)]
          simp [pyAssert_eq_ok]
      | patchAverage vertex mesh patch =>
          simp only [accept, pyAssert_true, py_bind_ok, Acceptable, true_and]
          rw [← cell_check_last (f := patchCell) (e := e) (m := mesh) (fun c => patchCell_iff)]
          generalize (do
            let c ← cellVia patchCell e
            pyAssert (c = mesh)) = k
          by_cases h1 : e.shape = [] <;> simp [h1]
          cases patch with
          | none => by_cases h2 : vertex.shape = [] <;> simp [patchDims, h2]
          | some p =>
              obtain ⟨a, d⟩ := p
              by_cases h3 : a = d <;> by_cases h2 : vertex.shape = [] <;> simp [patchDims, h2, h3]
      | mean => by_cases h1 : e.shape = [] <;> simp [accept, Acceptable, h1]
      | pointTrace point cell | gradientPointTrace point cell =>
          by_cases h : e.family = "Lagrange" ∨ e.family = "Discontinuous Lagrange" <;> cases point <;> cases cell <;>
            simp [accept, Acceptable, Point.isIndex, h]
      | surfaceMean mesh =>
          simp only [accept, pyAssert_true, py_bind_ok, Acceptable, true_and]
          exact cell_check_last (fun c => traceCell_iff)
      | restriction mesh | injection mesh =>
          simp only [accept, pyAssert_true, py_bind_ok, Acceptable, true_and]
          rw [cell_check_last (P := fun c => c = mesh) (fun c => by simp)]
          simp
      | extension mesh =>
          simp only [accept, pyAssert_true, py_bind_ok, Acceptable, true_and]
          exact cell_check_last (fun c => extensionCell_iff)
      | transposeTrace maps parents full =>
          cases maps with
          | none => simp [accept, Acceptable]
          | some ms =>
              cases full with
              | some i => simp [accept, Acceptable, fullMesh, pyAssert_eq_ok]
              | none =>
                  rcases parents with _ | ⟨i, _ | ⟨j, l⟩⟩ <;> simp [accept, Acceptable, fullMesh, pyAssert_eq_ok]

/-! ## Spaces -/

theorem build_iff {n : Nat} {f : String} {c : UCell} {d : Nat} : (∃ e, build n f c d = .ok e) ↔ n ≤ 2 := by
  match n with
  | 0 | 1 | 2 => simp [build]
  | n + 3 => simp [build]

theorem build_cell {n : Nat} {f : String} {c : UCell} {d : Nat} {e : Elem} (h : build n f c d = .ok e) : e.cell = some c := by
  match n with
  | 0 | 1 | 2 => cases h; rfl
  | n + 3 => cases h

/-- For the kinds which treat elements as a whole: an accepted function has a reduced space in the integral over the mesh of the
    annotation exactly if it is reducible. -/
theorem space_iff_partial {v : Fn} {r : Request} (hr : Whole r) (h : accept v r = .ok ()) {mesh : UCell}
    (ht : Target v.element mesh r) : (∃ e', space v.element mesh r = .ok e') ↔ Reducible v.element r := by
  have h := ((accept_iff v r).1 h).2
  obtain ⟨b, e⟩ := v
  simp only at h ht ⊢
  cases r with
  | trace | extension | transposeTrace => exact hr.elim
  | average shape embedded m =>
      obtain ⟨⟨c, hc, hm⟩, -⟩ := h
      cases (show mesh = m from ht)
      simp only [space, averageElement, cellVia, hc, averageCell_iff.2 hm, py_bind_ok, decide_true, pyAssert_true]
      exact build_iff
  | fluxAverage shape m =>
      obtain ⟨⟨c, hc, hm⟩, -⟩ := h
      cases (show mesh = m from ht)
      by_cases hs : e.shape.length = 1 <;>
        simp [space, fluxElement, cellVia, hc, averageCell_iff.2 hm, Reducible, hs]
  | patchAverage vertex m patch =>
      obtain ⟨h1, h2, -, c, hc, hm⟩ := h
      cases (show mesh = m from ht)
      simp [space, patchElement, cellVia, hc, patchCell_iff.2 hm, Reducible, h1, h2]
  | mean =>
      have hc : e.cell = some mesh := ht
      have h1 : e.shape = [] := h
      simp [space, meanElement, cellVia, hc, Reducible, h1]
  | pointTrace point cell =>
      simp only [space, Reducible]
      rw [pointElement]
      split
      · rename_i hs
        simp [someElement, hs]
      · rename_i n hs
        cases e <;> simp [someElement, hs]
      · rename_i m n hs
        cases e <;> simp [someElement, hs]
      · rename_i h0 h1 h2
        rcases hs : e.shape with _ | ⟨a, _ | ⟨b, _ | ⟨c, l⟩⟩⟩
        · exact absurd hs h0
        · exact absurd hs (h1 a)
        · exact absurd hs (h2 a b)
        · simp [someElement]
  | gradientPointTrace point cell =>
      by_cases hs : e.shape = [] <;> simp [space, gradientPointElement, Reducible, hs]
  | surfaceMean m =>
      obtain ⟨c, hc, hm⟩ := h
      cases (show mesh = m from ht)
      by_cases hs : e.shape = [] <;>
        simp [space, surfaceMeanElement, cellVia, hc, traceCell_iff.2 hm, Reducible, hs, onCell, Elem.cell]
  | restriction m | injection m =>
      have hc : e.cell = some m := h
      cases (show mesh = m from ht)
      simp [space, sameElement, cellVia, hc, Reducible]

/-- Accepted patch averages are in the space of the vertex function, restrictions and injections in spaces of the same element. -/
theorem space_kept {v : Fn} {mesh : UCell} :
    (∀ vertex patch, accept v (.patchAverage vertex mesh patch) = .ok () →
      space v.element mesh (.patchAverage vertex mesh patch) = .ok vertex) ∧
    (accept v (.restriction mesh) = .ok () → space v.element mesh (.restriction mesh) = .ok v.element) ∧
    (accept v (.injection mesh) = .ok () → space v.element mesh (.injection mesh) = .ok v.element) := by
  refine ⟨fun vertex patch h => ?_, fun h => ?_, fun h => ?_⟩ <;> have h := ((accept_iff v _).1 h).2
  · obtain ⟨h1, h2, -, c, hc, hm⟩ := h
    simp [space, patchElement, cellVia, hc, patchCell_iff.2 hm, h1, h2]
  all_goals
    have hc : v.element.cell = some mesh := h
    simp [space, sameElement, cellVia, hc]

mutual
theorem onCell_cell {c : UCell} : ∀ e : Elem, OnCell c e → e.cell = some c
  | .finite _ _ _ _, h | .other _ _ _ _, h | .tensor _ _ _ _, h => by simpa [OnCell] using h
  | .vector sub n, h => by
      simp only [OnCell] at h
      simpa [Elem.cell] using onCell_cell sub h
  | .mixed es, h => by
      simp only [OnCell] at h
      simpa [Elem.cell] using onCell_first es h.1 h.2
theorem onCell_first {c : UCell} : ∀ es : List Elem, es ≠ [] → OnCellAll c es → firstCell es = some c
  | [], h, _ => absurd rfl h
  | e :: es, _, h => by
      simp only [OnCellAll] at h
      simpa [firstCell] using onCell_cell e h.1
end

mutual
theorem trace_iff {c m : UCell} (hm : traceCell c = .ok m) : ∀ e : Elem, OnCell c e →
    ((∃ e', traceElement e = .ok e') ↔ PartRanks e) ∧ ∀ e', traceElement e = .ok e' → e'.cell = some m
  | .finite _ c' _ s, h | .other _ c' _ s, h | .tensor _ c' _ s, h => by
      have hc : c' = c := by simpa [OnCell, Elem.cell] using h
      subst hc
      simp only [traceElement, hm, py_bind_ok, PartRanks, Elem.shape]
      exact ⟨build_iff, fun e' h => build_cell h⟩
  | .vector sub n, h => by
      simp only [OnCell] at h
      obtain ⟨h1, h2⟩ := trace_iff hm sub h
      simp only [traceElement, PartRanks]
      rw [← h1]
      cases hs : traceElement sub with
      | error x => simp
      | ok e' =>
          simp only [py_bind_ok, Except.ok.injEq, exists_eq', true_and, forall_eq', Elem.cell]
          exact h2 e' hs
  | .mixed es, h => by
      simp only [OnCell] at h
      obtain ⟨h1, h2⟩ := trace_all_iff hm es h.2
      simp only [traceElement, PartRanks]
      rw [← h1]
      cases hs : traceElements es with
      | error x => simp
      | ok es' =>
          simp only [py_bind_ok, Except.ok.injEq, exists_eq', true_and, forall_eq', Elem.cell]
          exact h2 es' hs h.1
theorem trace_all_iff {c m : UCell} (hm : traceCell c = .ok m) : ∀ es : List Elem, OnCellAll c es →
    ((∃ es', traceElements es = .ok es') ↔ PartRanksAll es) ∧
      ∀ es', traceElements es = .ok es' → es ≠ [] → firstCell es' = some m
  | [], _ => by simp [traceElements, PartRanksAll]
  | e :: es, h => by
      simp only [OnCellAll] at h
      obtain ⟨h1, h2⟩ := trace_iff hm e h.1
      obtain ⟨h3, -⟩ := trace_all_iff hm es h.2
      simp only [traceElements, PartRanksAll]
      rw [← h1, ← h3]
      cases hs : traceElement e with
      | error x => simp
      | ok e' =>
          cases ht : traceElements es with
          | error x => simp
          | ok es' => simpa [firstCell] using h2 e' hs
end

/-- An accepted trace has a space exactly if all parts are scalars, vectors or matrices. -/
theorem trace_space_iff {v : Fn} {s : String} {mesh c : UCell} (h : accept v (.trace s mesh) = .ok ())
    (hc : OnCell c v.element) : (∃ e', space v.element mesh (.trace s mesh) = .ok e') ↔ PartRanks v.element := by
  obtain ⟨⟨c', h1, h2⟩, -⟩ := ((accept_iff v _).1 h).2
  have : c' = c := by simpa [onCell_cell _ hc] using h1.symm
  subst this
  obtain ⟨h3, h4⟩ := trace_iff (traceCell_iff.2 h2) v.element hc
  rw [← h3, space]
  cases ht : traceElement v.element with
  | error x => simp
  | ok e' => simp [onCell, h4 e' ht]

mutual
theorem extension_iff {c m : UCell} (hm : extensionCell c = .ok m) : ∀ e : Elem, OnCell c e →
    ((∃ e', extensionElement e = .ok e') ↔ LeafRanks e) ∧ ∀ e', extensionElement e = .ok e' → e'.cell = some m
  | .finite f c' d s, h | .other f c' d s, h | .tensor f c' d s, h => by
      have hc := onCell_cell _ h
      rw [extension_leaf (by simp), cellVia, hc]
      simp only [hm, py_bind_ok, LeafRanks]
      exact ⟨build_iff, fun e' h => build_cell h⟩
  | .vector sub n, h => by
      have hc := onCell_cell _ h
      rw [extension_leaf (by simp), cellVia, hc]
      simp only [hm, py_bind_ok, LeafRanks]
      exact ⟨build_iff, fun e' h => build_cell h⟩
  | .mixed es, h => by
      simp only [OnCell] at h
      obtain ⟨h1, h2⟩ := extension_all_iff hm es h.2
      simp only [extensionElement, LeafRanks]
      rw [← h1]
      cases hs : extensionElements es with
      | error x => simp
      | ok es' =>
          simp only [py_bind_ok, Except.ok.injEq, exists_eq', true_and, forall_eq', Elem.cell]
          exact h2 es' hs h.1
theorem extension_all_iff {c m : UCell} (hm : extensionCell c = .ok m) : ∀ es : List Elem, OnCellAll c es →
    ((∃ es', extensionElements es = .ok es') ↔ LeafRanksAll es) ∧
      ∀ es', extensionElements es = .ok es' → es ≠ [] → firstCell es' = some m
  | [], _ => by simp [extensionElements, LeafRanksAll]
  | e :: es, h => by
      simp only [OnCellAll] at h
      obtain ⟨h1, h2⟩ := extension_iff hm e h.1
      obtain ⟨h3, -⟩ := extension_all_iff hm es h.2
      simp only [extensionElements, LeafRanksAll]
      rw [← h1, ← h3]
      cases hs : extensionElement e with
      | error x => simp
      | ok e' =>
          cases ht : extensionElements es with
          | error x => simp
          | ok es' => simpa [firstCell] using h2 e' hs
end

/-- An accepted extension has a space exactly if all parts are scalars, vectors or matrices. -/
theorem extension_space_iff {v : Fn} {mesh c : UCell} (h : accept v (.extension mesh) = .ok ()) (hc : OnCell c v.element) :
    (∃ e', space v.element mesh (.extension mesh) = .ok e') ↔ LeafRanks v.element := by
  obtain ⟨c', h1, h2⟩ := ((accept_iff v _).1 h).2
  have : c' = c := by simpa [onCell_cell _ hc] using h1.symm
  subst this
  obtain ⟨h3, h4⟩ := extension_iff (extensionCell_iff.2 h2) v.element hc
  rw [← h3, space]
  cases ht : extensionElement v.element with
  | error x => simp
  | ok e' => simp [onCell, h4 e' ht]

theorem transpose_leaf_cases {f : String} {n d : Nat} {m : UCell} :
    ((∃ e', (do let f ← transposeFamily f; let c ← (.ok m : Py UCell); build n f c d) = .ok e') ↔ f = "Lagrange" ∧ n ≤ 2) ∧
      ∀ e', (do let f ← transposeFamily f; let c ← (.ok m : Py UCell); build n f c d) = .ok e' → e'.cell = some m := by
  by_cases hf : f = "Lagrange"
  · simp only [transposeFamily, hf, if_true, py_bind_ok, true_and]
    exact ⟨build_iff, fun e' h => build_cell h⟩
  · simp [transposeFamily, hf]

mutual
theorem transpose_iff {c m : UCell} (hm : transposeTraceCell c = .ok m) : ∀ e : Elem, OnCell c e →
    ((∃ e', transposeElement e = .ok e') ↔ Elements.Continuous e ∧ LeafRanks e) ∧ ∀ e', transposeElement e = .ok e' → e'.cell = some m
  | .finite f c' d s, h | .other f c' d s, h | .tensor f c' d s, h => by
      have hc := onCell_cell _ h
      rw [transpose_leaf (by simp), cellVia, hc]
      simp only [hm, LeafRanks, Elements.Continuous]
      exact transpose_leaf_cases
  | .vector sub n, h => by
      have hc := onCell_cell _ h
      rw [transpose_leaf (by simp), cellVia, hc]
      simp only [hm, LeafRanks, Elements.Continuous]
      exact transpose_leaf_cases
  | .mixed es, h => by
      simp only [OnCell] at h
      obtain ⟨h1, h2⟩ := transpose_all_iff hm es h.2
      simp only [transposeElement, LeafRanks, Elements.Continuous]
      rw [← h1]
      cases hs : transposeElements es with
      | error x => simp
      | ok es' =>
          simp only [py_bind_ok, Except.ok.injEq, exists_eq', true_and, forall_eq', Elem.cell]
          exact h2 es' hs h.1
theorem transpose_all_iff {c m : UCell} (hm : transposeTraceCell c = .ok m) : ∀ es : List Elem, OnCellAll c es →
    ((∃ es', transposeElements es = .ok es') ↔ ContinuousAll es ∧ LeafRanksAll es) ∧
      ∀ es', transposeElements es = .ok es' → es ≠ [] → firstCell es' = some m
  | [], _ => by simp [transposeElements, LeafRanksAll, ContinuousAll]
  | e :: es, h => by
      simp only [OnCellAll] at h
      obtain ⟨h1, h2⟩ := transpose_iff hm e h.1
      obtain ⟨h3, -⟩ := transpose_all_iff hm es h.2
      simp only [transposeElements, LeafRanksAll, ContinuousAll]
      rw [and_and_and_comm, ← h1, ← h3]
      cases hs : transposeElement e with
      | error x => simp
      | ok e' =>
          cases ht : transposeElements es with
          | error x => simp
          | ok es' => simpa [firstCell] using h2 e' hs
end

theorem transpose_refused {c : UCell} {x : PyErr} (hx : transposeTraceCell c = .error x) : ∀ e e' : Elem, OnCell c e → transposeElement e ≠ .ok e'
  | .finite f c' d s, e', h | .other f c' d s, e', h | .tensor f c' d s, e', h => by
      rw [transpose_leaf (by simp), cellVia, onCell_cell _ h]
      simp only [hx]
      intro he
      obtain ⟨_, -, he⟩ := py_bind_eq_ok.1 he
      cases he
  | .vector sub n, e', h => by
      rw [transpose_leaf (by simp), cellVia, onCell_cell _ h]
      simp only [hx]
      intro he
      obtain ⟨_, -, he⟩ := py_bind_eq_ok.1 he
      cases he
  | .mixed [], e', h => by simp [OnCell] at h
  | .mixed (e :: es), e', h => by
      simp only [OnCell, OnCellAll] at h
      intro he
      simp only [transposeElement, transposeElements] at he
      obtain ⟨_, he, -⟩ := py_bind_eq_ok.1 he
      obtain ⟨e1, he, -⟩ := py_bind_eq_ok.1 he
      exact transpose_refused hx e e1 h.2.1 he

/-- A transposed trace has a space on the mesh exactly if all parts of the function are continuous and scalars, vectors or matrices, and its
    cells are the facets of the mesh.  None of this is asked when it is annotated. -/
theorem transpose_space_iff {e : Elem} {c mesh : UCell} (hc : OnCell c e) (maps : Option (List Nat)) (parents : List Nat) (full : Option Nat) :
    (∃ e', space e mesh (.transposeTrace maps parents full) = .ok e') ↔
      Elements.Continuous e ∧ LeafRanks e ∧ Codim 1 mesh c ∧ mesh.tdim ≤ mesh.gdim := by
  rw [← transposeCell_iff, space]
  cases hm : transposeTraceCell c with
  | error x =>
      cases ht : transposeElement e with
      | error x => simp
      | ok e' => exact absurd ht (transpose_refused hm e e' hc)
  | ok m =>
      obtain ⟨h1, h2⟩ := transpose_iff hm e hc
      rw [← and_assoc, ← h1]
      cases ht : transposeElement e with
      | error x => simp
      | ok e' =>
          have hcell := h2 e' ht
          by_cases h : m = mesh <;> simp [onCell, hcell, h]

/-- A mixed function with a scalar and a vector part on the boundary of a mesh of triangles. -/
example : ∃ e', space (.mixed [.finite "Lagrange" ⟨.interval, 2⟩ 1 [], .vector (.finite "Lagrange" ⟨.interval, 2⟩ 2 []) 2]) ⟨.triangle, 2⟩
    (.transposeTrace none [] none) = .ok e' :=
  (transpose_space_iff (c := ⟨.interval, 2⟩) (by simp [OnCell, OnCellAll, Elem.cell]) _ _ _).2
    (by simp [Elements.Continuous, ContinuousAll, LeafRanks, LeafRanksAll, Elem.family, Elem.shape, Codim, Simplex, UCell.tdim])

/-! ## What is accepted and cannot be reduced -/

/-- For seven kinds there are functions which are accepted, by annotations to the mesh of the integral, without a reduced space. -/
theorem accepted_without_space :
    (∃ v m, accept v (.surfaceMean m) = .ok () ∧ ∀ e', space v.element m (.surfaceMean m) ≠ .ok e') ∧
    (∃ v m, accept v (.fluxAverage true m) = .ok () ∧ ∀ e', space v.element m (.fluxAverage true m) ≠ .ok e') ∧
    (∃ v m, accept v (.average true false m) = .ok () ∧ ∀ e', space v.element m (.average true false m) ≠ .ok e') ∧
    (∃ v m, accept v (.trace "" m) = .ok () ∧ ∀ e', space v.element m (.trace "" m) ≠ .ok e') ∧
    (∃ v m p c, v.element.cell = some m ∧ accept v (.gradientPointTrace p c) = .ok () ∧
      ∀ e', space v.element m (.gradientPointTrace p c) ≠ .ok e') ∧
    (∃ v m p c, v.element.cell = some m ∧ accept v (.pointTrace p c) = .ok () ∧ ∀ e', space v.element m (.pointTrace p c) ≠ .ok e') ∧
    (∃ v, accept v (.transposeTrace (some [0]) [0] none) = .ok () ∧
      ∀ m e', space v.element m (.transposeTrace (some [0]) [0] none) ≠ .ok e') := by
  refine ⟨⟨⟨true, .vector (.finite "Lagrange" ⟨.triangle, 2⟩ 1 []) 2⟩, ⟨.interval, 2⟩, rfl, fun e' h => by cases h⟩,
    ⟨⟨true, .finite "Lagrange" ⟨.tetrahedron, 3⟩ 1 []⟩, ⟨.interval, 3⟩, rfl, fun e' h => by cases h⟩,
    ⟨⟨true, .tensor "Lagrange" ⟨.tetrahedron, 3⟩ 1 [3, 3, 3]⟩, ⟨.interval, 3⟩, rfl, fun e' h => by cases h⟩,
    ⟨⟨true, .tensor "Lagrange" ⟨.triangle, 2⟩ 1 [2, 2, 2]⟩, ⟨.interval, 2⟩, rfl, fun e' h => ?_⟩,
    ⟨⟨true, .vector (.finite "Lagrange" ⟨.triangle, 2⟩ 1 []) 2⟩, ⟨.triangle, 2⟩, .index 0, .index 0, rfl, rfl, fun e' h => by cases h⟩,
    ⟨⟨true, .vector (.vector (.finite "Lagrange" ⟨.triangle, 2⟩ 1 []) 2) 2⟩, ⟨.triangle, 2⟩, .index 0, .index 0, rfl, rfl,
      fun e' h => by cases h⟩,
    ⟨⟨true, .finite "Discontinuous Lagrange" ⟨.interval, 2⟩ 0 []⟩, rfl, fun m e' h => ?_⟩⟩
  · simp [space, traceElement, traceCell, build] at h
  · simp [space, transposeElement, transposeFamily] at h

section points
open PointTrace DofMat
variable {K P : Type}

/-- The point handed on by the annotation: an index stays one, whatever else is given has some length. -/
def Handed : Point → Pt P → Prop
  | .index i, pt => pt = .index i
  | .coords, pt => ∃ len x, pt = .coords len x

/-- Point values of Lagrange functions, whenever they are accepted, are never assembled: the matrix needs coordinates, the
    annotation an index. -/
theorem point_lagrange_raises [AddCommMonoid K] [DecidableEq K] {v : Fn} {p c : Point} (h : accept v (.pointTrace p c) = .ok ())
    (hL : v.element.family = "Lagrange") {pt : Pt P} (hp : Handed p pt) (C : Checks) (hC : C.cg = decide (v.element.family = "Lagrange"))
    (api : Api) (V : Space K (P × Nat)) (compDofs : Nat → Nat → List Nat) (TV : PointTrace.Real) (collide : P → Nat)
    (collisions : P → List Nat) (verts : List P) (cell : Option Nat) :
    ∀ T, pointTraceMat C api V compDofs TV collide collisions verts pt cell ≠ .ok T := by
  obtain ⟨-, ⟨i, rfl⟩, -⟩ := ((accept_iff v _).1 h).2
  cases (show pt = .index i from hp)
  intro T hT
  rw [pointTraceMat] at hT
  obtain ⟨_, -, hT⟩ := py_bind_eq_ok.1 hT
  obtain ⟨_, -, hT⟩ := py_bind_eq_ok.1 hT
  obtain ⟨_, -, hT⟩ := py_bind_eq_ok.1 hT
  simp [hC, hL, atPoint] at hT

/-- Derivatives at points of Lagrange functions are accepted and never assembled. -/
theorem gradient_lagrange_raises [CommRing K] [DecidableEq K] {v : Fn} (hL : v.element.family = "Lagrange")
    (C : Checks) (hC : C.cg = decide (v.element.family = "Lagrange")) (V : Space K (P × Nat)) (grad : Nat → Nat → P → Nat → K)
    (tau : Nat → Nat → K) (TV : PointTrace.Real) (collisions : P → List Nat) (verts : List P) (pt : Pt P) (cell : Option Nat) :
    (∀ i j, v.isTerminal = true → accept v (.gradientPointTrace (.index i) (.index j)) = .ok ()) ∧
    ∀ T, gradientMat C V grad tau TV collisions verts pt cell ≠ .ok T := by
  refine ⟨fun i j ht => (accept_iff v _).2 ⟨ht, Or.inl hL, ⟨i, rfl⟩, j, rfl⟩, fun T hT => ?_⟩
  rw [gradientMat] at hT
  obtain ⟨_, -, hT⟩ := py_bind_eq_ok.1 hT
  obtain ⟨_, -, hT⟩ := py_bind_eq_ok.1 hT
  obtain ⟨_, -, hT⟩ := py_bind_eq_ok.1 hT
  simp [hC, hL] at hT

/-- A Lagrange function whose point value is accepted. -/
example : accept ⟨true, .finite "Lagrange" ⟨.triangle, 2⟩ 1 []⟩ (.pointTrace (.index 3) (.index 1)) = .ok () ∧
    Handed (P := Nat) (.index 3) (.index 3) := ⟨rfl, rfl⟩

end points

section extensions
open Ufl BlockOps BlockForm Reduced Dispatch
variable {S K D : Type} [DecidableEq S] [CommRing K] [AddCommGroup D] [Module K D]

/-- Extensions are never taken: the module is commented out of the tuple (xii_assembly.py:34).  Forms with no other annotations, in which
    no function has one dimension more than the integral, go to dolfin with the functions as they are. -/
theorem extension_ignored (sem : Sem S K D) (order : List (Term S) → List (Term S)) (W : World S) (O : Ops S K) (fuel : Nat)
    (env : Env S K) (F : List (Integral S))
    (hext : ∀ I ∈ F, ∀ t ∈ terms I.integrand, ∀ a, (t.attr a).isSome = true → a = "extension_")
    (hdim : ∀ I ∈ F, ∀ t ∈ terms I.integrand, W.tdim t.base ≠ W.idim I.rest + 1) :
    assemble sem order (assemblers W O) (fuel + 1) env F = (arguments F >>= dfAssemble sem env F) := by
  refine assemble_ignores_unrecognised sem _ order fuel env F (fun m hm I hI => ?_)
  obtain ⟨k, rfl⟩ := mem_assemblers.1 hm
  change selects W k I.rest I.integrand = false
  by_cases h3 : k = .surfaceMean
  · subst h3
    simp only [selects, Bool.and_eq_false_imp]
    intro _
    rw [List.any_eq_false]
    intro t ht
    have := hdim I hI t (mem_uniqueTerms ht)
    simp only [decide_eq_true_eq]
    omega
  · refine not_selects h3 ?_
    rintro ⟨t, ht, hh⟩
    have := hext I hI t ht k.attr hh
    cases k <;> simp [Kind.attr] at this

/-- The test function on a line, extended to a surface, in an integral over the surface. -/
example (sem : Sem Nat K D) (order : List (Term Nat) → List (Term Nat)) (O : Ops Nat K) (env : Env Nat K) :
    let W : World Nat := ⟨fun _ => 1, fun _ => some 0, fun _ => true, fun _ => 2, fun _ => 1, fun _ => 1⟩
    let F : List (Integral Nat) := [⟨.term ⟨.argument 0 0, [("extension_", 5)]⟩, 0⟩]
    assemble sem order (assemblers W O) 1 env F = (arguments F >>= dfAssemble sem env F) := by
  intro W F
  refine extension_ignored sem order W O 0 env F ?_ ?_
  · intro I hI t ht a ha
    simp only [F, List.mem_singleton] at hI
    subst hI
    simp only [terms, List.mem_singleton] at ht
    subst ht
    simp only [Term.attr, List.lookup] at ha
    split at ha
    · rename_i h; simpa using h
    · cases ha
  · intro I _ t _
    simp [W]

end extensions

/-! ## Examples -/

/-- A mixed function with a vector and a scalar part. -/
def exStokes : Elem := .mixed [.vector (.finite "Lagrange" ⟨.triangle, 2⟩ 2 []) 2, .finite "Lagrange" ⟨.triangle, 2⟩ 1 []]

example : accept ⟨true, exStokes⟩ (.trace "jump" ⟨.interval, 2⟩) = .ok () ∧ OnCell ⟨.triangle, 2⟩ exStokes ∧
    ∃ e', space exStokes ⟨.interval, 2⟩ (.trace "jump" ⟨.interval, 2⟩) = .ok e' := by
  have h1 : accept ⟨true, exStokes⟩ (.trace "jump" ⟨.interval, 2⟩) = .ok () := rfl
  have h2 : OnCell ⟨.triangle, 2⟩ exStokes := by simp [exStokes, OnCell, OnCellAll, Elem.cell]
  exact ⟨h1, h2, (trace_space_iff h1 h2).2 (by simp [exStokes, PartRanks, PartRanksAll, Elem.shape])⟩

/-- A discontinuous function on a triangle, with values at the vertices of a line. -/
example : accept ⟨true, .finite "Discontinuous Lagrange" ⟨.triangle, 2⟩ 0 []⟩
    (.patchAverage (.finite "Lagrange" ⟨.interval, 2⟩ 1 []) ⟨.interval, 2⟩ (some (2, 2))) = .ok () := rfl

example : ∃ e', space (.vector (.finite "Lagrange" ⟨.tetrahedron, 3⟩ 1 []) 3) ⟨.interval, 3⟩ (.average true false ⟨.interval, 3⟩) = .ok e' :=
  (space_iff_partial (v := ⟨true, _⟩) (r := .average true false ⟨.interval, 3⟩) trivial rfl rfl).2 (by simp [Reducible, Elem.shape])

end Verif.Accept
