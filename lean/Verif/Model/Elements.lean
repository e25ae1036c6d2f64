import Verif.Model.BlockOps
/-!
# Elements of reduced functions

`*_cell`, `*_element` and `*_space` in xii/assembler/*_form.py.  Elements of UFL are modelled by the classes `FiniteElement`,
`VectorElement`, `TensorElement`, `MixedElement`; other classes (`EnrichedElement`, ...) are `other`.
-/
namespace Verif.Elements
open Verif BlockOps

/-- `cellname()`. -/
inductive CellName where
  | interval | triangle | tetrahedron | quadrilateral | hexahedron
  deriving DecidableEq

/-- `ufl.Cell`. -/
structure UCell where
  name : CellName
  gdim : Nat
  deriving DecidableEq

/-- `topological_dimension()`. -/
def UCell.tdim (c : UCell) : Nat :=
  match c.name with
  | .interval => 1
  | .triangle | .quadrilateral => 2
  | .tetrahedron | .hexahedron => 3

/-- Elements: `finite` and `other` with their value shape, `vector` with the sub element and the number of components, `tensor`
    (of scalar elements) with its shape. -/
inductive Elem where
  | finite (family : String) (cell : UCell) (degree : Nat) (shape : List Nat)
  | other (family : String) (cell : UCell) (degree : Nat) (shape : List Nat)
  | tensor (family : String) (cell : UCell) (degree : Nat) (shape : List Nat)
  | vector (sub : Elem) (n : Nat)
  | mixed (subs : List Elem)

/-- Product of the extents. -/
def size (shape : List Nat) : Nat := shape.foldr (· * ·) 1

mutual
/-- `value_shape()`. -/
def Elem.shape : Elem → List Nat
  | .finite _ _ _ s | .other _ _ _ s | .tensor _ _ _ s => s
  | .vector sub n => n :: sub.shape
  | .mixed subs => [sizes subs]
/-- Sum of the `value_size()`. -/
def sizes : List Elem → Nat
  | [] => 0
  | e :: es => size e.shape + sizes es
end

mutual
/-- `degree()`; for mixed elements the maximum. -/
def Elem.degree : Elem → Nat
  | .finite _ _ d _ | .other _ _ d _ | .tensor _ _ d _ => d
  | .vector sub _ => sub.degree
  | .mixed subs => degrees subs
/-- Maximum of the degrees. -/
def degrees : List Elem → Nat
  | [] => 0
  | e :: es => max e.degree (degrees es)
end

mutual
/-- `cell()`; `none` for an empty mixed element. -/
def Elem.cell : Elem → Option UCell
  | .finite _ c _ _ | .other _ c _ _ | .tensor _ c _ _ => some c
  | .vector sub _ => sub.cell
  | .mixed subs => firstCell subs
/-- Cell of the first element. -/
def firstCell : List Elem → Option UCell
  | [] => none
  | e :: _ => e.cell
end

/-- `family()`. -/
def Elem.family : Elem → String
  | .finite f _ _ _ | .other f _ _ _ | .tensor f _ _ _ => f
  | .vector sub _ => sub.family
  | .mixed _ => "Mixed"

/-- `trace_cell` of a cell, trace_form.py:23-27. -/
def traceCell (c : UCell) : Py UCell :=
  match c.name with
  | .tetrahedron => .ok ⟨.triangle, c.gdim⟩
  | .triangle => .ok ⟨.interval, c.gdim⟩
  | _ => .error .keyError

/-- `ufl.Cell(name, gdim)`: refused if the cell has more dimensions than the space (the exception of UFL is a `runtimeError` here).
    The cells found by `trace_cell` and `average_cell` have fewer dimensions than a cell which exists, so they are built directly. -/
def mkCell (name : CellName) (gdim : Nat) : Py UCell :=
  if (UCell.mk name gdim).tdim ≤ gdim then .ok ⟨name, gdim⟩ else .error .runtimeError

/-- `transpose_trace_cell`, transpose_trace_form.py:20-24. -/
def transposeTraceCell (c : UCell) : Py UCell :=
  match c.name with
  | .triangle => mkCell .tetrahedron c.gdim
  | .interval => mkCell .triangle c.gdim
  | _ => .error .keyError

/-- `average_cell`, average_form.py:21-24, and `flux_average_cell`, flux_average_form.py:20-23. -/
def averageCell (c : UCell) : Py UCell :=
  match c.name with
  | .tetrahedron => .ok ⟨.interval, c.gdim⟩
  | _ => .error .keyError

/-- `patch_average_cell`, patch_average_form.py:19-24. -/
def patchCell (c : UCell) : Py UCell :=
  match c.name with
  | .tetrahedron | .triangle | .interval => .ok ⟨.interval, c.gdim⟩
  | _ => .error .keyError

/-- `extension_cell`, extension_form.py:20-31. -/
def extensionCell (c : UCell) : Py UCell := do
  pyAssert (c.gdim = 2 || c.gdim = 3)
  pyAssert (c.tdim = 1)
  .ok ⟨.triangle, c.gdim⟩

/-- `elm(family, cell, degree)` for the class found by the rank, trace_form.py:57-71, average_form.py:41-52,
    transpose_trace_form.py:45-59, extension_form.py:53-66.  (If the class is that of the element it is the same class.)
    Vectors and tensors get as many components as the cell has coordinates. -/
def build (rank : Nat) (family : String) (c : UCell) (degree : Nat) : Py Elem :=
  match rank with
  | 0 => .ok (.finite family c degree [])
  | 1 => .ok (.vector (.finite family c degree []) c.gdim)
  | 2 => .ok (.tensor family c degree [c.gdim, c.gdim])
  | _ => .error .keyError

/-- `elm.cell()`, then the map of cells. -/
def cellVia (f : UCell → Py UCell) (e : Elem) : Py UCell :=
  match e.cell with
  | some c => f c
  | none => .error .indexError

mutual
/-- `trace_element`, trace_form.py:30-71; the `family_map` is empty. -/
def traceElement : Elem → Py Elem
  | .mixed subs => do
      let es ← traceElements subs
      .ok (.mixed es)
  | .vector sub n => do
      let e ← traceElement sub
      .ok (.vector e n)
  | .finite _ c d s | .other _ c d s | .tensor _ c d s => do
      let c' ← traceCell c
      build s.length "Discontinuous Lagrange" c' d
/-- `list(map(trace_element, elm.sub_elements()))`. -/
def traceElements : List Elem → Py (List Elem)
  | [] => .ok []
  | e :: es => do
      let e' ← traceElement e
      let es' ← traceElements es
      .ok (e' :: es')
end

/-- `average_space`, average_form.py:27-52, the element of it; `mesh` is the cell of the mesh. -/
def averageElement (e : Elem) (mesh : UCell) : Py Elem := do
  let c ← cellVia averageCell e
  pyAssert (mesh = c)
  build e.shape.length "Discontinuous Lagrange" mesh e.degree

/-- `flux_average_space`, flux_average_form.py:26-40, the element of it. -/
def fluxElement (e : Elem) (mesh : UCell) : Py Elem := do
  let c ← cellVia averageCell e
  pyAssert (mesh = c)
  pyAssert (e.shape.length = 1)
  .ok (.finite "Discontinuous Lagrange" mesh e.degree [])

/-- `family_map.get(family, 'Discontinuous Lagrange')`, extension_form.py:46-48. -/
def extensionFamily (family : String) : String :=
  if family = "Lagrange" then "Lagrange" else "Discontinuous Lagrange"

mutual
/-- `extension_element`, extension_form.py:34-66. -/
def extensionElement : Elem → Py Elem
  | .mixed subs => do
      let es ← extensionElements subs
      .ok (.mixed es)
  | .vector sub n => do
      let c ← cellVia extensionCell sub
      build (n :: sub.shape).length (extensionFamily sub.family) c sub.degree
  | .finite f c d s | .other f c d s | .tensor f c d s => do
      let c' ← extensionCell c
      build s.length (extensionFamily f) c' d
/-- The sub elements. -/
def extensionElements : List Elem → Py (List Elem)
  | [] => .ok []
  | e :: es => do
      let e' ← extensionElement e
      let es' ← extensionElements es
      .ok (e' :: es')
end

/-- `family_map[family]`, transpose_trace_form.py:38-40. -/
def transposeFamily (family : String) : Py String :=
  if family = "Lagrange" then .ok "Lagrange" else .error .keyError

mutual
/-- `transpose_trace_element`, transpose_trace_form.py:27-59. -/
def transposeElement : Elem → Py Elem
  | .mixed subs => do
      let es ← transposeElements subs
      .ok (.mixed es)
  | .vector sub n => do
      let f ← transposeFamily sub.family
      let c ← cellVia transposeTraceCell sub
      build (n :: sub.shape).length f c sub.degree
  | .finite f c d s | .other f c d s | .tensor f c d s => do
      let f ← transposeFamily f
      let c' ← transposeTraceCell c
      build s.length f c' d
/-- The sub elements. -/
def transposeElements : List Elem → Py (List Elem)
  | [] => .ok []
  | e :: es => do
      let e' ← transposeElement e
      let es' ← transposeElements es
      .ok (e' :: es')
end

/-- `point_trace_space`, point_trace_form.py:13-26: `none` is the value `None`. -/
def pointElement (e : Elem) (c : UCell) : Py (Option Elem) :=
  match e.shape with
  | [] => .ok (some (.finite "Real" c 0 []))
  | [n] =>
      match e with
      | .vector _ _ => .ok (some (.vector (.finite "Real" c 0 []) n))
      | _ => .error .assertion
  | [m, n] =>
      match e with
      | .tensor _ _ _ _ => .ok (some (.tensor "Real" c 0 [m, n]))
      | _ => .error .assertion
  | _ => .ok none

/-- `mean_space`, mean_form.py:22-28, the element of it; `mesh` is the cell of the mesh. -/
def meanElement (e : Elem) (mesh : UCell) : Py Elem := do
  let c ← cellVia .ok e
  pyAssert (mesh = c)
  pyAssert (e.shape = [])
  .ok (.finite "Real" mesh 0 [])

/-- `surface_mean_element`, surface_mean_form.py:14-23. -/
def surfaceMeanElement (e : Elem) : Py Elem := do
  pyAssert (e.shape = [])
  let c ← cellVia traceCell e
  .ok (.finite "Real" c 0 [])

/-- `gradient_point_trace_space`, gradient_point_trace_form.py:13-18, the element of it. -/
def gradientPointElement (e : Elem) (mesh : UCell) : Py Elem := do
  pyAssert (e.shape = [])
  .ok (.finite "Real" mesh 0 [])

end Verif.Elements
