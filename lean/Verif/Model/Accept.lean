import Verif.Model.Elements
/-!
# What the annotating functions accept

The checks in `Trace`, `Average`, ... in xii/assembler/*_form.py and the spaces found by `reduced_space` in *_assembly.py.  The
copies are in `Model/Annotate.lean`, the tags of `Trace` in `Model/TraceForm.lean`, the maps of `Injection` in
`Model/Registry.lean`.
-/
namespace Verif.Accept
open Verif Elements

/-- The function: `is_terminal(v)` (ufl_utils.py:19-21) and `v.ufl_element()`.  Expressions which are no terminals have no element;
    they are refused by the first check, or by the check of the shape before it, with the same exception. -/
structure Fn where
  isTerminal : Bool
  element : Elem

/-- A number or anything else, `isinstance(point, (int, np.int32, ...))`. -/
inductive Point where
  | index (i : Nat)
  | coords

/-- `isinstance`. -/
def Point.isIndex : Point → Bool
  | .index _ => true
  | .coords => false

/-- A call: which annotation, with the arguments which are looked at; `mesh` is the cell of the mesh. -/
inductive Request where
  | trace (restriction : String) (mesh : UCell)
  /-- `shape` tells if the shape is not None, `embedded` if the line has `parent_entity_map`. -/
  | average (shape embedded : Bool) (mesh : UCell)
  | fluxAverage (shape : Bool) (mesh : UCell)
  /-- `vertex` is the element of `vertex_f`, on the line `mesh`; `patch` are the dimensions of the mesh of `patch_f` and of
      `patch_f`. -/
  | patchAverage (vertex : Elem) (mesh : UCell) (patch : Option (Nat × Nat))
  | mean
  | pointTrace (point cell : Point)
  | gradientPointTrace (point cell : Point)
  | surfaceMean (mesh : UCell)
  | restriction (mesh : UCell)
  | injection (mesh : UCell)
  | extension (mesh : UCell)
  /-- `maps`: the meshes in `parent_entity_map` of the trace mesh, None if there is no such attribute; `parents`: its
      `parent_meshes`; `full`: the mesh which was given. -/
  | transposeTrace (maps : Option (List Nat)) (parents : List Nat) (full : Option Nat)

/-- `full_mesh, = trace_mesh.parent_meshes`, transpose_trace_form.py:73-74. -/
def fullMesh (parents : List Nat) (full : Option Nat) : Py Nat :=
  match full with
  | some i => .ok i
  | none =>
    match parents with
    | [i] => .ok i
    | _ => .error .valueError

/-- The check of a 3d-1d trace, average_form.py:68-73. -/
def averageShape (shape embedded : Bool) (e : Elem) : Py Unit :=
  if shape then .ok ()
  else if embedded then pyAssert (e.family = "Lagrange")
  else .ok ()

/-- The check of `patch_f`, patch_average_form.py:46-48. -/
def patchDims (patch : Option (Nat × Nat)) : Py Unit :=
  match patch with
  | some (mesh, f) => pyAssert (mesh = f)
  | none => .ok ()

/-- The checks in each function before the copy is made. -/
def accept (v : Fn) : Request → Py Unit
  -- trace_form.py:89-97
  | .trace restriction mesh => do
      pyAssert v.isTerminal
      let c ← cellVia traceCell v.element
      pyAssert (c = mesh)
      pyAssert (restriction ∈ ["", "+", "-", "jump", "avg"])
  -- average_form.py:64-75
  | .average shape embedded mesh => do
      pyAssert v.isTerminal
      let c ← cellVia averageCell v.element
      pyAssert (c = mesh)
      averageShape shape embedded v.element
  -- flux_average_form.py:45-47
  | .fluxAverage shape mesh => do
      pyAssert v.isTerminal
      let c ← cellVia averageCell v.element
      pyAssert (c = mesh)
      pyAssert shape
  -- patch_average_form.py:44-55
  | .patchAverage vertex mesh patch => do
      pyAssert (v.element.shape = [])
      patchDims patch
      pyAssert (vertex.shape = [])
      pyAssert v.isTerminal
      let c ← cellVia patchCell v.element
      pyAssert (c = mesh)
  -- mean_form.py:34-35
  | .mean => do
      pyAssert (v.element.shape = [])
      pyAssert v.isTerminal
  -- point_trace_form.py:32-38
  | .pointTrace point cell => do
      pyAssert v.isTerminal
      pyAssert (v.element.family ∈ ["Lagrange", "Discontinuous Lagrange"])
      pyAssert point.isIndex
      pyAssert cell.isIndex
  -- gradient_point_trace_form.py:24-30
  | .gradientPointTrace point cell => do
      pyAssert v.isTerminal
      pyAssert (v.element.family ∈ ["Lagrange", "Discontinuous Lagrange"])
      pyAssert point.isIndex
      pyAssert cell.isIndex
  -- surface_mean_form.py:33-35
  | .surfaceMean mesh => do
      pyAssert v.isTerminal
      let c ← cellVia traceCell v.element
      pyAssert (c = mesh)
  -- restriction_form.py:35-36
  | .restriction mesh => do
      pyAssert v.isTerminal
      let c ← cellVia .ok v.element
      pyAssert (c = mesh)
  -- injection_form.py:33-34
  | .injection mesh => do
      pyAssert v.isTerminal
      let c ← cellVia .ok v.element
      pyAssert (c = mesh)
  -- extension_form.py:80-82
  | .extension mesh => do
      pyAssert v.isTerminal
      let c ← cellVia extensionCell v.element
      pyAssert (c = mesh)
  -- transpose_trace_form.py:70-75
  | .transposeTrace maps parents full => do
      pyAssert v.isTerminal
      pyAssert maps.isSome
      let i ← fullMesh parents full
      pyAssert (i ∈ maps.getD [])

/-- `restriction_space`, restriction_form.py:21-26, and `injection_space`, injection_form.py:20-25: the same element. -/
def sameElement (e : Elem) (mesh : UCell) : Py Elem := do
  let c ← cellVia .ok e
  pyAssert (mesh = c)
  .ok e

/-- `patch_average_space`, patch_average_form.py:27-35. -/
def patchElement (vertex e : Elem) (mesh : UCell) : Py Elem := do
  let c ← cellVia patchCell e
  pyAssert (mesh = c)
  pyAssert (e.shape = vertex.shape)
  .ok vertex

/-- The value of `point_trace_space`; None is no space. -/
def someElement (e : Option Elem) : Py Elem :=
  match e with
  | some e => .ok e
  | none => .error .attributeError

/-- `df.FunctionSpace(mesh, element)`: dolfin refuses elements on other cells (here a `runtimeError`). -/
def onCell (mesh : UCell) (e : Elem) : Py Elem := if e.cell = some mesh then .ok e else .error .runtimeError

/-- The element of the space found by `reduced_space` for functions of the element `e`, in an integral over a mesh with cells `mesh`:
    trace_assembly.py:37-39, average_assembly.py:27-29, flux_average_assembly.py:31-33, patch_average_assembly.py:28-30,
    mean_assembly.py:26-28, point_trace_assembly.py:27-29, gradient_point_trace_assembly.py:27-29,
    surface_mean_assembly.py:27-29, restriction_assembly.py:36-39, injection_assembly.py:34-36, extension_assembly.py:36-38,
    transpose_trace_assembly.py:33-35. -/
def space (e : Elem) (mesh : UCell) : Request → Py Elem
  | .trace _ _ => traceElement e >>= onCell mesh
  | .average _ _ _ => averageElement e mesh
  | .fluxAverage _ _ => fluxElement e mesh
  | .patchAverage vertex _ _ => patchElement vertex e mesh
  | .mean => meanElement e mesh
  | .pointTrace _ _ => pointElement e mesh >>= someElement
  | .gradientPointTrace _ _ => gradientPointElement e mesh
  | .surfaceMean _ => surfaceMeanElement e >>= onCell mesh
  | .restriction _ => sameElement e mesh
  | .injection _ => sameElement e mesh
  | .extension _ => extensionElement e >>= onCell mesh
  | .transposeTrace _ _ _ => transposeElement e >>= onCell mesh

end Verif.Accept
