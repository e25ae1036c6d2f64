import Verif.Model.Py
/-!
# Annotations: `Trace`, `Average`, `Restriction`, ...

Objects live on a heap and are referred to by their position, so that changing an argument can be told from returning a
changed copy.  The assertions made before the copy (cells, meshes, shapes, types of data) are an arbitrary function of the
argument's object: `pre`.  Data stored in annotations are not inspected.  `Injection` may also store a map in the fine
mesh, xii/assembler/injection_form.py:44-49; meshes are not on the heap.
-/
namespace Verif.Annotate
open Verif

/-- What a terminal is. -/
inductive Kind where
  /-- test (0), trial (1) and further arguments on a space -/
  | argument (number space : Nat)
  /-- `df.Function` on a space with a vector -/
  | function (space vector : Nat)
  /-- other coefficients (`df.Constant`, `df.Expression`), which have no function space -/
  | coefficient
  /-- terminals which are no form arguments (`FacetNormal`, ...) -/
  | geometric
  deriving DecidableEq

/-- An object: its kind and the attributes set on it. -/
structure Obj where
  kind : Kind
  attrs : List (String × Nat) := []
  deriving DecidableEq

/-- The objects. -/
abbrev Heap := List Obj

/-- The annotating functions. -/
inductive Annotation where
  | trace | average | restriction | injection | extension | surfaceMean | mean | patchAverage | transposeTrace | fluxAverage
  | pointTrace | gradientPointTrace
  deriving DecidableEq

/-- The attribute which is set: trace_form.py:128, average_form.py:83, restriction_form.py:45, injection_form.py:63,
extension_form.py:92, surface_mean_form.py:43, mean_form.py:43, patch_average_form.py:63, transpose_trace_form.py:83,
flux_average_form.py:59, point_trace_form.py:43, gradient_point_trace_form.py:34 in xii/assembler. -/
def Annotation.name : Annotation → String
  | .trace => "trace_"
  | .average => "average_"
  | .restriction => "restriction_"
  | .injection => "injection_"
  | .extension => "extension_"
  | .surfaceMean => "surface_mean_"
  | .mean => "mean_"
  | .patchAverage => "patch_average_"
  | .transposeTrace => "transpose_trace_"
  | .fluxAverage => "flux_average_"
  | .pointTrace => "dirac_"
  | .gradientPointTrace => "grad_dirac_"

/-- A new object. -/
def alloc (H : Heap) (o : Obj) : Heap × Nat := (H ++ [o], H.length)

/-- The copy made by most annotations, for example xii/assembler/trace_form.py:109-113: functions get a new function with the
same vector, test and trial functions a new one on the same space.  Coefficients without `function_space` and terminals
without `number` give `AttributeError`, other arguments `IndexError`. -/
def copyOf (H : Heap) (o : Obj) : Py (Heap × Nat) :=
  match o.kind with
  | .function V x => .ok (alloc H ⟨.function V x, []⟩)
  | .argument n V => if n ≤ 1 then .ok (alloc H ⟨.argument n V, []⟩) else .error .indexError
  | .coefficient => .error .attributeError
  | .geometric => .error .attributeError

/-- The copy of `FluxAverage`, xii/assembler/flux_average_form.py:49-57: the new argument is on the space `dg V`. -/
def copyFlux (dg : Nat → Nat) (H : Heap) (o : Obj) : Py (Heap × Nat) :=
  match o.kind with
  | .function _ _ => .error .valueError
  | .coefficient => .error .valueError
  | .argument n V => if n ≤ 1 then .ok (alloc H ⟨.argument n (dg V), []⟩) else .error .indexError
  | .geometric => .error .attributeError

/-- `reconstruct`, xii/assembler/ufl_utils.py:127-138: only test and trial functions are copied. -/
def reconstruct (H : Heap) (r : Nat) (o : Obj) : Heap × Nat :=
  match o.kind with
  | .argument 1 V => alloc H ⟨.argument 1 V, []⟩
  | .argument 0 V => alloc H ⟨.argument 0 V, []⟩
  | _ => (H, r)

/-- `setattr`. -/
def setAttr (H : Heap) (r : Nat) (a : String) (d : Nat) : Heap :=
  match H[r]? with
  | some o => H.set r { o with attrs := (a, d) :: o.attrs.filter (fun p => p.1 ≠ a) }
  | none => H

/-- The object which is to be annotated. -/
def target (dg : Nat → Nat) (A : Annotation) (H : Heap) (r : Nat) (o : Obj) : Py (Heap × Nat) :=
  match A with
  | .pointTrace => .ok (reconstruct H r o)
  | .gradientPointTrace => .ok (reconstruct H r o)
  | .fluxAverage => copyFlux dg H o
  | _ => copyOf H o

/-- One call: assertions, copy, attribute.  Returns the heap and the reference to the result. -/
def annotate (dg : Nat → Nat) (pre : Obj → Py Unit) (A : Annotation) (d : Nat) (H : Heap) (r : Nat) : Py (Heap × Nat) := do
  let o ← match H[r]? with
    | some o => .ok o
    | none => .error .nameError
  pre o
  let t ← target dg A H r o
  .ok (setAttr t.1 t.2 A.name d, t.2)

/-- A call in a history. -/
structure Call where
  annotation : Annotation
  data : Nat
  arg : Nat
  pre : Obj → Py Unit

/-- A history of calls; exceptions are caught and leave the heap as it is (they are raised before the only write). -/
def run (dg : Nat → Nat) : Heap → List Call → Heap
  | H, [] => H
  | H, c :: cs =>
      match annotate dg c.pre c.annotation c.data H c.arg with
      | .ok (H', _) => run dg H' cs
      | .error _ => run dg H cs

end Verif.Annotate
