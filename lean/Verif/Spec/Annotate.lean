import Verif.Model.Annotate
/-!
# Specification for annotations
-/
namespace Verif.Annotate
open Verif

/-- The call annotates a copy: all annotations of test and trial functions, and all but `PointTrace` and
`GradientPointTrace` of anything. -/
def Copies (A : Annotation) (o : Obj) : Prop :=
  (A ≠ .pointTrace ∧ A ≠ .gradientPointTrace) ∨ ∃ V, o.kind = .argument 0 V ∨ o.kind = .argument 1 V

/-- The attribute in which assemblers look for the annotation. -/
def attrName : Annotation → String
  | .trace => "trace_"
  | .average => "average_"
  | .restriction => "restriction_"
  | .injection => "injection_"
  | .extension => "extension_"
  | .surfaceMean => "surface_mean_"
  | .mean => "mean_"
  | .patchAverage => "patch_average_"
  | .transposeTrace => "transpose_trace_"
  | .fluxAverage => "flux_average_"
  | .pointTrace => "dirac_"
  | .gradientPointTrace => "grad_dirac_"

/-- The kind of the result: that of the argument, on another space for `FluxAverage`. -/
def resultKind (dg : Nat → Nat) (A : Annotation) (k : Kind) : Kind :=
  match A, k with
  | .fluxAverage, .argument n V => .argument n (dg V)
  | _, k => k

end Verif.Annotate
