import Verif.Model.Dispatch
import Verif.Spec.Reduced
/-!
# Measures which go with an annotation
-/
namespace Verif.Dispatch
open Verif Ufl BlockForm Reduced

variable {S K D : Type} [DecidableEq S] [CommRing K] [AddCommGroup D] [Module K D]

/-- The integral is over a mesh which the reduction named by the annotation leads to. -/
def MeasureOK (W : World S) (rest : Nat) (t : Term S) : String → Prop
  | "trace_" => W.cell rest ∧ W.tdim t.base = W.idim rest + 1
  | "average_" | "flux_average_" => W.tdim t.base = W.idim rest + 2
  | "patch_average_" => W.idim rest = 1
  | "surface_mean_" => W.cell rest ∧ W.tdim t.base = W.idim rest + 1
  | "restriction_" => W.cell rest
  | "injection_" => ∃ v, t.attrs.lookup "injection_" = some v ∧ W.annotMesh v = W.imesh rest
  | "transpose_trace_" | "mean_" | "dirac_" | "grad_dirac_" => True
  | _ => False

/-- An integral as users write it: annotated terminals go with the measure. -/
structure Proper (sem : Sem S K D) (W : World S) (I : Integral S) : Prop where
  consistent : Consistent I.integrand
  measure : ∀ t ∈ terms I.integrand, ∀ p ∈ t.attrs, MeasureOK W I.rest t p.1
  linear : Linear sem I
  twoArguments : ∀ t ∈ terms I.integrand, ∀ n V, t.base = .argument n V → n ≤ 1

/-- Spaces and matrices of the reductions: `red` gives, for annotations of a terminal and an integral, the space of the
    reduced functions and the matrix of the reduction. -/
def OpsOK (O : Ops S K) (red : Reduction S K) (sem : Sem S K D) : Prop :=
  ∀ (k : Kind) attrs V rest TV T, (attrs.lookup k.attr).isSome → O.space k attrs (O.domain k attrs V) rest = .ok TV →
    O.matrix k attrs (O.domain k attrs V) TV rest = .ok T → red attrs V rest = (TV, T) ∧ T.rows = sem.dim TV

/-- The function is from a mesh which is not the one of the integral. -/
def Elsewhere (W : World S) (rest : Nat) (t : Term S) : Prop := ∃ m, W.mesh t.base = some m ∧ m ≠ W.imesh rest

/-- The functions which averages, restrictions and injections are for: those from meshes of two dimensions more, and those
    from other meshes. -/
def Concerns (W : World S) (rest : Nat) (t : Term S) : Kind → Prop
  | .average | .fluxAverage => W.tdim t.base = W.idim rest + 2
  | .restriction | .injection => Elsewhere W rest t
  | _ => False

/-- The annotation of the terminal, if it has one, leads to the mesh of the integral. -/
def LeadsTo (W : World S) (rest : Nat) (t : Term S) (a : String) : Prop :=
  ∃ v, t.attrs.lookup a = some v ∧ W.annotMesh v = W.imesh rest

/-- An annotation is in the integrand. -/
def Occurs (k : Kind) (e : UExpr S) : Prop := ∃ t ∈ terms e, has t k = true

end Verif.Dispatch
