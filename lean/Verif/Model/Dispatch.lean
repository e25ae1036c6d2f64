import Verif.Model.Reduced
/-!
# Which assembler gets an integral

The classes in xii/assembler/*_assembly.py (their `select_integrals`, `restriction_filter` and `is_compatible`), with the
functions in *_form.py which they call, and the tuple of modules in xii/assembler/xii_assembly.py:28-43.
-/
namespace Verif.Dispatch
open Verif Ufl BlockOps BlockForm Reduced

variable {S K : Type} [DecidableEq S]

/-- The modules, in the order of xii_assembly.py:28-39. -/
inductive Kind where
  | trace | transposeTrace | average | fluxAverage | patchAverage | mean | pointTrace | gradientPointTrace | surfaceMean
  | restriction | injection
  deriving DecidableEq

/-- The tuple `modules`. -/
def kinds : List Kind :=
  [.trace, .transposeTrace, .average, .fluxAverage, .patchAverage, .mean, .pointTrace, .gradientPointTrace, .surfaceMean,
    .restriction, .injection]

/-- `self.attributes`, in each of the classes a tuple with one string. -/
def Kind.attr : Kind → String
  | .trace => "trace_"
  | .transposeTrace => "transpose_trace_"
  | .average => "average_"
  | .fluxAverage => "flux_average_"
  | .patchAverage => "patch_average_"
  | .mean => "mean_"
  | .pointTrace => "dirac_"
  | .gradientPointTrace => "grad_dirac_"
  | .surfaceMean => "surface_mean_"
  | .restriction => "restriction_"
  | .injection => "injection_"

/-- What is asked of terminals: `topological_dim` (-1 for terminals without a domain, ufl_utils.py:7-10) and the mesh id; of
    integrals: the type, the topological dimension and the mesh id; of annotations: the id of the mesh in the dictionary. -/
structure World (S : Type) where
  tdim : Base S → Int
  mesh : Base S → Option Nat
  cell : Nat → Bool
  idim : Nat → Int
  imesh : Nat → Nat
  annotMesh : Nat → Nat

/-- `hasattr(t, attr)`. -/
def has (t : Term S) (k : Kind) : Bool := (t.attr k.attr).isSome

/-- `t.trace_['mesh'].id() == reduced_mesh.id()` and so on. -/
def onMesh (W : World S) (rest : Nat) (t : Term S) (k : Kind) : Bool :=
  match t.attr k.attr with
  | some v => W.annotMesh v = W.imesh rest
  | none => false

/-- `is_*_integral`: trace_form.py:148-157, transpose_trace_form.py:88-96, average_form.py:102-110,
    flux_average_form.py:64-72, patch_average_form.py:68-71, mean_form.py:48-50, point_trace_form.py:47-49,
    gradient_point_trace_form.py:38-40, surface_mean_form.py:48-57, restriction_form.py:50-65, injection_form.py:69-89. -/
def selects (W : World S) (k : Kind) (rest : Nat) (e : UExpr S) : Bool :=
  match k with
  | .trace => W.cell rest && (uniqueTerms e).any (fun t => W.tdim t.base - 1 = W.idim rest && has t .trace)
  | .transposeTrace => (uniqueTerms e).any (fun t => has t .transposeTrace)
  | .average => (uniqueTerms e).any (fun t => W.tdim t.base = W.idim rest + 2 && has t .average)
  | .fluxAverage => (uniqueTerms e).any (fun t => W.tdim t.base = W.idim rest + 2 && has t .fluxAverage)
  | .patchAverage => W.idim rest = 1 && (uniqueTerms e).any (fun t => has t .patchAverage)
  | .mean => (uniqueTerms e).any (fun t => has t .mean)
  | .pointTrace => (uniqueTerms e).any (fun t => has t .pointTrace)
  | .gradientPointTrace => (uniqueTerms e).any (fun t => has t .gradientPointTrace)
  | .surfaceMean => W.cell rest && (uniqueTerms e).any (fun t => W.tdim t.base - 1 = W.idim rest)
  | .restriction => W.cell rest && (uniqueTerms e).any (fun t => has t .restriction)
  | .injection => (uniqueTerms e).any (fun t => onMesh W rest t .injection)

/-- `t.ufl_domain()` is not None and its mesh is not the one of the integral, restriction_assembly.py:14-25,
    injection_assembly.py:14-23. -/
def elsewhere (W : World S) (rest : Nat) (t : Term S) : Bool :=
  match W.mesh t.base with
  | some m => m ≠ W.imesh rest
  | none => false

/-- `restriction_filter`: trace_assembly.py:21-23, transpose_trace_assembly.py:21-23, average_assembly.py:14-16,
    flux_average_assembly.py:14-16, patch_average_assembly.py:14-16, mean_assembly.py:14-16, point_trace_assembly.py:14-17,
    gradient_point_trace_assembly.py:14-17, surface_mean_assembly.py:14-17, restriction_assembly.py:14-25,
    injection_assembly.py:14-23. -/
def needs (W : World S) (k : Kind) (rest : Nat) (t : Term S) : Bool :=
  match k with
  | .trace => W.tdim t.base > W.idim rest
  | .transposeTrace => W.tdim t.base + 1 = W.idim rest
  | .average | .fluxAverage => W.tdim t.base - 2 = W.idim rest
  | .restriction | .injection => elsewhere W rest t
  | k => has t k

/-- `is_compatible`: trace_assembly.py:25-27 and transpose_trace_assembly.py:25-26 return a bool, the others assert:
    average_assembly.py:18-21, flux_average_assembly.py:18-21, patch_average_assembly.py:18-20, mean_assembly.py:18-20,
    point_trace_assembly.py:19-21, gradient_point_trace_assembly.py:19-21, surface_mean_assembly.py:19-21,
    restriction_assembly.py:27-30, injection_assembly.py:25-28. -/
def compatible (W : World S) (k : Kind) (rest : Nat) (t : Term S) : Py Bool :=
  match k with
  | .trace => .ok (onMesh W rest t .trace)
  | .transposeTrace => .ok (has t .transposeTrace)
  | .average | .fluxAverage | .restriction | .injection => do
      pyAssert (has t k)
      pyAssert (onMesh W rest t k)
      .ok true
  | k => do
      pyAssert (has t k)
      .ok true

/-- The parts of a class which are treated elsewhere: `domain_space`, `reduced_space` and `reduction_matrix`. -/
structure Ops (S K : Type) [Zero K] where
  domain : Kind → List (String × Nat) → S → S
  space : Kind → List (String × Nat) → S → Nat → Py S
  matrix : Kind → List (String × Nat) → S → S → Nat → Py (Mat K)

/-- The class as an assembler. -/
def assembler [Zero K] (W : World S) (O : Ops S K) (k : Kind) : Assembler S K where
  attr := k.attr
  selects := selects W k
  needs := needs W k
  compatible := compatible W k
  domain := O.domain k
  space := O.space k
  matrix := O.matrix k

/-- All of them. -/
def assemblers [Zero K] (W : World S) (O : Ops S K) : List (Assembler S K) := kinds.map (assembler W O)

end Verif.Dispatch
