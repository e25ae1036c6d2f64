import Verif.Spec.Dispatch
/-!
# Forms which can be assembled
-/
namespace Verif.Assembly
open Verif Ufl BlockForm Reduced Dispatch

variable {S K D : Type} [DecidableEq S] [CommRing K] [AddCommGroup D] [Module K D]

/-- A function on the mesh of the integral (or without a mesh, such as a constant) which is not annotated. -/
def Settled (W : World S) (rest : Nat) (t : Term S) : Prop :=
  t.attrs = [] ∧ W.tdim t.base ≤ W.idim rest ∧ ∀ m, W.mesh t.base = some m → m = W.imesh rest

/-- The reduction named in the annotation `v` leads from the mesh of the function to the mesh of the integral. -/
def Leads (W : World S) (rest : Nat) (b : Base S) (v : Nat) : Kind → Prop
  | .trace => W.cell rest = true ∧ W.tdim b = W.idim rest + 1 ∧ W.annotMesh v = W.imesh rest
  | .average | .fluxAverage => W.tdim b = W.idim rest + 2 ∧ W.annotMesh v = W.imesh rest
  | .patchAverage => W.idim rest = 1
  | .mean | .pointTrace | .gradientPointTrace => True
  | .surfaceMean => W.cell rest = true ∧ W.tdim b = W.idim rest + 1
  | .restriction => W.cell rest = true ∧ W.tdim b ≤ W.idim rest ∧ (∃ m, W.mesh b = some m ∧ m ≠ W.imesh rest) ∧
      W.annotMesh v = W.imesh rest
  | .injection => W.tdim b ≤ W.idim rest ∧ (∃ m, W.mesh b = some m ∧ m ≠ W.imesh rest) ∧ W.annotMesh v = W.imesh rest
  | .transposeTrace => False

/-- A function with one annotation, which goes with the integral. -/
def Fits (W : World S) (rest : Nat) (t : Term S) (k : Kind) : Prop :=
  ∃ v, t.attrs = [(k.attr, v)] ∧ Leads W rest t.base v k

/-- The space of a function. -/
def SpaceOf (env : Env S K) (t : Term S) (V : S) : Prop :=
  (∃ n, t.base = .argument n V) ∨ ∃ i c, t.base = .other i ∧ env i = some (V, c)

/-- An integral as users write it: functions are from the mesh of the integral or annotated with a reduction to this mesh, and
    the reductions work. -/
structure Assemblable (sem : Sem S K D) (W : World S) (O : Ops S K) (env : Env S K) (I : Integral S) : Prop where
  consistent : Consistent I.integrand
  twoArguments : ∀ t ∈ terms I.integrand, ∀ n V, t.base = .argument n V → n ≤ 1
  oneSpace : ∀ s ∈ terms I.integrand, ∀ t ∈ terms I.integrand, ∀ n V Q,
    s.base = .argument n V → t.base = .argument n Q → V = Q
  trialAndTest : ∀ t ∈ terms I.integrand, ∀ V, t.base = .argument 1 V → ∃ s ∈ terms I.integrand, ∃ Q, s.base = .argument 0 Q
  /-- Functions are settled or fit. -/
  terminals : ∀ t ∈ terms I.integrand, Settled W I.rest t ∨ ∃ k, Fits W I.rest t k
  /-- Next to an average, all functions from meshes with two more dimensions are averaged. -/
  averages : ∀ t ∈ terms I.integrand, ∀ k, k = .average ∨ k = .fluxAverage → Fits W I.rest t k →
    ∀ s ∈ terms I.integrand, W.tdim s.base = W.idim I.rest + 2 → Fits W I.rest s k
  /-- Restrictions and injections are not in the same integral. -/
  restrictions : ∀ s ∈ terms I.integrand, ∀ t ∈ terms I.integrand, Fits W I.rest s .restriction → ¬ Fits W I.rest t .injection
  /-- The reductions have a space on the mesh of the integral and a matrix of the right size. -/
  reductions : ∀ t ∈ terms I.integrand, ∀ k, Fits W I.rest t k → ∃ V TV T, SpaceOf env t V ∧
    O.space k t.attrs (O.domain k t.attrs V) I.rest = .ok TV ∧
    O.matrix k t.attrs (O.domain k t.attrs V) TV I.rest = .ok T ∧ T.rows = sem.dim TV ∧ T.cols = sem.dim V ∧
    ∀ n, Settled W I.rest ⟨.argument n TV, []⟩
  /-- Odd numbers are for functions which are made during the assembly. -/
  new : ∀ i, Settled W I.rest ⟨.other (2 * i + 1), []⟩

/-- Integrals over the same cells annotate functions in the same way. -/
def AnnotatedAlike (F : List (Integral S)) : Prop :=
  ∀ I ∈ F, ∀ J ∈ F, I.rest = J.rest → ∀ s ∈ terms I.integrand, ∀ t ∈ terms J.integrand, s.base = t.base → s = t

/-- The sizes of a tensor are the dimensions of the spaces of test and trial functions of the form. -/
def SizesOf (sem : Sem S K D) (F : List (Integral S)) : Tensor K → Prop
  | .num _ => ∀ I ∈ F, ∀ t ∈ terms I.integrand, ∀ n V, t.base ≠ .argument n V
  | .vec n _ => ∀ I ∈ F, (∃ V, (∃ t ∈ terms I.integrand, t.base = .argument 0 V) ∧ n = sem.dim V) ∧
      ∀ t ∈ terms I.integrand, ∀ Q, t.base ≠ .argument 1 Q
  | .mat A => ∀ I ∈ F, ∃ V Q, (∃ t ∈ terms I.integrand, t.base = .argument 0 V) ∧
      (∃ t ∈ terms I.integrand, t.base = .argument 1 Q) ∧ A.rows = sem.dim V ∧ A.cols = sem.dim Q

end Verif.Assembly
