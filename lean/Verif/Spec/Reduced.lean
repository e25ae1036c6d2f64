import Verif.Model.Reduced
import Verif.Spec.Ufl
import Mathlib.Algebra.Module.LinearMap.Defs
/-! # Integrals of reduced functions -/
namespace Verif.Reduced
open Verif Ufl BlockForm Finset

variable {S K D : Type} [DecidableEq S] [CommRing K] [AddCommGroup D] [Module K D]

/-- The reductions: for annotations of a terminal from a space, and an integral, the space of the reduced functions and the
matrix which maps coefficients to coefficients of the reduced function. -/
abbrev Reduction (S K : Type) [Zero K] := List (String × Nat) → S → Nat → S × Mat K

/-- `R x`: the reduced function of the function with coefficients `x`; without annotations the function itself. -/
def reduced (sem : Sem S K D) (red : Reduction S K) (rest : Nat) (V : S) (attrs : List (String × Nat)) (x : Nat → K) : D :=
  if attrs = [] then fn sem V x
  else fn sem (red attrs V rest).1 (fun i => ∑ j ∈ range (red attrs V rest).2.cols, (red attrs V rest).2.e i j * x j)

/-- Meaning of a terminal in an integral, when the test and trial functions have coefficients `v` and `u`. -/
def meaning (sem : Sem S K D) (red : Reduction S K) (env : Env S K) (v u : Nat → K) (rest : Nat) (t : Term S) : D :=
  match t.base with
  | .argument 0 V => reduced sem red rest V t.attrs v
  | .argument _ V => reduced sem red rest V t.attrs u
  | .other id => match env id with
      | some (V, c) => reduced sem red rest V t.attrs c
      | none => sem.const id

/-- The tensor applied to the coefficients: `c`, `v^T b` or `v^T A u`. -/
def act (v u : Nat → K) : Tensor K → K
  | .num c => c
  | .vec n b => ∑ i ∈ range n, v i * b i
  | .mat A => ∑ i ∈ range A.rows, ∑ j ∈ range A.cols, v i * A.e i j * u j

/-- The space on which an assembler works and the operator it computes are those of the reduction. -/
def Implements (m : Assembler S K) (red : Reduction S K) (sem : Sem S K D) : Prop :=
  (∀ attrs V rest TV T, (attrs.lookup m.attr).isSome → m.space attrs (m.domain attrs V) rest = .ok TV →
    m.matrix attrs (m.domain attrs V) TV rest = .ok T → red attrs V rest = (TV, T) ∧ T.rows = sem.dim TV) ∧
  (∀ rest t, m.compatible rest t = .ok true → (t.attr m.attr).isSome)

/-- Equal terminals carry equal annotations. -/
def Consistent (e : UExpr S) : Prop := ∀ s ∈ terms e, ∀ t ∈ terms e, s.base = t.base → s = t

/-- A terminal with annotations makes some assembler select the integral. -/
def Recognised (mods : List (Assembler S K)) (rest : Nat) (t : Term S) : Prop :=
  t.attrs ≠ [] → ∃ m ∈ mods, ∀ e, t ∈ terms e → Consistent e → m.selects rest e = true

/-- The integral is linear in its arguments. -/
def Linear (sem : Sem S K D) (I : Integral S) : Prop :=
  ∀ t ∈ terms I.integrand, ∀ n V, t.base = .argument n V → ∀ val : Term S → D,
    IsLinearMap K (fun d => sem.integral I.rest (den sem (fun s => if s = t then d else val s) I.integrand))

/-- An integral as users write it. -/
structure WellFormed (sem : Sem S K D) (mods : List (Assembler S K)) (I : Integral S) : Prop where
  consistent : Consistent I.integrand
  recognised : ∀ t ∈ terms I.integrand, Recognised mods I.rest t
  linear : Linear sem I
  twoArguments : ∀ t ∈ terms I.integrand, ∀ n V, t.base = .argument n V → n ≤ 1

/-- All integrals of the form have the same arguments. -/
def SameArguments (F : List (Integral S)) : Prop :=
  ∀ I ∈ F, ∀ t ∈ terms I.integrand, ∀ n V, t.base = .argument n V →
    ∀ J ∈ F, ∃ s ∈ terms J.integrand, s.base = .argument n V

/-- A function which does not run out of fuel. -/
def NoFuel {α : Type} (x : Py α) : Prop := x ≠ .error .outOfFuel

/-- The functions of the assembler do not run out of fuel: only the recursion of `assemble` has fuel. -/
def Total (m : Assembler S K) : Prop :=
  (∀ rest t, NoFuel (m.compatible rest t)) ∧ (∀ a V rest, NoFuel (m.space a V rest)) ∧
  (∀ a V TV rest, NoFuel (m.matrix a V TV rest)) ∧
  (∀ rest t, m.compatible rest t = .ok true → (t.attr m.attr).isSome)

/-- Number of annotated terminals. -/
def annotated (e : UExpr S) : Nat := (terms e).countP (fun t => t.attrs ≠ [])

end Verif.Reduced
