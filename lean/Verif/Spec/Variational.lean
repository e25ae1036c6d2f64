import Verif.Spec.Program
import Verif.Spec.Coupling
/-! # Variational problems with several spaces -/
namespace Verif.Program
open Verif Ufl BlockOps BlockForm Collapse ApplyBc IIFunction Workflow Reduced Finset

variable {S K D : Type} [DecidableEq S] [Field K] [AddCommGroup D] [Module K D]

/-- What functions stand for in integrals: `R rest V attrs x` for the function from `V` with coefficients `x` which is
    annotated with `attrs`. -/
abbrev Standing (S K D : Type) := Nat → S → List (String × Nat) → (Nat → K) → D

/-- Meaning of a terminal when test and trial functions are given for all spaces: test functions from `V` have coefficients
    `v V`, trial functions `u V`. -/
def mixed (sem : Sem S K D) (R : Standing S K D) (env : Env S K) (v u : S → Nat → K) (rest : Nat) (t : Term S) : D :=
  match t.base with
  | .argument 0 V => R rest V t.attrs (v V)
  | .argument _ V => R rest V t.attrs (u V)
  | .other id => match env id with
      | some (V, c) => R rest V t.attrs c
      | none => sem.const id

/-- The functions with coefficients `xs` in the spaces `W`. -/
def coeffs (W : List S) (xs : List (List K)) (V : S) : Nat → K := fnOf (((W.zip xs).lookup V).getD [])

/-- `xs` are coefficients of functions `u` with the prescribed values such that `a(u, v) = L(v)` for all test functions
    which vanish where values are prescribed. -/
structure VariationalSolution (sem : Sem S K D) (R : Standing S K D) (env : Env S K) (W : List S)
    (a L : List (Integral S)) (data : List (List (Nat × K))) (xs : List (List K)) : Prop where
  sizes : xs.map List.length = W.map sem.dim
  values : ∀ k d x, prescribed data k d = some x → entry xs k d = some x
  equation : ∀ v : S → Nat → K, (∀ (k : Nat) V d, W[k]? = some V → prescribed data k d ≠ none → v V d = 0) →
    total sem a (fun I => mixed sem R env v (coeffs W xs) I.rest) =
      total sem L (fun I => mixed sem R env v 0 I.rest)

/-- The forms with which blocks of linear forms start: zero. -/
structure NullForms (sem : Sem S K D) (R : Standing S K D) (env : Env S K) (mods : List (Assembler S K)) (W : List S)
    (null : S → List (Integral S)) : Prop where
  arguments : ∀ V, null V ≠ [] ∧ ∀ I ∈ null V, OnlyArg 0 V I
  linear : ∀ V ∈ W, ∀ I ∈ null V, NoArg 1 I
  wellFormed : ∀ V ∈ W, ∀ I ∈ null V, WellFormed sem mods I
  plain : ∀ V ∈ W, ∀ I ∈ null V, ∀ t ∈ terms I.integrand, t.attrs = []
  zero : ∀ V ∈ W, ∀ v u, total sem (null V) (fun I => mixed sem R env v u I.rest) = 0

/-- Annotated functions stand for their restrictions. -/
def restricted {X : Type} {dom : Nat → Prop} {On : Nat → X → Prop} (sem : Sem S K (Coupling.Pts dom On → K))
    (sp : S → DofMat.Space K X) (side : Nat → Nat) : Standing S K (Coupling.Pts dom On → K) := fun _ V attrs x =>
  if attrs = [] then Reduced.fn sem V x else Coupling.restriction (sp V) side x

end Verif.Program
