import Verif.Model.TimeDep
import Verif.Spec.Variational
/-! # Problems whose data change with time -/
namespace Verif.TimeDep
open Verif Ufl BlockOps BlockForm Collapse ApplyBc IIFunction Workflow Reduced Program

variable {S K D : Type} [DecidableEq S] [Field K] [AddCommGroup D] [Module K D]

/-- Value of a form when the expressions have the values `c` and the function `i` from `V` has the coefficients `u`, for the
    test function `v` and the trial function `w`. -/
def formValue (sem : Sem S K D) (R : Standing S K D) (env : Env S K) (i : Nat) (V : S) (c : Nat → D) (u : List K)
    (F : List (Integral S)) (v w : Nat → K) : K :=
  total sem F (fun I t => match t.base with
    | .argument 0 Q => R I.rest Q t.attrs v
    | .argument _ Q => R I.rest Q t.attrs w
    | .other j =>
        if j = i then R I.rest V t.attrs (fnOf u)
        else match env j with
          | some (Q, x) => R I.rest Q t.attrs x
          | none => c j)

/-- `hist` are solutions at consecutive times from pass `k` on: each solves the discrete problem whose forms have the values
    `val k u`, where `u` is the first component of the solution before. -/
def Marches (val : Nat → List K → List (Integral S) → (Nat → K) → (Nat → K) → K) (ns : List Nat)
    (a : List (List (Entry S))) (L : List (Entry S)) (data : Nat → List (List (Nat × K))) :
    Nat → List K → List (List (List K)) → Prop
  | _, _, [] => True
  | k, u, xs :: hist =>
      DiscreteSolution (val k u) ns a L (data k) xs ∧
        ∃ v, xs.head? = some v ∧ Marches val ns a L data (k + 1) v hist

/-- The forms of the matrix contain neither the function `i` nor expressions which change. -/
def Steady (env : Env S K) (i : Nat) (c : Nat → Nat → D) (a : List (List (Entry S))) : Prop :=
  ∀ row ∈ a, ∀ F, Entry.form F ∈ row → ∀ I ∈ F, ∀ t ∈ terms I.integrand, ∀ j, t.base = .other j →
    j ≠ i ∧ (env j = none → ∀ k, c k j = c 0 j)

end Verif.TimeDep
