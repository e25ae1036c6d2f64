import Verif.Model.Workflow
import Verif.Spec.ApplyBc
import Verif.Spec.IIFunction
/-! # Specification of programs which solve a block system -/
namespace Verif.Workflow
open Verif BlockOps Collapse ApplyBc IIFunction

variable {K : Type} [CommRing K]

/-- Whatever the solver returns is a solution. -/
def Exact (solve : Solver K) : Prop :=
  ∀ M b y, solve M b = .ok y → y.length = M.cols ∧ ∀ i, i < M.rows → M.act (fnOf y) i = fnOf b i

/-- The solver returns a solution of every square system which has just one. -/
def SolvesRegular (solve : Solver K) : Prop :=
  ∀ (M : Mat K) (b : List K), M.rows = M.cols → b.length = M.rows →
    (∃! y : List K, y.length = M.cols ∧ ∀ i, i < M.rows → M.act (fnOf y) i = fnOf b i) → ∃ y, solve M b = .ok y

/-- The boundary conditions given for a block system with `n` blocks: none, or conditions for some dofs. -/
inductive BcsAre (n : Nat) : BcArg K → List (List (Nat × K)) → Prop
  | none : BcsAre n .none []
  | empty : BcsAre n (.list []) []
  | empties : BcsAre n (.list (List.replicate n (.list []))) []
  | some {bcs data} : BlockBcs n bcs data → Constrains data → BcsAre n bcs data

/-- `hist` are solutions of consecutive problems from step `k` on: each solves the constrained problem with the
right-hand side of its step, which depends on the first component of the solution before, `u`. -/
def Evolves (ns : List Nat) (A : List (List (Expr K))) (rhs : Nat → List K → List (List K))
    (data : Nat → List (List (Nat × K))) : Nat → List K → List (List (List K)) → Prop
  | _, _, [] => True
  | k, u, xs :: hist =>
      xs.map List.length = ns ∧ IsConstrainedSolution ns A (rhs k u) (data k) xs ∧
        ∃ v, xs.head? = Option.some v ∧ Evolves ns A rhs data (k + 1) v hist

end Verif.Workflow
