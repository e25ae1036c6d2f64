import Verif.Model.Program
import Verif.Spec.Workflow
import Verif.Spec.BlockForm
import Verif.Spec.Reduced
/-! # The discrete problem given by block forms -/
namespace Verif.Program
open Verif Ufl BlockOps BlockForm Collapse ApplyBc IIFunction Workflow Reduced Finset

variable {S K D : Type} [DecidableEq S] [Field K] [AddCommGroup D] [Module K D]

/-- The value of a block for the test function `v` and the trial function `u`, given the values of forms; a number stands
    for a multiple of the identity, `n` is the number of dofs. -/
def value (val : List (Integral S) → (Nat → K) → (Nat → K) → K) (n : Nat) (v u : Nat → K) : Entry S → K
  | .num c => c * ∑ i ∈ range n, v i * u i
  | .form F => val F v u

/-- `xs` are coefficients of the solution of the discrete problem: find functions with the prescribed values such that
    `∑_j a[k][j](v, x_j) = L[k](v)` for all `k` and all test functions `v` which vanish where values are prescribed. -/
structure DiscreteSolution (val : List (Integral S) → (Nat → K) → (Nat → K) → K) (ns : List Nat)
    (a : List (List (Entry S))) (L : List (Entry S)) (data : List (List (Nat × K))) (xs : List (List K)) : Prop where
  sizes : xs.map List.length = ns
  values : ∀ k d x, prescribed data k d = some x → entry xs k d = some x
  equations : ∀ (k : Nat) row F n, a[k]? = some row → L[k]? = some (.form F) → ns[k]? = some n →
    ∀ v : Nat → K, (∀ d, prescribed data k d ≠ none → v d = 0) →
      ((row.zip xs).map (fun p => value val n v (fnOf p.2) p.1)).sum = val F v 0

/-- Block forms over the spaces `W`: forms in row `i` have test functions from `W[i]`, those in column `j` trial functions
    from `W[j]`; numbers other than zero are on the diagonal. -/
structure BlockForms (W : List S) (a : List (List (Entry S))) (L : List (Entry S)) : Prop where
  nonempty : W ≠ []
  rows : a.length = W.length
  square : ∀ row ∈ a, row.length = W.length
  fits : ∀ (i j : Nat) row e, a[i]? = some row → row[j]? = some e → Fits W i j e
  numbers : ∀ (i j : Nat) row c, a[i]? = some row → row[j]? = some (.num c) → c = 0 ∨ i = j
  rhs : L.length = W.length
  linear : ∀ (i : Nat) e, L[i]? = some e → ∃ F V, e = .form F ∧ W[i]? = some V ∧ FormArg 0 V F ∧ ∀ I ∈ F, NoArg 1 I

/-- A property of all forms of the system. -/
def ForForms (a : List (List (Entry S))) (L : List (Entry S)) (P : List (Integral S) → Prop) : Prop :=
  (∀ row ∈ a, ∀ F, Entry.form F ∈ row → P F) ∧ ∀ F, Entry.form F ∈ L → P F

end Verif.Program
