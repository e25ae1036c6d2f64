import Verif.Model.Calculus
import Mathlib.Algebra.BigOperators.Group.Finset.Basic
/-!
# Gradients and divergences
-/
namespace Verif.Calculus
open Verif Finset
variable {S E : Type}

/-- As many entries as the shape says. -/
def SMat.WF (m : SMat E) : Prop := m.entries.length = m.rows * m.cols

/-- Entry in row `i` and column `j`. -/
def SMat.entry [Zero E] (m : SMat E) (i j : Nat) : E := m.entries.getD (i * m.cols + j) 0

/-- `G` has a row for every component and a column for every variable; the entries are the partial derivatives. -/
structure IsGradient [Zero E] (D : S → E → E) (X : List S) (f : List E) (G : SMat E) : Prop where
  rows : G.rows = f.length
  cols : G.cols = X.length
  entry : ∀ (i j : Nat) (fi : E) (xj : S), f[i]? = some fi → X[j]? = some xj → G.entry i j = D xj fi

/-- Divergence of the components `f i`, `i < n`, in the variables `X`. -/
def divergence [AddCommMonoid E] (D : S → E → E) (X : List S) (f : Nat → E) : E :=
  ∑ i ∈ range X.length, match X[i]? with
    | some x => D x (f i)
    | none => 0

/-- Entries which sympy knows to be zero come after the others. -/
def ZerosLast (isZero : E → Bool) (l : List E) : Prop :=
  ∃ nz zs, l = nz ++ zs ∧ (∀ e ∈ nz, isZero e = false) ∧ ∀ e ∈ zs, isZero e = true

end Verif.Calculus
