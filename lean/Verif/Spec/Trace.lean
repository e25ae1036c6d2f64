import Verif.Model.Trace
import Verif.Spec.DofMat
/-!
# What traces are to do
-/
namespace Verif.Trace
open Verif Verif.DofMat

/-- The documented side of a cell (docstrings of trace_matrix.py:252-257, 415-420): a cell is on the
    plus side if the vector from the midpoint of the facet to the midpoint of the cell agrees in
    orientation with the normal. -/
def OnPlusSide {g : Nat} (n facetMid cellMid : Fin g → ℝ) : Prop := 0 < (cellMid - facetMid) ⬝ᵥ n

/-- On the minus side, strictly. -/
def OnMinusSide {g : Nat} (n facetMid cellMid : Fin g → ℝ) : Prop := (cellMid - facetMid) ⬝ᵥ n < 0

/-- Cells of a facet. -/
inductive Facet where
  /-- interior facet with the cells on the plus and minus side -/
  | interior (plus minus : Nat)
  /-- boundary facet -/
  | boundary (cell : Nat)

/-- `fc` lists the cells of the facet (in any order) and they are on the sides they are said to be. -/
def Facet.Describes {g : Nat} (n facetMid : Fin g → ℝ) (mid : Nat → Fin g → ℝ) (fc : List Nat) :
    Facet → Prop
  | .interior p m => (fc = [p, m] ∨ fc = [m, p]) ∧ OnPlusSide n facetMid (mid p) ∧
      OnMinusSide n facetMid (mid m)
  | .boundary c => fc = [c]

def Facet.Cells (P : Nat → Prop) : Facet → Prop
  | .interior p m => P p ∧ P m
  | .boundary c => P c

/-- Jump (plus minus minus) or average of the two values; on the boundary the only value. -/
def Facet.combine {K : Type} [Field K] (r : Two) (val : Nat → K) : Facet → K
  | .interior p m => match r with
    | .avg => (val p + val m) / 2
    | .jump => val p - val m
  | .boundary c => val c

/-- Cells of a discontinuous space do not share dofs. -/
def Discontinuous {K X : Type} (S : Space K X) : Prop :=
  ∀ t t', t < S.numCells → t' < S.numCells → t ≠ t' → ∀ d ∈ S.cellDofs t, d ∉ S.cellDofs t'

end Verif.Trace
