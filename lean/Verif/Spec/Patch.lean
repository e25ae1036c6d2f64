import Verif.Model.Patch
/-!
# Mean over a patch
-/
namespace Verif.Patch
open Verif
variable {K G : Type}

/-- The dofs of the cells are dofs of the space. -/
structure Space.WF (V : Space K) : Prop where
  lt : ∀ c, c < V.numCells → ∀ j ∈ V.cellDofs c, j < V.dim

/-- Integral over the cell `c` of the function with the coefficients `u`. -/
def cellIntegral [CommRing K] (V : Space K) (u : Nat → K) (c : Nat) : K :=
  ((V.cellDofs c).zipIdx.map (fun q => V.loc c q.2 * u q.1)).sum

/-- Cells of the patch `p`. -/
def patch (V : Space K) (pf : Nat → Nat) (p : Nat) : List Nat :=
  (List.range V.numCells).filter (fun c => pf c = p)

/-- Mean of a function over a patch. -/
def patchMean [Field K] (V : Space K) (pf : Nat → Nat) (u : Nat → K) (p : Nat) : K :=
  ((patch V pf p).map (cellIntegral V u)).sum / ((patch V pf p).map V.vol).sum

/-- Patches of the same group share no dofs. -/
def Separated (V : Space K) (pf : Nat → Nat) (coloring : List (Nat × G)) (colors : List Nat) : Prop :=
  ∀ p ∈ colors, ∀ q ∈ colors, p ≠ q → coloring.lookup p = coloring.lookup q → coloring.lookup p ≠ none →
    ∀ c ∈ patch V pf p, ∀ c' ∈ patch V pf q, ∀ j, j ∈ V.cellDofs c → j ∉ V.cellDofs c'

/-- Cells of all patches which are in the same group as the patch `p`, where `ids` are the patches of the dofs. -/
def groupCells [DecidableEq G] (V : Space K) (pf : Nat → Nat) (coloring : List (Nat × G)) (ids : List Nat) (p : Nat) : List Nat :=
  (List.range V.numCells).filter (fun c => pf c ∈ ids ∧ coloring.lookup (pf c) = coloring.lookup p)

/-- The part of a function which is carried by the dofs of the patch `p`. -/
def carried [Zero K] (V : Space K) (pf : Nat → Nat) (p : Nat) (u : Nat → K) (j : Nat) : K :=
  if ∃ c ∈ patch V pf p, j ∈ V.cellDofs c then u j else 0

/-- Integral of this part over the whole group, over the volume of the patch. -/
def groupMean [Field K] [DecidableEq G] (V : Space K) (pf : Nat → Nat) (coloring : List (Nat × G)) (ids : List Nat)
    (u : Nat → K) (p : Nat) : K :=
  ((groupCells V pf coloring ids p).map (cellIntegral V (carried V pf p u))).sum / ((patch V pf p).map V.vol).sum

end Verif.Patch
