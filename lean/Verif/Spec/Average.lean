import Verif.Model.Average
import Verif.Spec.DofMat
/-!
# Averages
-/
namespace Verif.Average
open Verif Verif.DofMat
variable {K P : Type}

/-- A discontinuous space on the line mesh with `size` components: the dofs of the cells are distinct,
    and the dof of component `k` is the `k`-th after the dof of the first component. -/
structure Line.WF (L : Line P) (size : Nat) : Prop where
  nodup : ∀ t, t < L.numCells → (L.cellDofs t).Nodup
  lt : ∀ t, t < L.numCells → ∀ d ∈ L.cellDofs t, ∀ k, k < size → d + k < L.dim
  distinct : ∀ t, t < L.numCells → ∀ t', t' < L.numCells → ∀ d ∈ L.cellDofs t, ∀ d' ∈ L.cellDofs t',
    ∀ k, k < size → ∀ k', k' < size → d + k = d' + k' → t = t' ∧ d = d' ∧ k = k'

/-- Integral by the quadrature rule. -/
def quadSum [CommRing K] (f : P → K) (pts : List P) (ws : List K) : K :=
  ((pts.zip ws).map (fun q => q.2 * f q.1)).sum

/-- Mean by the quadrature rule. -/
def quadMean [Field K] (f : P → K) (pts : List P) (ws : List K) : K := quadSum f pts ws / ws.sum

/-- The function `f` extended by zero to points which are in no cell. -/
def zeroOutside [Zero K] (limit : Nat) (collide : P → Nat) (f : P → K) : P → K :=
  fun p => if collide p < limit then f p else 0

/-- The value at a point of component `k` of the function `u`, evaluated on the cell found by collision. -/
def valueAt [CommRing K] (V : Space K (P × Nat)) (collide : P → Nat) (u : Nat → K) (k : Nat) : P → K :=
  fun p => fnOn V u (collide p) (p, k)

end Verif.Average
