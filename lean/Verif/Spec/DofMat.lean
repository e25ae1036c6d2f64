import Verif.Model.DofMat
/-!
# What the evaluation matrices are to do
-/
namespace Verif.DofMat
open Verif Finset
variable {K X : Type}

/-- Dof maps and elements of dolfin: every cell has `space_dimension` distinct dofs of the space. -/
structure Space.WF (S : Space K X) : Prop where
  len : ∀ c, c < S.numCells → (S.cellDofs c).length = S.spaceDim
  nodup : ∀ c, c < S.numCells → (S.cellDofs c).Nodup
  lt : ∀ c, c < S.numCells → ∀ d ∈ S.cellDofs c, d < S.dim

/-- Degrees of freedom are linear functionals. -/
structure Space.LinearDofs [CommRing K] (S : Space K X) : Prop where
  add : ∀ c l f g, S.dofs c l (fun x => f x + g x) = S.dofs c l f + S.dofs c l g
  smul : ∀ c l a f, S.dofs c l (fun x => a * f x) = a * S.dofs c l f

/-- The function with coefficient vector `u`, on the cell `c`. -/
def fnOn [CommRing K] (S : Space K X) (u : Nat → K) (c : Nat) : X → K :=
  fun x => ∑ l ∈ range S.spaceDim, u ((S.cellDofs c).getD l 0) * S.basis c l x

/-- `d` is the `l`-th dof of the cell `t`, which is the first of the `cells` to have it. -/
def FirstAt (S : Space K X) (cells : List Nat) (t l d : Nat) : Prop :=
  ∃ pre post, cells = pre ++ t :: post ∧ (∀ s ∈ pre, d ∉ S.cellDofs s) ∧
    (S.cellDofs t)[l]? = some d

/-- `M` maps a coefficient vector `u` of `V` to the values of the degrees of freedom of `TV`: entry `d`
    of `M u` is the degree of freedom `d`, as defined by the first of the `cells` which has it, of the
    function `u` on the cell `choice t d`.  The entry is zero if there is no choice, or if no cell has
    the dof. -/
structure EvaluatesDofs [CommRing K] (V TV : Space K X) (cells : List Nat)
    (choice : Nat → Nat → Option Nat) (M : Mat K) : Prop where
  rows : M.rows = TV.dim
  cols : M.cols = V.dim
  row : ∀ (u : Nat → K) (t l d : Nat), FirstAt TV cells t l d →
    M.act u d = match choice t d with
      | some c => TV.dofs t l (fnOn V u c)
      | none => 0
  untouched : ∀ (u : Nat → K) (d : Nat), (∀ t ∈ cells, d ∉ TV.cellDofs t) → M.act u d = 0

/-- The degrees of freedom of `u` which are shared by several cells do not depend on the cell used to
    evaluate them. -/
def Unambiguous [CommRing K] (V TV : Space K X) (cells : List Nat) (choice : Nat → Nat) (u : Nat → K) :
    Prop :=
  ∀ t ∈ cells, ∀ t' ∈ cells, ∀ l l' d, (TV.cellDofs t)[l]? = some d → (TV.cellDofs t')[l']? = some d →
    TV.dofs t l (fnOn V u (choice t)) = TV.dofs t' l' (fnOn V u (choice t'))

end Verif.DofMat
