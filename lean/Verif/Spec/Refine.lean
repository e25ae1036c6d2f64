import Verif.Model.Refine
import Mathlib.Algebra.Module.Defs
/-!
# Simplices
-/
namespace Verif.Refine
variable (K : Type) {E : Type} [Field K] [LinearOrder K] [AddCommGroup E] [Module K E]

/-- The combination of the points with the weights. -/
def comb (w : List K) (l : List E) : E := (List.zipWith (fun a p => a • p) w l).sum

/-- The simplex with the given vertices. -/
def Hull (l : List E) (y : E) : Prop := ∃ w : List K, w.length = l.length ∧ (∀ a ∈ w, 0 ≤ a) ∧ w.sum = 1 ∧ comb K w l = y

/-- The simplex without its boundary. -/
def OpenHull (l : List E) (y : E) : Prop := ∃ w : List K, w.length = l.length ∧ (∀ a ∈ w, 0 < a) ∧ w.sum = 1 ∧ comb K w l = y

/-- The points are affinely independent. -/
def AffInd (l : List E) : Prop := ∀ w : List K, w.length = l.length → w.sum = 0 → comb K w l = 0 → ∀ a ∈ w, a = 0

/-- Areas are proportional to barycentric coordinates, and do not depend on where the new point is listed. -/
structure Barycentric (area : List E → K) (n : Nat) : Prop where
  child : ∀ (l : List E) (w : List K), l.length = n → w.length = n → w.sum = 1 → ∀ (i : Nat) (a : K), w[i]? = some a →
    area (l.eraseIdx i ++ [comb K w l]) = |a| * area l
  front : ∀ (l : List E) (x : E) (i : Nat), l.length = n → i < n → area (x :: l.eraseIdx i) = area (l.eraseIdx i ++ [x])

/-- The points of the cell `i` of a mesh. -/
def IsCell (M : RMesh E) (i : Nat) (l : List E) : Prop :=
  ∃ cell, M.cells[i]? = some cell ∧ List.Forall₂ (fun (v : Nat) p => M.coords[v]? = some p) cell l

/-- The cells have `n` vertices, which are vertices of the mesh. -/
def RMesh.OK (M : RMesh E) (n : Nat) : Prop := ∀ cell ∈ M.cells, cell.length = n ∧ ∀ v ∈ cell, v < M.coords.length

/-- The rule for new points gives one point for each cell, and inside it. -/
def Inner (newPts : List E → List (List Nat) → List E) (n : Nat) : Prop :=
  ∀ M : RMesh E, M.OK n → (newPts M.coords M.cells).length = M.cells.length ∧
    ∀ c l x, IsCell M c l → (newPts M.coords M.cells)[c]? = some x → OpenHull K l x

/-- The cells of `F` with the parent `c` in `F.cmap` tile the cell `c` of `M`: together they make the cell, their
    interiors are in its interior, and if the cell is nondegenerate so are they and their interiors are disjoint. -/
structure Tiles (M F : RMesh E) : Prop where
  parent : ∀ i, i < F.cells.length → ∃ c, c < M.cells.length ∧ F.cmap[i]? = some c
  nomore : F.cmap.length = F.cells.length
  union : ∀ c l, IsCell M c l → ∀ y, Hull K l y ↔ ∃ i l', F.cmap[i]? = some c ∧ IsCell F i l' ∧ Hull K l' y
  interior : ∀ c l, IsCell M c l → ∀ i l', F.cmap[i]? = some c → IsCell F i l' → ∀ y, OpenHull K l' y → OpenHull K l y
  nondegenerate : ∀ c l, IsCell M c l → AffInd K l → ∀ i l', F.cmap[i]? = some c → IsCell F i l' → AffInd K l'
  disjoint : ∀ c l, IsCell M c l → AffInd K l → ∀ i j, i ≠ j → F.cmap[i]? = some c → F.cmap[j]? = some c →
    ∀ li lj, IsCell F i li → IsCell F j lj → ∀ y, OpenHull K li y → ¬ OpenHull K lj y

/-- `CellCentroid`, the points of `centroid_refine`. -/
def centroids (K : Type) [Field K] {E : Type} [AddCommGroup E] [Module K E] (x : List E) (cells : List (List Nat)) : List E :=
  cells.map (fun cell => (1 / (cell.length : K)) • (cell.map (fun v => x.getD v 0)).sum)

/-- The number of refinements which `inner_point_refine` makes. -/
def levels (nrefs : Int) : Nat := if 1 < nrefs then nrefs.toNat else 1

end Verif.Refine
