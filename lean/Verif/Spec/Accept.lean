import Verif.Model.Accept
import Verif.Spec.Elements
/-!
# What annotations should accept, and what has a space
-/
namespace Verif.Accept
open Verif Elements

/-- Intervals, triangles and tetrahedra. -/
def Simplex (c : UCell) : Prop := c.name = .interval ∨ c.name = .triangle ∨ c.name = .tetrahedron

/-- `mesh` has cells with `k` dimensions less (and at least one) in the same space. -/
def Codim (k : Nat) (c mesh : UCell) : Prop :=
  Simplex c ∧ Simplex mesh ∧ mesh.tdim + k = c.tdim ∧ mesh.gdim = c.gdim

/-- Which requests are accepted, apart from the condition that the function is a terminal. -/
def Acceptable (e : Elem) : Request → Prop
  | .trace restriction mesh =>
      (∃ c, e.cell = some c ∧ Codim 1 c mesh) ∧
      (restriction = "" ∨ restriction = "+" ∨ restriction = "-" ∨ restriction = "jump" ∨ restriction = "avg")
  | .average shape embedded mesh =>
      (∃ c, e.cell = some c ∧ Codim 2 c mesh) ∧ (shape = false → embedded = true → e.family = "Lagrange")
  | .fluxAverage shape mesh => (∃ c, e.cell = some c ∧ Codim 2 c mesh) ∧ shape = true
  | .patchAverage vertex mesh patch =>
      e.shape = [] ∧ vertex.shape = [] ∧ (∀ p, patch = some p → p.1 = p.2) ∧
      ∃ c, e.cell = some c ∧ Simplex c ∧ mesh.name = .interval ∧ mesh.gdim = c.gdim
  | .mean => e.shape = []
  | .pointTrace point cell | .gradientPointTrace point cell =>
      (e.family = "Lagrange" ∨ e.family = "Discontinuous Lagrange") ∧ (∃ i, point = .index i) ∧ ∃ i, cell = .index i
  | .surfaceMean mesh => ∃ c, e.cell = some c ∧ Codim 1 c mesh
  | .restriction mesh | .injection mesh => e.cell = some mesh
  | .extension mesh =>
      ∃ c, e.cell = some c ∧ c.name = .interval ∧ (c.gdim = 2 ∨ c.gdim = 3) ∧ mesh.name = .triangle ∧ mesh.gdim = c.gdim
  | .transposeTrace maps parents full =>
      ∃ ms i, maps = some ms ∧ i ∈ ms ∧ (full = some i ∨ full = none ∧ parents = [i])

mutual
/-- All parts are on the cell; there are parts. -/
def OnCell (c : UCell) : Elem → Prop
  | .mixed es => es ≠ [] ∧ OnCellAll c es
  | .vector sub _ => OnCell c sub
  | e => e.cell = some c
/-- All of them. -/
def OnCellAll (c : UCell) : List Elem → Prop
  | [] => True
  | e :: es => OnCell c e ∧ OnCellAll c es
end

mutual
/-- The parts, of vectors too, are scalars, vectors or matrices. -/
def PartRanks : Elem → Prop
  | .mixed es => PartRanksAll es
  | .vector sub _ => PartRanks sub
  | e => e.shape.length ≤ 2
/-- All of them. -/
def PartRanksAll : List Elem → Prop
  | [] => True
  | e :: es => PartRanks e ∧ PartRanksAll es
end

mutual
/-- The parts, vectors as a whole, are scalars, vectors or matrices. -/
def LeafRanks : Elem → Prop
  | .mixed es => LeafRanksAll es
  | e => e.shape.length ≤ 2
/-- All of them. -/
def LeafRanksAll : List Elem → Prop
  | [] => True
  | e :: es => LeafRanks e ∧ LeafRanksAll es
end

/-- The integral is over the mesh which was given with the annotation; if none was, over the mesh of the function. -/
def Target (e : Elem) (mesh : UCell) : Request → Prop
  | .trace _ m | .average _ _ m | .fluxAverage _ m | .patchAverage _ m _ | .surfaceMean m | .restriction m | .injection m
  | .extension m => mesh = m
  | .mean | .pointTrace _ _ | .gradientPointTrace _ _ => e.cell = some mesh
  | .transposeTrace _ _ _ => True

/-- Which functions have a reduced space, for the kinds which treat elements as a whole. -/
def Reducible (e : Elem) : Request → Prop
  | .average _ _ _ => e.shape.length ≤ 2
  | .fluxAverage _ _ => e.shape.length = 1
  | .gradientPointTrace _ _ | .surfaceMean _ => e.shape = []
  | .pointTrace _ _ =>
      e.shape = [] ∨ (e.shape.length = 1 ∧ ∃ s n, e = .vector s n) ∨ (e.shape.length = 2 ∧ ∃ f c d s, e = .tensor f c d s)
  | _ => True

/-- These kinds. -/
def Whole : Request → Prop
  | .trace _ _ | .extension _ | .transposeTrace _ _ _ => False
  | _ => True

end Verif.Accept
