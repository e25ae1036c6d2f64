import Verif.Model.Union
import Mathlib.Data.Finset.Basic
/-!
# Glued meshes
-/
namespace Verif.Union
variable {P K : Type} [LinearOrder K]

/-- A vertex of a facet which only one cell has. -/
def IsBdry (M : UMesh P) (v : Nat) : Prop :=
  ∃ facet : Finset Nat, facet.card = M.tdim ∧ v ∈ facet ∧
    ∃ c : Nat, ∀ c' : Nat, (∃ cell, M.cells[c']? = some cell ∧ facet ⊆ cell.toFinset) ↔ c' = c

/-- Cells refer to vertices of the mesh. -/
def UMesh.OK (M : UMesh P) : Prop := ∀ cell ∈ M.cells, ∀ v ∈ cell, v < M.coords.length

/-- The contract of `DomainBoundary` and of a set: each boundary vertex is listed once. -/
def BdryOK (bdry : UMesh P → List Nat) : Prop := ∀ M : UMesh P, (bdry M).Nodup ∧ ∀ v, v ∈ bdry M ↔ IsBdry M v

/-- Vertex `i` of the first mesh and `j` of the second are on the boundary and closer than the tolerance. -/
def Near (dist : P → P → K) (tol : K) (M0 M1 : UMesh P) (i j : Nat) : Prop :=
  IsBdry M0 i ∧ IsBdry M1 j ∧ ∃ p q, M0.coords[i]? = some p ∧ M1.coords[j]? = some q ∧ dist q p < tol

/-- No boundary vertex is near two vertices of the other mesh. -/
def Separated (dist : P → P → K) (tol : K) (M0 M1 : UMesh P) : Prop :=
  (∀ i i' j, Near dist tol M0 M1 i j → Near dist tol M0 M1 i' j → i = i') ∧
  (∀ i j j', Near dist tol M0 M1 i j → Near dist tol M0 M1 i j' → j = j')

/-- `U` is made of `M0` and of `M1` with its vertices renumbered by `g`. -/
structure Glued (dist : P → P → K) (tol : K) (M0 M1 U : UMesh P) (g : List Nat) : Prop where
  coords0 : M0.coords <+: U.coords
  length : g.length = M1.coords.length
  inj : g.Nodup
  cells : U.cells = M0.cells ++ M1.cells.map (fun cell => cell.map (fun v => g.getD v 0))
  coords1 : ∀ j i : Nat, g[j]? = some i → M0.coords.length ≤ i → U.coords[i]? = M1.coords[j]?
  all : ∀ i, i < U.coords.length ↔ i < M0.coords.length ∨ i ∈ g
  sound : ∀ j i : Nat, g[j]? = some i → i < M0.coords.length → Near dist tol M0 M1 i j

/-- The leafs of a mesh; a mesh without them is its own leaf. -/
def UMesh.allLeafs (M : UMesh P) : List (Nat × List Nat) := M.leafs.getD [(M.id, List.range M.coords.length)]

/-- The maps of leafs take vertices of the meshes `X` to vertices at the distance at most `r`. -/
def LeafsOK (dist : P → P → K) (X : Nat → List P) (r : K) (M : UMesh P) : Prop :=
  ∀ id m, (id, m) ∈ M.allLeafs → m.length = (X id).length ∧
    ∀ (v : Nat) p, (X id)[v]? = some p → ∃ (i : Nat) (q : P), m[v]? = some i ∧ M.coords[i]? = some q ∧ dist p q ≤ r

/-- Meshes made from meshes without leafs by unions of two: their leafs and the number of times that vertices have been
    replaced. -/
inductive Made (dist : P → P → K) (tol : K) (bdry : UMesh P → List Nat) (order : List Nat → List Nat) (X : Nat → List P) :
    UMesh P → List Nat → Nat → Prop
  | leaf {M : UMesh P} : M.leafs = none → M.OK → X M.id = M.coords → Made dist tol bdry order X M [M.id] 0
  | union {M0 M1 U : UMesh P} {l0 l1 : List Nat} {d0 d1 newId : Nat} : Made dist tol bdry order X M0 l0 d0 →
      Made dist tol bdry order X M1 l1 d1 → unionMesh dist tol bdry order newId [M0, M1] = .ok U →
      Made dist tol bdry order X U (l0 ++ l1) (max d0 (d1 + 1))

end Verif.Union
