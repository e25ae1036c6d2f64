import Mathlib.Data.List.Sort
import Mathlib.Logic.Relation
import Verif.Model.Py
/-! # `is_continuous`, xii/meshing/mortar_mesh.py -/
namespace Verif.Continuous
open Verif

/-- What the function asks of a mesh: its dimensions, the vertices of its cells, and for each vertex the edges at it
(`mesh.topology()(0, 1)`, in any order). -/
structure Mesh where
  tdim : Nat
  gdim : Nat
  numCells : Nat
  numVertices : Nat
  c2v : Nat → List Nat
  v2e : Nat → List Nat

/-- `list(zip(cells[:-1], cells[1:]))`, mortar_mesh.py:154. -/
def pairs : List Nat → List (Nat × Nat)
  | a :: b :: l => (a, b) :: pairs (b :: l)
  | _ => []

/-- The edge `tuple(cell.entities(0))` of a cell, mortar_mesh.py:143; networkx refuses other tuples. -/
def cellEdge : List Nat → Option (Nat × Nat)
  | [a, b] => some (a, b)
  | _ => none

/-- The edges of the graph, mortar_mesh.py:140-155.  Line 145 sets `tdim` to the value of a comparison: for surfaces it
is `True`, which counts as 1, so that lines 149-152 visit the vertices of the mesh and the edges at each of them. -/
def graphEdges (M : Mesh) : List (Nat × Nat) :=
  if M.tdim = 1 then (List.range M.numCells).filterMap (fun c => cellEdge (M.c2v c))
  else (List.range M.numVertices).flatMap (fun v => pairs ((M.v2e v).insertionSort (· ≤ ·)))

/-- `nx.number_connected_components(G) == 1` for the graph with these edges, mortar_mesh.py:157: there are nodes, and
all of them are joined by edges taken in either direction. -/
def oneComponent (E : List (Nat × Nat)) : Prop :=
  E ≠ [] ∧ ∀ a b, (∃ e ∈ E, a = e.1 ∨ a = e.2) → (∃ e ∈ E, b = e.1 ∨ b = e.2) →
    Relation.ReflTransGen (fun x y => (x, y) ∈ E ∨ (y, x) ∈ E) a b

open Classical in
/-- `is_continuous`, mortar_mesh.py:130-157, for meshes of curves and surfaces. -/
noncomputable def isContinuous (M : Mesh) : Py Bool := do
  pyAssert (decide (M.tdim < M.gdim))
  .ok (decide (oneComponent (graphEdges M)))

end Verif.Continuous
