import Verif.Model.RandomCurve
import Mathlib.Logic.Relation
import Mathlib.Data.List.Chain
/-! # Curves in graphs -/
namespace Verif.RandomCurve

/-- Two vertices are the ends of an edge. -/
def Adjacent (edges : List (Nat × Nat)) (u v : Nat) : Prop := (u, v) ∈ edges ∨ (v, u) ∈ edges

/-- A path from `s` to `t` along edges. -/
def IsPath (edges : List (Nat × Nat)) (path : List Nat) (s t : Nat) : Prop :=
  path.IsChain (Adjacent edges) ∧ path.head? = some s ∧ path.getLast? = some t

/-- What `nx.shortest_path` returns is a path (that it is a shortest one is not needed). -/
def FindsPaths (edges : List (Nat × Nat)) (sp : Nat → Nat → Py (List Nat)) : Prop :=
  ∀ s t path, sp s t = .ok path → IsPath edges path s t

/-- The edges of a mesh: pairs of different vertices, the smaller first, each once. -/
def Edges (edges : List (Nat × Nat)) : Prop := edges.Nodup ∧ ∀ e ∈ edges, e.1 < e.2

/-- Two vertices are the ends of a marked edge. -/
def Joined (edges : List (Nat × Nat)) (f : List Nat) (u v : Nat) : Prop :=
  ∃ i : Nat, (edges[i]? = some (u, v) ∨ edges[i]? = some (v, u)) ∧ f[i]? = some 1

/-- The vertices of the curve. -/
def OnCurve (edges : List (Nat × Nat)) (f : List Nat) (u : Nat) : Prop := ∃ v, Joined edges f u v

/-- The curve is connected. -/
def Connected (edges : List (Nat × Nat)) (f : List Nat) : Prop :=
  ∀ u v, OnCurve edges f u → OnCurve edges f v → Relation.ReflTransGen (Joined edges f) u v

/-- Consecutive vertices of a path, in either order. -/
def Consecutive (path : List Nat) (u v : Nat) : Prop := ∃ l r, path = l ++ u :: v :: r ∨ path = l ++ v :: u :: r

end Verif.RandomCurve
