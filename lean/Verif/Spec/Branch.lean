import Verif.Model.Branch
import Mathlib.Logic.Relation
import Mathlib.Data.List.Chain
/-!
# Branches of line meshes
-/
namespace Verif.Branch
open Verif

/-- `v` is a vertex of the cell `c`. -/
def EndOf (c2v : Nat → Nat × Nat) (v c : Nat) : Prop := v = (c2v c).1 ∨ v = (c2v c).2

/-- A line mesh: cells are pairs of different vertices, `v2c v` lists the cells with the vertex `v`. -/
structure Line.OK (G : Line) : Prop where
  lt : ∀ c < G.nc, (G.c2v c).1 < G.nv ∧ (G.c2v c).2 < G.nv
  ne : ∀ c < G.nc, (G.c2v c).1 ≠ (G.c2v c).2
  mem : ∀ v c, c ∈ G.v2c v ↔ c < G.nc ∧ EndOf G.c2v v c
  nodup : ∀ v, (G.v2c v).Nodup

/-- The cells `c` and `c'` share a vertex with no other cells. -/
def Meet (G : Line) (c c' : Nat) : Prop :=
  ∃ v, (G.v2c v).length ≤ 2 ∧ c ∈ G.v2c v ∧ c' ∈ G.v2c v

/-- The cells are joined by a path which passes no branching vertex. -/
def Joined (G : Line) : Nat → Nat → Prop := Relation.ReflTransGen (Meet G)

/-- The vertex ends branches: it is a tip or a branching vertex. -/
def IsTerminal (G : Line) (v : Nat) : Prop := v < G.nv ∧ (G.v2c v).length ≠ 2

/-- The cell is on a branch with an end. -/
def OnBranch (G : Line) (c : Nat) : Prop :=
  ∃ c' v, Joined G c c' ∧ IsTerminal G v ∧ c' ∈ G.v2c v

/-- The branch of the cell `c` returns to the vertex it started from. -/
def Returns (G : Line) (c : Nat) : Prop :=
  ∀ c' v c'' w, Joined G c c' → IsTerminal G v → c' ∈ G.v2c v →
    Joined G c c'' → IsTerminal G w → c'' ∈ G.v2c w → v = w

/-- The marked cells form a line: they are connected, and no vertex has more than two of them. -/
structure Curve (c2v : Nat → Nat × Nat) (cells : List Nat) : Prop where
  ne : ∀ c ∈ cells, (c2v c).1 ≠ (c2v c).2
  two : ∀ v, (cells.filter (fun c => decide (v = (c2v c).1) || decide (v = (c2v c).2))).length ≤ 2
  conn : ∀ c ∈ cells, ∀ c' ∈ cells,
    Relation.ReflTransGen (fun a b => a ∈ cells ∧ b ∈ cells ∧ ∃ v, EndOf c2v v a ∧ EndOf c2v v b) c c'

/-- The number of marked cells with the vertex `v`. -/
def degree (c2v : Nat → Nat × Nat) (cells : List Nat) (v : Nat) : Nat :=
  (cells.filter (fun c => decide (v = (c2v c).1) || decide (v = (c2v c).2))).length

end Verif.Branch

namespace Verif.Branch

/-- Consecutive oriented cells of the list are joined tip to tail, from the vertex `s` to the vertex `e`. -/
def TipToTail (c2v : Nat → Nat × Nat) (l : List (Nat × Bool)) (s e : Nat) : Prop :=
  (∀ p, l.head? = some p → (oriented c2v p).1 = s) ∧ (∀ p, l.getLast? = some p → (oriented c2v p).2 = e) ∧
  ∀ (i : Nat) (p q : Nat × Bool), l[i]? = some p → l[i + 1]? = some q → (oriented c2v p).2 = (oriented c2v q).1

end Verif.Branch
