import Verif.Model.Tangent
import Mathlib.Logic.Relation
/-!
# What tangents of curves should be
-/
namespace Verif.Tangent
open Matrix
variable {d : Nat}

/-- The cell has the end points `a` and `b`. -/
def Joins (G : Curve d) (i a b : Nat) : Prop := G.cells[i]? = some (a, b) ∨ G.cells[i]? = some (b, a)

/-- Cells have two different end points, no two cells have the same ones. -/
structure Curve.Ok (G : Curve d) : Prop where
  lt : ∀ c ∈ G.cells, c.1 < G.X.length ∧ c.2 < G.X.length
  ne : ∀ c ∈ G.cells, G.X[c.1]? ≠ G.X[c.2]?
  simple : ∀ i j a b, Joins G i a b → Joins G j a b → i = j

/-- The unit vector `t` leads from the end point `a` of the cell to the end point `b`. -/
def Runs (G : Curve d) (i a b : Nat) (t : Fin d → ℝ) : Prop :=
  Joins G i a b ∧ t ⬝ᵥ t = 1 ∧ ∃ p q, G.X[a]? = some p ∧ G.X[b]? = some q ∧ ∃ s : ℝ, 0 < s ∧ q - p = s • t

/-- The tangent of the cell leads to the vertex. -/
def Enters (G : Curve d) (ts : List (Fin d → ℝ)) (v i : Nat) : Prop := ∃ a t, ts[i]? = some t ∧ Runs G i a v t

/-- The tangent of the cell leads away from the vertex. -/
def Leaves (G : Curve d) (ts : List (Fin d → ℝ)) (v i : Nat) : Prop := ∃ b t, ts[i]? = some t ∧ Runs G i v b t

/-- The vertex is an end of the curve. -/
def Terminal (G : Curve d) (v : Nat) : Prop := v < G.X.length ∧ ∃! i, ∃ a, Joins G i v a

/-- The curve is connected and has no loops. -/
structure Tree (G : Curve d) : Prop where
  connected : ∀ v w, v < G.X.length → w < G.X.length → Relation.ReflTransGen (fun a b => ∃ i, Joins G i a b) v w
  count : G.X.length = G.cells.length + 1

/-- What is assumed of `dfs_edges` of networkx: edges to new vertices from vertices already seen, until no neighbour is new. -/
structure IsDfs (G : Curve d) (root : Nat) (T : List (Nat × Nat)) : Prop where
  edge : ∀ e ∈ T, ∃ i, Joins G i e.1 e.2
  children : (T.map Prod.snd).Nodup
  start : root ∉ T.map Prod.snd
  parent : ∀ l e r, T = l ++ e :: r → e.1 = root ∨ e.1 ∈ l.map Prod.snd
  closed : ∀ i a b, Joins G i a b → (a = root ∨ a ∈ T.map Prod.snd) → (b = root ∨ b ∈ T.map Prod.snd)

/-- Each vertex has exactly two cells. -/
def Loop (G : Curve d) : Prop := ∀ v, v < G.X.length → ∃ i j, i ≠ j ∧ ∀ k, (∃ a, Joins G k v a) ↔ (k = i ∨ k = j)

/-- The point is inside the convex hull of the points. -/
def InsideHull (X : List (Fin d → ℝ)) (c : Fin d → ℝ) : Prop := ∀ u : Fin d → ℝ, u ≠ 0 → ∃ p ∈ X, 0 < (p - c) ⬝ᵥ u

/-- The point is outside the convex hull of the points. -/
def OutsideHull (X : List (Fin d → ℝ)) (c : Fin d → ℝ) : Prop := ∃ u : Fin d → ℝ, ∀ p ∈ X, (p - c) ⬝ᵥ u < 0

/-- All vertices of the curve are on the side of the cell from which the vector points away. -/
def OutwardOf (G : Curve d) (i : Nat) (n : Fin d → ℝ) : Prop :=
  ∀ a b p, Joins G i a b → G.X[a]? = some p → ∀ x ∈ G.X, n ⬝ᵥ (x - p) ≤ 0

/-- The rule takes opposite functions to opposite numbers. -/
def Odd (I : (ℝ → ℝ) → ℝ) : Prop := ∀ f, I (fun s => - f s) = - I f

end Verif.Tangent
