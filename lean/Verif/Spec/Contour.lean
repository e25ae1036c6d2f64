import Verif.Model.Contour
/-!
# Contours and line meshes
-/
namespace Verif.Contour
open Verif

section
variable {K E : Type} [Field K] [AddCommGroup E] [Module K E]

/-- `r` is the polygon `c` with every segment divided into `n` equal parts. -/
def Divides (K : Type) {E : Type} [Field K] [AddCommGroup E] [Module K E] (c r : List E) (n : Nat) : Prop :=
  r.length = (c.length - 1) * n + 1 ∧
  ∀ (j : Nat) (a b : E), c[j]? = some a → c[j + 1]? = some b → ∀ i ≤ n,
    r[j * n + i]? = some (a + ((i : K) / (n : K)) • (b - a))

end

/-- The vertices `vm` of a mesh with the coordinates `coords` are the points of the branch. -/
def Traces {P : Type} (coords : List P) (b : List P) (vm : List Nat) : Prop :=
  List.Forall₂ (fun p (v : Nat) => coords[v]? = some p) b vm

/-- `p` is an end of one of the branches. -/
def IsEnd {P : Type} (branches : List (List P)) (p : P) : Prop :=
  ∃ b ∈ branches, b.head? = some p ∨ b.getLast? = some p

/-- The vertex `v` of a mesh stands for the end `p` of a branch: it is one of the first `n` vertices, at `p` or within the
    tolerance. -/
def StandsFor {P K : Type} [LE K] (dist : P → P → K) (tol : K) (coords : List P) (n v : Nat) (p : P) : Prop :=
  v < n ∧ ∃ x, coords[v]? = some x ∧ (x = p ∨ dist x p ≤ tol)

/-- The vertices `vm` follow a branch with the ends `p` and `q` and the points `inner` between them. -/
def Follows {P K : Type} [LE K] (dist : P → P → K) (tol : K) (coords : List P) (n : Nat) (b : List P) (vm : List Nat) : Prop :=
  ∃ p q v w ws, b.head? = some p ∧ b.getLast? = some q ∧ vm = v :: (ws ++ [w]) ∧ StandsFor dist tol coords n v p ∧
    StandsFor dist tol coords n w q ∧ Traces coords b.tail.dropLast ws

/-- From the third one on every point is farther than the tolerance from all points before it. -/
def Apart {P K : Type} [LT K] (dist : P → P → K) (tol : K) (ends : List P) : Prop :=
  ∀ (i j : Nat) (x y : P), i < j → 2 ≤ j → ends[i]? = some x → ends[j]? = some y → tol < dist x y

end Verif.Contour
