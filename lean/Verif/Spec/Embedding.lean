import Verif.Model.Embedding
import Verif.Spec.Embedded
import Mathlib.Algebra.Order.Ring.Defs
/-!
# What embedding maps should satisfy
-/
namespace Verif.Embedding
open Verif Verif.Embedded
variable {K : Type}

/-- The vertices `cv` of a cell and `ev` of an entity are the same up to the distance `δ`. -/
def Coincide [LT K] (dist : Nat → Nat → K) (δ : K) (cv ev : List Nat) : Prop :=
  (∀ v ∈ cv, ∃ w ∈ ev, dist v w < δ) ∧ ∀ w ∈ ev, ∃ v ∈ cv, dist v w < δ

/-- No vertex of the background mesh is closer than `δ` to two vertices of the cell. -/
def Separated [LT K] (dist : Nat → Nat → K) (δ : K) (cv : List Nat) : Prop :=
  ∀ v ∈ cv, ∀ v' ∈ cv, ∀ w, dist v w < δ → dist v' w < δ → v = v'

/-- Cells have distinct vertices, more than the entities, and each entity belongs to a cell. -/
structure BackgroundOK (T : Topo) (k : Nat) : Prop where
  simplicial : T.Simplicial k
  cells : ∀ c, c < T.numCells → (T.c2v c).Nodup ∧ k + 2 ≤ (T.c2v c).length
  covered : ∀ e, e < T.numEntities → T.e2c e ≠ []

/-- The collisions at a vertex of the embedded mesh close to the vertex `w` of the background mesh are the cells with the
    vertex `w`, and there is at most one such `w`. -/
structure CollisionsExact [LT K] (collide : Nat → List Nat) (dist : Nat → Nat → K) (δ : K) (T : Topo) : Prop where
  cells : ∀ v w, dist v w < δ → ∀ m, m ∈ collide v ↔ m < T.numCells ∧ w ∈ T.c2v m
  unique : ∀ v w w', dist v w < δ → dist v w' < δ → w = w'

/-- Every trace cell with one of the tags is mapped. -/
def Mapped (t : TraceMesh) (id : Nat) (marks tags : List Nat) : Prop :=
  ∃ maps m, t.maps = some maps ∧ maps.lookup id = some m ∧
    ∀ c x, x ∈ tags → marks[c]? = some x → ∃ e, m.lookup c = some e

/-- A sequence of requests `(id, tags)`; the first failure ends it. -/
def requests (build : Nat → List Nat → Py (List (Nat × Nat))) (marks : List Nat) :
    List (Nat × List Nat) → TraceMesh → Py TraceMesh
  | [], t => .ok t
  | (id, tags) :: rs, t => do
      let t ← getEntityMap (build id) id (some marks) (some tags) t
      requests build marks rs t

/-- `build` maps all cells with the tags. -/
def BuildsAll (build : List Nat → Py (List (Nat × Nat))) (marks : List Nat) : Prop :=
  ∀ tags m, build tags = .ok m → ∀ c x, x ∈ tags → marks[c]? = some x → ∃ e, m.lookup c = some e

end Verif.Embedding
