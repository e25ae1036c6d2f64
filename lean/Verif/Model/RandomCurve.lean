import Verif.Model.Py
/-!
# Random curves in meshes (apps/enumath/meshing.py, apps/d123/meshing.py)

The choices of `random` are a list given in advance (used up: `outOfFuel`), `nx.shortest_path` is the parameter `sp`.
-/
namespace Verif.RandomCurve
open Verif

/-- `tuple(sorted(..))` of two vertices, and `(v0, v1) if v0 < v1 else (v1, v0)`. -/
def key (u v : Nat) : Nat × Nat := if u < v then (u, v) else (v, u)

/-- `edge_indices[edge]`, apps/enumath/meshing.py:108-109, 153 (apps/d123/meshing.py:153-154, 166): the position of the edge in the
    list of edges.  Edges of a mesh are distinct; of equal ones the first is taken here. -/
def edgeIndex (edges : List (Nat × Nat)) (e : Nat × Nat) : Py Nat :=
  match edges.idxOf? e with
  | some i => .ok i
  | none => .error .keyError

/-- The loop over the edges of a path, apps/enumath/meshing.py:151-153, apps/d123/meshing.py:164-166. -/
def markPath (edges : List (Nat × Nat)) : List Nat → List Nat → Py (List Nat)
  | u :: v :: path, f => do
      let i ← edgeIndex edges (key u v)
      markPath edges (v :: path) (f.set i 1)
  | _, f => .ok f

/-- The loop over the reversed path, apps/enumath/meshing.py:138-144: `clean_path` and `first`. -/
def clean (bc : Nat → Bool) : List Nat → List Nat × Option Nat
  | [] => ([], none)
  | p :: ps => if bc p then ([p], some p) else (p :: (clean bc ps).1, (clean bc ps).2)

/-- The loop `while npoints`, apps/enumath/meshing.py:124-155; each member of the list is one call of `random.choice` (line 127).
    `bc` tells the vertices of `bc_vertices`. -/
def walk (edges : List (Nat × Nat)) (sp : Nat → Nat → Py (List Nat)) (bc : Nat → Bool) :
    List Nat → Nat → Option Nat → Int → List Nat → Py (List Nat × Option Nat)
  | [], _, first, n, f => if n = 0 then .ok (f, first) else .error .outOfFuel
  | c :: cs, start, first, n, f =>
      if n = 0 then .ok (f, first)
      else if start ≠ c ∧ bc c = false then
        match sp start c with
        | .error e => .error e
        | .ok path =>
            match first with
            | none =>
                match markPath edges (clean bc path.reverse).1 f with
                | .error e => .error e
                | .ok f' => walk edges sp bc cs c (clean bc path.reverse).2 (n - 1) f'
            | some v =>
                if path.any bc then walk edges sp bc cs start (some v) n f
                else
                  match markPath edges path f with
                  | .error e => .error e
                  | .ok f' => walk edges sp bc cs c (some v) (n - 1) f'
      else walk edges sp bc cs start first n f

/-- `fun`, apps/enumath/meshing.py:98-158: the marked edges and `first` (the coordinates of which are returned).  `start` is the vertex
    nearest to the corner, line 119. -/
def randomCurve (edges : List (Nat × Nat)) (sp : Nat → Nat → Py (List Nat)) (bc : Nat → Bool) (choices : List Nat) (start : Nat)
    (npoints : Int) : Py (List Nat × Option Nat) :=
  walk edges sp bc choices start none npoints (List.replicate edges.length 0)

/-- The vertex belongs to a marked edge, so it is a vertex of `EmbeddedMesh(edge_f, 1)`. -/
def used (edges : List (Nat × Nat)) (f : List Nat) (v : Nat) : Bool :=
  (edges.zip f).any (fun p => p.2 == 1 && (p.1.1 == v || p.1.2 == v))

/-- `load`, apps/enumath/meshing.py:87-95, of a mesh with `nv` vertices. -/
def load (edges : List (Nat × Nat)) (sp : Nat → Nat → Py (List Nat)) (bc : Nat → Bool) (choices : List Nat) (start : Nat)
    (npoints : Int) (nv : Nat) : Py (List Nat × Option Nat) := do
  let r ← randomCurve edges sp bc choices start npoints
  pyAssert (decide (((List.range nv).filter (fun v => used edges r.1 v && bc v)).length = 1))
  .ok r

/-- The loop of `fun`, apps/d123/meshing.py:157-166, for the pairs found by `random.sample`. -/
def selectPaths (edges : List (Nat × Nat)) (sp : Nat → Nat → Py (List Nat)) : List (Nat × Nat) → List Nat → Py (List Nat)
  | [], f => .ok f
  | (v0, v1) :: pairs, f =>
      if v0 = v1 then selectPaths edges sp pairs f
      else
        match sp v0 v1 with
        | .error e => .error e
        | .ok path =>
            match markPath edges path f with
            | .error e => .error e
            | .ok f' => selectPaths edges sp pairs f'

/-- `fun`, apps/d123/meshing.py:143-168. -/
def randomEdges (edges : List (Nat × Nat)) (sp : Nat → Nat → Py (List Nat)) (pairs : List (Nat × Nat)) : Py (List Nat) :=
  selectPaths edges sp pairs (List.replicate edges.length 0)

end Verif.RandomCurve
