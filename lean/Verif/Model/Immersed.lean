import Mathlib.Algebra.Order.Field.Rat
import Mathlib.Data.List.Dedup
import Mathlib.Tactic.Linarith
import Verif.Model.Py
/-!
# The meshes of the demos with an immersed square (demo/utils.py)

The mesh is the one of dolfin's `UnitSquareMesh(n, n)`: vertices are the points `(a / n, b / n)`, given by `(a, b)`.  Cells and facets are
lists of their vertices in the order of the vertex numbers.
-/
namespace Verif.Immersed
open Verif

/-- A vertex of the grid. -/
abbrev Pt := ℕ × ℕ

/-- `UnitSquareMesh(n, n)` of dolfin, demo/utils.py:32: two triangles in each square, with the diagonal to the right. -/
def unitSquare (n : ℕ) : List (List Pt) :=
  (List.range n).flatMap fun y => (List.range n).flatMap fun x =>
    [[(x, y), (x + 1, y), (x + 1, y + 1)], [(x, y), (x, y + 1), (x + 1, y + 1)]]

/-- The facets of a cell (dolfin). -/
def facets : List Pt → List (List Pt)
  | [a, b, c] => [[b, c], [a, c], [a, b]]
  | _ => []

/-- The coordinates of a vertex. -/
def coords (n : ℕ) (p : Pt) : ℚ × ℚ := ((p.1 : ℚ) / n, (p.2 : ℚ) / n)

/-- The midpoint of an entity (dolfin). -/
def midpoint (xs : List (ℚ × ℚ)) : ℚ × ℚ :=
  ((xs.map Prod.fst).sum / xs.length, (xs.map Prod.snd).sum / xs.length)

/-- `near` of dolfin, with its default tolerance `DOLFIN_EPS`. -/
def near (eps x x0 : ℚ) : Bool := decide (x0 - eps ≤ x ∧ x ≤ x0 + eps)

/-- `0.25-DOLFIN_EPS < t && t < 0.75+DOLFIN_EPS`. -/
def between (eps t : ℚ) : Bool := decide (1 / 4 - eps < t ∧ t < 3 / 4 + eps)

/-- The inner domain, demo/utils.py:34-37. -/
def innerSquare (eps : ℚ) (x : ℚ × ℚ) : Bool := between eps x.1 && between eps x.2

/-- The pieces of the interface, demo/utils.py:45-48 and 58-61, in the order of the dictionary. -/
def interfaceSides (eps : ℚ) : List (ℕ × (ℚ × ℚ → Bool)) :=
  [(1, fun x => near eps x.1 (1 / 4) && between eps x.2),
   (2, fun x => near eps x.1 (3 / 4) && between eps x.2),
   (3, fun x => near eps x.2 (1 / 4) && between eps x.1),
   (4, fun x => near eps x.2 (3 / 4) && between eps x.1)]

/-- `outer_boundaries`, demo/utils.py:44-52. -/
def outerSides (eps : ℚ) : List (ℕ × (ℚ × ℚ → Bool)) :=
  interfaceSides eps ++
  [(5, fun x => near eps x.1 0), (6, fun x => near eps x.1 1), (7, fun x => near eps x.2 0), (8, fun x => near eps x.2 1)]

/-- `SubDomain.mark` of dolfin for one entity: all vertices and the midpoint have to be inside. -/
def isMarked (n : ℕ) (inside : ℚ × ℚ → Bool) (e : List Pt) : Bool :=
  (e.map (coords n)).all inside && inside (midpoint (e.map (coords n)))

/-- The value on an entity after marking by all the domains in order, demo/utils.py:38-39, 53 and 63: the last one wins. -/
def markAll (n : ℕ) (start : ℕ) (sides : List (ℕ × (ℚ × ℚ → Bool))) (e : List Pt) : ℕ :=
  sides.foldl (fun t s => if isMarked n s.2 e then s.1 else t) start

/-- `cell_f`, demo/utils.py:38-39. -/
def cellColor (eps : ℚ) (n : ℕ) (c : List Pt) : ℕ := markAll n 1 [(2, innerSquare eps)] c

/-- A mesh with the marking function which is returned. -/
structure Geometry where
  cells : List (List Pt)
  mark : List Pt → ℕ

/-- `EmbeddedMesh(cell_f, tag)`, demo/utils.py:41 and 55: the cells with the tag.  Simplified: vertices keep the numbers of the full mesh, the
    maps are in the model of embedded meshes. -/
def subMesh (eps : ℚ) (n tag : ℕ) : List (List Pt) := (unitSquare n).filter fun c => cellColor eps n c == tag

/-- The facets of a mesh, each one once (dolfin). -/
def allFacets (cells : List (List Pt)) : List (List Pt) := (cells.flatMap facets).dedup

/-- `immersed_geometry(i, which)`, demo/utils.py:13-73; `eps` is `DOLFIN_EPS`. -/
def immersedGeometry (eps : ℚ) (i : ℕ) (which : String) : Py Geometry :=
  let n := 4 * 2 ^ i
  let outer := subMesh eps n 1
  let outerFF := markAll n 0 (outerSides eps)
  let inner := subMesh eps n 2
  let innerFF := markAll n 0 (interfaceSides eps)
  if which = "outer" then .ok ⟨outer, outerFF⟩
  else if which = "inner" then .ok ⟨inner, innerFF⟩
  else if which = "interface" then
    .ok ⟨(allFacets inner).filter fun f => [1, 2, 3, 4].contains (innerFF f), innerFF⟩
  else .error .assertion

/-- `normalsS`, demo/dq_darcy_stokes.py:49: the entry at `t - 1` goes with the tag `t` (lines 92-94). -/
def normalsS : List (ℚ × ℚ) := [(1, 0), (-1, 0), (0, 1), (0, -1), (-1, 0), (1, 0), (0, -1), (0, 1)]

/-- `normalsD`, demo/dq_darcy_stokes.py:55. -/
def normalsD : List (ℚ × ℚ) := [(-1, 0), (1, 0), (0, -1), (0, 1)]

/-- `normalsI`, demo/dq_darcy_stokes.py:58 and demo/emi_primal.py:38. -/
def normalsI : List (ℚ × ℚ) := [(1, 0), (-1, 0), (0, 1), (0, -1)]

/-- `boundaries`, demo/twoDoneDoneD.py:33-39. -/
def gammaSides (eps : ℚ) : List (ℕ × (ℚ × ℚ → Bool)) :=
  [(1, fun x => near eps x.1 0),
   (2, fun x => near eps x.1 1),
   (3, fun x => near eps x.2 0 && decide (x.1 < 1 / 2 + eps)),
   (4, fun x => near eps x.2 0 && decide (1 / 2 - eps < x.1)),
   (5, fun x => near eps x.2 1 && decide (x.1 < 1 / 2 + eps)),
   (6, fun x => near eps x.2 1 && decide (1 / 2 - eps < x.1)),
   (7, fun x => near eps x.1 (1 / 2))]

/-- `get_geometry(i)`, demo/twoDoneDoneD.py:21-42: the colours of cells and of facets on `UnitSquareMesh(n, n)` for `n = 4·2^i`. -/
def gammaGeometry (eps : ℚ) (i : ℕ) : (List Pt → ℕ) × (List Pt → ℕ) :=
  let n := 4 * 2 ^ i
  (markAll n 1 [(2, fun x => decide (1 / 2 - eps < x.1))], markAll n 0 (gammaSides eps))

/-- `dirichlet_omega`, demo/twoDoneDoneD.py:88-89: the part of the solution (1 for `u0`, 2 for `u1`) prescribed on facets with the tag. -/
def dirichletOmega : List (ℕ × ℕ) := [(1, 1), (3, 1), (5, 1), (2, 2), (4, 2), (6, 2)]

end Verif.Immersed
