import Verif.Model.Patch
import Verif.Model.Mortar
/-!
# Union of meshes (xii/meshing/union_mesh.py)

`dist` is the norm of the difference of two points, `bdry` gives the vertices of the facets which `DomainBoundary` marks, in
the order in which the set of them is listed, and `order` is the order in which a set of integers is listed.  `make_mesh`
keeps vertices and cells; the order of vertices in a cell is not significant.
-/
namespace Verif.Union
open Verif Verif.BlockOps Verif.Mortar

/-- What is used of a mesh; `leafs` if it has the attribute. -/
structure UMesh (P : Type) where
  id : Nat
  tdim : Nat
  gdim : Nat
  coords : List P
  cells : List (List Nat)
  leafs : Option (List (Nat × List Nat))
  deriving DecidableEq

variable {P K : Type} [LinearOrder K]

/-- The loop over boundary vertices of the first mesh, union_mesh.py:36-45: vertices to be popped, the rest of the boundary
    vertices of the second mesh with their coordinates, `shared_vertices`. -/
def matchLoop (dist : P → P → K) (tol : K) (x0 : List P) :
    List Nat → List (Nat × P) → List (Nat × Nat) → Py (List (Nat × Nat))
  | [], _, sh => .ok sh
  | i :: is, rest, sh => do
      let x ← pyGet x0 i
      let imin ← Patch.argmin (rest.map (fun q => dist q.2 x))
      let q ← pyGet rest imin
      if dist q.2 x < tol then matchLoop dist tol x0 is (rest.eraseIdx imin) (dictSet sh q.1 i)
      else matchLoop dist tol x0 is rest sh

/-- `lg1[k]` of the dictionary. -/
def dictGet (d : List (Nat × Nat)) (k : Nat) : Py Nat :=
  match d.lookup k with
  | some v => .ok v
  | none => .error .keyError

/-- `lg1`, union_mesh.py:58-62.  The keys are all vertices of the second mesh, so the values sorted by keys are listed; no
    key is in both dictionaries. -/
def makeMap (offset n1 : Nat) (unshared : List Nat) (shared : List (Nat × Nat)) : Py (List Nat) :=
  pyMap (dictGet (unshared.zip (List.range' offset unshared.length) ++ shared)) (List.range n1)

/-- Leafs of the second mesh, union_mesh.py:78-82. -/
def mapLeafs (lg1 : List Nat) (M1 : UMesh P) : Py (List (Nat × List Nat)) :=
  match M1.leafs with
  | none => .ok [(M1.id, lg1)]
  | some l => pyMap (fun p => do
      let m ← pyMap (pyGet lg1) p.2
      .ok (p.1, m)) l

/-- `union_mesh` of two meshes, union_mesh.py:19-84: the new mesh and the first mesh afterwards, whose list of leafs is the
    one of the new mesh. -/
def unionTwo (dist : P → P → K) (tol : K) (bdry : UMesh P → List Nat) (order : List Nat → List Nat) (newId : Nat)
    (M0 M1 : UMesh P) : Py (UMesh P × UMesh P) := do
  (if M0.gdim = M1.gdim ∧ M0.tdim = M1.tdim then .ok () else .error .valueError)
  (if bdry M0 = [] ∨ bdry M1 = [] then .error .valueError else .ok ())
  let rest ← pyMap (fun j => do
    let p ← pyGet M1.coords j
    .ok (j, p)) (bdry M1)
  let shared ← matchLoop dist tol M0.coords (bdry M0).reverse rest []
  let unshared := order ((List.range M1.coords.length).filter (fun j => decide (j ∉ shared.map (fun p => p.1))))
  let xs ← pyMap (pyGet M1.coords) unshared
  let lg1 ← makeMap M0.coords.length M1.coords.length unshared shared
  let mapped ← pyMap (pyMap (pyGet lg1)) M1.cells
  let leafs1 ← mapLeafs lg1 M1
  let leafs := M0.leafs.getD [(M0.id, List.range M0.coords.length)] ++ leafs1
  .ok (⟨newId, M0.tdim, M0.gdim, M0.coords ++ xs, M0.cells ++ mapped, some leafs⟩,
    { M0 with leafs := M0.leafs.map (fun _ => leafs) })

/-- `union_mesh`, union_mesh.py:6-84.  In Python 3 the slice `meshes[:num_meshes/2+1]` raises. -/
def unionMesh (dist : P → P → K) (tol : K) (bdry : UMesh P → List Nat) (order : List Nat → List Nat) (newId : Nat) :
    List (UMesh P) → Py (UMesh P)
  | [] => .error .assertion
  | [M] => .ok M
  | [M0, M1] => do
      let r ← unionTwo dist tol bdry order newId M0 M1
      .ok r.1
  | _ => .error .typeError

end Verif.Union
