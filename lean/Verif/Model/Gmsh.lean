import Verif.Model.BlockOps
import Verif.Model.Embedded
import Mathlib.Algebra.Field.Defs
import Mathlib.Order.Defs.LinearOrder
import Mathlib.Data.Finset.Dedup
/-!
# Meshes from gmsh (xii/meshing/gmsh_interopt.py)

Arrays are lists (of rows).  The gmsh API enters as data: the nodes with their tags and, for each physical group, the
elements of its entities.  `df.MeshEditor` is trusted to keep the vertices and the cells which it is given (it refuses a cell
with an unknown vertex); `order` is the permutation of the vertices of a cell done by `editor.close()`.  `ents` lists the
vertices of the entities of a mesh of the given dimension, in the numbering of dolfin.
-/
namespace Verif.Gmsh
open Verif Verif.BlockOps Verif.Embedded

/-- `element_data[elm]`: the array `topology` (its number of columns and its rows) and `cell_data`. -/
structure Block where
  width : Nat
  rows : List (List Nat)
  tags : List Nat
  deriving DecidableEq

/-- What is used of a mesh. -/
structure GMesh (K : Type) where
  tdim : Nat
  gdim : Nat
  verts : List (List K)
  cells : List (List Nat)
  deriving DecidableEq

/-- `elm_tdim`, gmsh_interopt.py:100: the dimension of a tetrahedron (4) is 2 there. -/
def elmTdim : Nat → Nat
  | 1 => 1
  | 2 => 2
  | 4 => 2
  | _ => 0

/-- `max(keys, key=f)`: the first of the largest ones. -/
def maxBy (f : Nat → Nat) : List Nat → Py Nat
  | [] => .error .valueError
  | a :: l => .ok (l.foldl (fun m x => if f m < f x then x else m) a)

/-- `np.min`. -/
def npMin : List Nat → Py Nat
  | [] => .error .valueError
  | a :: l => .ok (l.foldl min a)

/-- `node_map[c]` of `node_map = {old: new for old, new in enumerate(vtx_idx)}`, gmsh_interopt.py:110-113. -/
def nodeMap (vtxIdx : List Nat) (c : Nat) : Py Nat :=
  match vtxIdx[c]? with
  | some v => .ok v
  | none => .error .keyError

/-- `build_mesh`, gmsh_interopt.py:9-31, for an interval or a triangle; `vwidth`, `cwidth` are the numbers of columns. -/
def buildMesh {K : Type} (order : List Nat → List Nat) (verts : List (List K)) (vwidth : Nat) (cells : List (List Nat))
    (cwidth tdim gdim : Nat) : Py (GMesh K) := do
  pyAssert (decide (gdim = vwidth))
  pyAssert (decide (tdim + 1 = cwidth))
  (if cells.all (fun c => c.all (fun v => decide (v < verts.length))) then .ok () else .error .runtimeError)
  .ok ⟨tdim, gdim, verts, cells.map order⟩

/-- `reduce(and, (set(v2e(v)) for v in entity))`: entities which have all the vertices. -/
def common (es : List (List Nat)) (entity : List Nat) : List Nat :=
  (List.range es.length).filter (fun e => entity.all (fun v => decide (v ∈ es.getD e [])))

/-- The loop over elements of a lower dimension, gmsh_interopt.py:154-164; `f` are the values of the mesh function. -/
def tagLoop (vtxIdx : List Nat) (es : List (List Nat)) : List (List Nat × Nat) → List Nat → Py (List Nat)
  | [], f => .ok f
  | (row, tag) :: l, f => do
      let entity ← pyMap (nodeMap vtxIdx) row
      (if entity = [] then .error .typeError else .ok ())
      match common es entity with
      | [e] =>
          pyAssert (decide (entity.toFinset = (es.getD e []).toFinset))
          tagLoop vtxIdx es l (f.set e tag)
      | _ => .error .valueError

/-- The loop over element types, gmsh_interopt.py:139-166; `out` is `entity_functions`. -/
def elmLoop (vtxIdx : List Nat) (ents : Nat → List (List Nat)) (cellElm : Nat) :
    List (Nat × Block) → List (Nat × List Nat) → Py (List (Nat × List Nat))
  | [], out => .ok out
  | (elm, b) :: l, out =>
      if elm = cellElm then elmLoop vtxIdx ents cellElm l out
      else do
        let m ← npMin b.tags
        if m = 0 then elmLoop vtxIdx ents cellElm l out
        else do
          let es := ents (elmTdim elm)
          let f ← tagLoop vtxIdx es (b.rows.zip b.tags) (List.replicate es.length 0)
          elmLoop vtxIdx ents cellElm l ((elmTdim elm, f) :: out)

/-- `entity_functions[cell_tdim]`, gmsh_interopt.py:130-135 (the values are assigned to the array of the function, so there
    must be one for each cell). -/
def cellFunction (b : Block) (tdim : Nat) : Py (List (Nat × List Nat)) := do
  let m ← npMin b.tags
  if 0 < m then
    if b.tags.length = b.rows.length then .ok [(tdim, b.tags)] else .error .valueError
  else .ok []

/-- The third coordinates are small, gmsh_interopt.py:121; the norm is compared through its square. -/
def flat {K : Type} [Field K] [LinearOrder K] (tol : K) (vs : List (K × K × K)) : Bool :=
  decide ((vs.map (fun p => p.2.2 ^ 2)).sum < tol ^ 2)

/-- A vertex of the mesh. -/
def coords {K : Type} (planar : Bool) (p : K × K × K) : List K := if planar then [p.1, p.2.1] else [p.1, p.2.1, p.2.2]

/-- `mesh_from_gmsh`, gmsh_interopt.py:95-168.  `entity_functions` is a list of pairs, the latest first. -/
def meshFromGmsh {K : Type} [Field K] [LinearOrder K] (tol : K) (order : List Nat → List Nat)
    (ents : GMesh K → Nat → List (List Nat)) (nodes : List (K × K × K)) (data : List (Nat × Block)) :
    Py (GMesh K × List (Nat × List Nat)) := do
  pyAssert (data.all (fun p => decide (p.1 ∈ [1, 2, 4])))
  let cellElm ← maxBy elmTdim (data.map (fun p => p.1))
  let b ← (match data.lookup cellElm with | some b => .ok b | none => .error .keyError)
  let vtxIdx := npUnique b.rows.flatten
  let vs ← pyMap (pyGet nodes) vtxIdx
  let cells ← pyMap (pyMap (nodeMap vtxIdx)) b.rows
  let planar := flat tol vs
  let gdim := if planar then 2 else 3
  let mesh ← buildMesh order (vs.map (coords planar)) gdim cells b.width (elmTdim cellElm) gdim
  let cellF ← cellFunction b (elmTdim cellElm)
  let fs ← elmLoop vtxIdx (ents mesh) cellElm data cellF
  .ok (mesh, fs)

/-! ## Data of a gmsh model -/

/-- An entity: for each type of elements on it the number of nodes of an element and the nodes (tags) of the elements. -/
abbrev Entity := List (Nat × Nat × List (List Nat))

/-- `data[element_type]` updated by the elements of an entity, gmsh_interopt.py:67-84 (`np.row_stack` needs rows of the same
    length). -/
def addElements (data : List (Nat × Block)) (elm width : Nat) (rows : List (List Nat)) (tag : Nat) :
    Py (List (Nat × Block)) :=
  let topo := rows.map (fun r => r.map (fun t => t - 1))
  match data.lookup elm with
  | some b =>
      if b.width = width then
        .ok (data.map (fun p => if p.1 = elm then
          (elm, ⟨b.width, b.rows ++ topo, b.tags ++ List.replicate rows.length tag⟩) else p))
      else .error .valueError
  | none => .ok (data ++ [(elm, ⟨width, topo, List.replicate rows.length tag⟩)])

/-- `element_type, = element_types`, gmsh_interopt.py:63-66. -/
def addEntity (data : List (Nat × Block)) (tag : Nat) : Entity → Py (List (Nat × Block))
  | [(elm, width, rows)] => addElements data elm width rows tag
  | _ => .error .valueError

/-- The loop over entities of a physical group. -/
def addGroup (tag : Nat) : List Entity → List (Nat × Block) → Py (List (Nat × Block))
  | [], data => .ok data
  | e :: es, data => do
      let data ← addEntity data tag e
      addGroup tag es data

/-- The loop over physical groups, gmsh_interopt.py:56-84. -/
def addGroups : List (Nat × List Entity) → List (Nat × Block) → Py (List (Nat × Block))
  | [], data => .ok data
  | (tag, es) :: gs, data => do
      let data ← addGroup tag es data
      addGroups gs data

/-- `msh_gmsh_model`, gmsh_interopt.py:34-92: `tagged` are the nodes as gmsh returns them, with their tags (distinct, from 1),
    `groups` the physical groups.  Options and the generation of the mesh are gmsh's. -/
def mshGmshModel {P : Type} (tagged : List (Nat × P)) (groups : List (Nat × List Entity)) :
    Py (List P × List (Nat × Block)) := do
  let data ← addGroups groups []
  .ok ((tagged.insertionSort (fun a b => a.1 ≤ b.1)).map (fun p => p.2), data)

end Verif.Gmsh
