import Verif.Model.Py
import Verif.Model.BlockOps
import Verif.Model.DofMat
import Mathlib.Data.List.Sort
import Mathlib.Data.List.Dedup
/-!
# Embedded meshes (xii/meshing/embedded_mesh.py:15-125, 192-242, xii/meshing/transfer_markers.py)

A mesh is given by its connectivities, which dolfin computes.
-/
namespace Verif.Embedded
open Verif Verif.BlockOps Verif.DofMat
variable {P : Type}

/-- `np.where(array == tag)[0]`. -/
def whereEq (a : List Nat) (tag : Nat) : List Nat :=
  (List.range a.length).filter (fun e => a[e]? = some tag)

/-- `np.unique`. -/
def npUnique (l : List Nat) : List Nat := l.dedup.insertionSort (· ≤ ·)

/-- What is kept of the object: cells as vertices, coordinates, `parent_entity_map[..][0]`,
    `parent_entity_map[..][tdim]` (both `dict(enumerate(..))`), the values of `marking_function`, and
    `tagged_cells`. -/
structure EMesh (P : Type) where
  cells : List (List Nat)
  coords : List P
  vmap : List Nat
  cmap : List Nat
  marking : List Nat
  tagged : List Nat
  deriving DecidableEq

/-- `f_[a:b] = marker` on an array. -/
def setSlice (f : List Nat) (a b : Nat) (v : Nat) : List Nat :=
  (List.range f.length).map (fun i => if a ≤ i ∧ i < b then v else f.getD i 0)

/-- Lines 115-119: the loop over `enumerate(markers)`, with `offset = offsets[i]`. -/
def fillMarkers : List Nat → List (List Nat) → Nat → List Nat → List Nat
  | m :: ms, c :: cs, offset, f => fillMarkers ms cs (offset + c.length) (setSlice f offset (offset + c.length) m)
  | _, _, _, f => f

/-- Lines 82-125: a mesh of marked entities, whose vertices are `e2v`.  `make_mesh` builds the mesh with the
    given cells and coordinates; closing the dolfin editor sorts the vertices of each cell. -/
def embedEntities (e2v : Nat → List Nat) (coords : Nat → P) (marks markers : List Nat) : Py (EMesh P) := do
  pyAssert (!markers.isEmpty)
  let colorings := markers.map (whereEq marks)
  let entities := colorings.flatten
  let ev := entities.map e2v
  let verts := npUnique ev.flatten
  let cells ← pyMap (fun vs => pyMap (dictGet verts.zipIdx) vs) ev
  let f := List.replicate cells.length 0
  .ok { cells := cells.map (fun c => c.insertionSort (· ≤ ·))
        coords := verts.map coords
        vmap := verts
        cmap := entities
        marking := if 1 < markers.length then fillMarkers markers colorings 0 f
                   else List.replicate cells.length (markers.headD 0)
        tagged := markers }

/-- `dolfin.SubMesh`: its cells, coordinates, and the arrays `parent_vertex_indices`, `parent_cell_indices`. -/
structure SubMesh (P : Type) where
  cells : List (List Nat)
  coords : List P
  vmap : List Nat
  cmap : List Nat

/-- `array[cells] = v`, numpy raises for an index out of range. -/
def setAll (v : Nat) : List Nat → List Nat → Py (List Nat)
  | [], f => .ok f
  | c :: cs, f => if c < f.length then setAll v cs (f.set c v) else .error .indexError

/-- Lines 46-47: `one_cell_f` from the lists of cells of each marker. -/
def markOnes : List (List Nat) → List Nat → Py (List Nat)
  | [], f => .ok f
  | cs :: css, f => do
      let f ← setAll 1 cs f
      markOnes css f

/-- Lines 68-72: `f_values[new_cells] = color`. -/
def colorCells (old2new : List (Nat × Nat)) : List (Nat × List Nat) → List Nat → Py (List Nat)
  | [], f => .ok f
  | (color, old) :: rest, f => do
      let new ← pyMap (dictGet old2new) old
      let f ← setAll color new f
      colorCells old2new rest f

/-- Lines 40-80: a mesh of marked cells by `SubMesh(base_mesh, one_cell_f, 1)` (parameter `submesh`).
    `color_cells` is a dict, so repeated markers give one entry. -/
def embedCells (submesh : List Nat → SubMesh P) (marks markers : List Nat) : Py (EMesh P) := do
  pyAssert (!markers.isEmpty)
  let colors := markers.dedup.map (fun m => (m, whereEq marks m))
  let one ← markOnes (colors.map (fun p => p.2)) (List.replicate marks.length 0)
  let sub := submesh one
  let f ← if 1 < markers.length then colorCells sub.cmap.zipIdx colors (List.replicate sub.cells.length 0)
          else .ok (List.replicate sub.cells.length (markers.headD 0))
  .ok ⟨sub.cells, sub.coords, sub.vmap, sub.cmap, f, markers⟩

/-- `EmbeddedMesh.__init__`, embedded_mesh.py:23-125, in serial. -/
def embeddedMesh (meshDim fDim : Nat) (e2v : Nat → List Nat) (coords : Nat → P)
    (submesh : List Nat → SubMesh P) (marks markers : List Nat) : Py (EMesh P) := do
  pyAssert (decide (fDim ≤ meshDim))
  pyAssert (decide (0 < fDim))
  if meshDim = fDim then embedCells submesh marks markers
  else embedEntities e2v coords marks markers

/-! ## Markers -/

/-- Connectivities of a mesh between its cells and its entities of a lower dimension:
    `topology()(cdim, 0)`, `(edim, 0)`, `(cdim, edim)`, `(edim, cdim)`. -/
structure Topo where
  numCells : Nat
  numEntities : Nat
  c2v : Nat → List Nat
  e2v : Nat → List Nat
  c2e : Nat → List Nat
  e2c : Nat → List Nat

/-- Equality of python sets. -/
def setEq (a b : List Nat) : Bool := a.all (fun x => decide (x ∈ b)) && b.all (fun x => decide (x ∈ a))

/-- `dict((v, k) for k, v in d.items())` for `d = dict(enumerate(l))`, looked up: the last index wins. -/
def inverseGet (l : List Nat) (v : Nat) : Option Nat := l.zipIdx.reverse.lookup v

/-- The `while` loop, embedded_mesh.py:230-240: `parent_cells.pop()` takes the last one.  `e_, = matches` raises
    unless there is exactly one match, so the loop ends in its first iteration.  `cells` is the reversed list of
    parent cells. -/
def findLoop (child : Topo) (cmap : List Nat) (asVertex : List Nat) (value : Nat) (cells f : List Nat) :
    Py (List Nat) :=
  match cells with
  | [] => .ok f
  | c :: _ =>
      match inverseGet cmap c with
      | none => .error .keyError
      | some cc =>
          match (child.c2e cc).filter (fun e => setEq (child.e2v e) asVertex) with
          | [e] => setAll value [e] f
          | _ => .error .valueError

/-- Lines 225-240: one parent entity. -/
def translateEntity (parent child : Topo) (vmap cmap : List Nat) (values : List Nat) (f : List Nat) (e : Nat) :
    Py (List Nat) := do
  let av := (parent.e2v e).map (inverseGet vmap)
  if av.any (fun v => v.isNone) then .ok f
  else do
    let value ← pyGet values e
    let pcells := (parent.e2c e).filter (fun c => (inverseGet cmap c).isSome)
    findLoop child cmap (av.filterMap id) value pcells.reverse f

/-- The loops over tags and entities, embedded_mesh.py:221-240. -/
def translateLoop (parent child : Topo) (vmap cmap values : List Nat) : List Nat → List Nat → Py (List Nat)
  | [], f => .ok f
  | e :: es, f => do
      let f ← translateEntity parent child vmap cmap values f e
      translateLoop parent child vmap cmap values es f

/-- `translate_markers`, embedded_mesh.py:192-242; `values` is `entity_f.array()`, `marker` the initial values
    of `marker_f`.  `tags is None` is `tags = np.unique(entity_f.array())`. -/
def translateMarkers (parent child : Topo) (vmap cmap values : List Nat) (dimsOk : Bool)
    (tags : Option (List Nat)) (marker : Option (List Nat)) : Py (List Nat) := do
  pyAssert dimsOk
  let tags := match tags with
    | some t => t
    | none => npUnique values
  let f := match marker with
    | some f => f
    | none => List.replicate child.numEntities 0
  translateLoop parent child vmap cmap values (tags.flatMap (whereEq values)) f

/-- `for p_entity in p_c2e(..): found = ..; if found: break`, transfer_markers.py:53-57. -/
def matchEntity (parent : Topo) (values markers : List Nat) (asVertex : List Nat) : List Nat → Py (Option Nat)
  | [] => .ok none
  | e :: es => do
      let v ← pyGet values e
      if decide (v ∈ markers) && setEq (parent.e2v e) asVertex then .ok (some e)
      else matchEntity parent values markers asVertex es

/-- `for ch_cell in ch_cells`, transfer_markers.py:52-60 (a cell has entities, so `found` is defined). -/
def transferCells (parent : Topo) (cmap values markers asVertex : List Nat) : List Nat → Py (Option Nat)
  | [] => .ok none
  | c :: cs => do
      let pc ← pyGet cmap c
      let r ← matchEntity parent values markers asVertex (parent.c2e pc)
      match r with
      | some e => do
          let v ← pyGet values e
          .ok (some v)
      | none => transferCells parent cmap values markers asVertex cs

/-- `for entity in range(len(ch_values))`, transfer_markers.py:46-60. -/
def transferLoop (parent child : Topo) (vmap cmap values markers : List Nat) : List Nat → Py (List Nat)
  | [] => .ok []
  | e :: es => do
      let av ← pyMap (pyGet vmap) (child.e2v e)
      let r ← transferCells parent cmap values markers av (child.e2c e)
      let rest ← transferLoop parent child vmap cmap values markers es
      .ok (r.getD 0 :: rest)

/-- `transfer_markers`, transfer_markers.py:4-62. -/
def transferMarkers (parent child : Topo) (vmap cmap values : List Nat) (dimsOk : Bool)
    (markers : Option (List Nat)) : Py (List Nat) := do
  pyAssert dimsOk
  let markers := match markers with
    | some m => m
    | none => values.filter (fun v => v ≠ 0)
  transferLoop parent child vmap cmap values markers (List.range child.numEntities)

end Verif.Embedded
