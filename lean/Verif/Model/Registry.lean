import Verif.Model.Embedding
/-!
# The maps into other meshes kept in a mesh (`parent_entity_map`), and the functions which change or read them
-/
namespace Verif.Registry
open Verif Verif.Embedding

/-- Attributes of a mesh: `parent_entity_map` and `tagged_cells` (of `Embedding.TraceMesh`; only the maps of the cells
    are kept), and the array 'parent_cell' of `mesh.data()`, which is there if the mesh is the result of `refine`. -/
structure Attrs where
  mesh : TraceMesh
  parentCell : Option (List Nat)

/-- `mesh_id in mesh.parent_entity_map`, false if there is no such attribute. -/
def hasMap (t : TraceMesh) (id : Nat) : Bool := ((t.maps.getD []).lookup id).isSome

/-- `dict(enumerate(l))`. -/
def enumerated (l : List Nat) : List (Nat × Nat) := (List.range l.length).zip l

/-- The meshes part of `Injection`, injection_form.py:36-56, for an argument on the mesh `cmesh`: `parent_entity_map`
    is replaced if there is no map for `cmesh` and the mesh was refined. -/
def injection (cmesh : Nat) (method : String) (a : Attrs) : Py Attrs :=
  if hasMap a.mesh cmesh then .ok a
  else match a.parentCell with
    | some cells => .ok { a with mesh := ⟨some [(cmesh, enumerated cells)], a.mesh.tagged⟩ }
    | none => do
        pyAssert (method = "interpolate" || method = "project")
        .ok a

/-- `EmbeddedMesh.compute_embedding`, embedded_mesh.py:141-142 and 185, with the map `m` found in between (see
    `Embedding.computeEmbedding`). -/
def computeEmbedding (id : Nat) (m : Py (List (Nat × Nat))) (a : Attrs) : Py Attrs :=
  match a.mesh.maps with
  | none => .error .attributeError
  | some maps =>
      if hasMap a.mesh id then .error .valueError
      else do
        let m ← m
        .ok { a with mesh := ⟨some ((id, m) :: maps), a.mesh.tagged⟩ }

/-- Calls which may change the maps. -/
inductive Op where
  | injection (cmesh : Nat) (method : String)
  | entityMap (id : Nat) (tags : List Nat)
  | embedding (id : Nat) (m : Py (List (Nat × Nat)))

/-- One call; `build`, `marks` as in `Embedding.getEntityMap`. -/
def Op.run (build : Nat → List Nat → Py (List (Nat × Nat))) (marks : List Nat) (a : Attrs) : Op → Py Attrs
  | .injection c method => Registry.injection c method a
  | .entityMap id tags => do
      let t ← getEntityMap (build id) id (some marks) (some tags) a.mesh
      .ok { a with mesh := t }
  | .embedding id m => computeEmbedding id m a

/-- Calls one after the other; those which raise change nothing. -/
def history (build : Nat → List Nat → Py (List (Nat × Nat))) (marks : List Nat) : List Op → Attrs → Attrs
  | [], a => a
  | o :: os, a =>
      match o.run build marks a with
      | .ok a' => history build marks os a'
      | .error _ => history build marks os a

/-- How `trace_3d1d_matrix` finds the cell of the mesh `id` for a cell of the line mesh,
    average_matrix.py:268-283: by the map, or by the position (`none`) if there is no `parent_entity_map`. -/
def averageMap (id : Nat) (t : TraceMesh) : Py (Option (List (Nat × Nat))) :=
  match t.maps with
  | none => .ok none
  | some maps =>
      match maps.lookup id with
      | some m => .ok (some m)
      | none => .error .keyError

/-- The map used by `restriction_mat`, restriction_matrix.py:35 and 48. -/
def restrictionMap (id : Nat) (t : TraceMesh) : Py (List (Nat × Nat)) :=
  match t.maps with
  | none => .error .attributeError
  | some maps =>
      match maps.lookup id with
      | some m => .ok m
      | none => .error .assertion

end Verif.Registry
