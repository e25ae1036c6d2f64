import Verif.Model.SurfaceMean
import Verif.Model.Embedding
/-!
# Transposed traces: `xii/assembler/transpose_trace_form.py`, `transpose_trace_matrix.py`, `transpose_trace_assembly.py`
-/
namespace Verif.TransposeTrace
open Verif Verif.DofMat Verif.Trace Verif.Embedding
variable {K X : Type}

/-- What is asked about a trace mesh and the meshes (given by their ids) it is embedded into. -/
structure Meshes where
  /-- topological dimension of the trace mesh -/
  edim : Nat
  numVerts : Nat
  numCells : Nat
  cells : Nat → List Nat
  /-- values of `trace_mesh.marking_function` -/
  marks : List Nat
  /-- topological dimensions of the meshes -/
  dim : Nat → Nat
  /-- collisions and coordinates, as used by build_embedding_map -/
  geom : Nat → Embedding.Data ℚ
  topo : Nat → Embedded.Topo

/-- `build_embedding_map(trace_mesh, mesh, subdomains, tags)`, embedded_mesh.py:383-482, for the mesh `id`; line 390
    compares the topological dimensions. -/
def build (C : Meshes) (id : Nat) (tags : List Nat) : Py (List (Nat × Nat)) := do
  let r ← buildEmbeddingMap (C.geom id) (C.topo id) (decide (C.edim < C.dim id)) C.numVerts C.numCells C.cells
    (some C.marks) (some tags)
  .ok r.2

/-- `get_entity_map(mesh, trace_mesh, marking_function, tags)`, trace_matrix.py:513-558, for the mesh `id`. -/
def request (C : Meshes) (id : Nat) (tags : List Nat) (t : TraceMesh) : Py TraceMesh :=
  getEntityMap (build C id) id (some C.marks) (some tags) t

/-- The data of trace_mat_no_restrict for a space on the mesh `id`, with all the tags of the trace mesh,
    trace_matrix.py:82-94 and 106; `t` are the attributes of the trace mesh. -/
def traced {g : Nat} (C : Meshes) (id : Nat) (t : TraceMesh) (D : Trace.Data K X g) : Trace.Data K X g :=
  let tags := C.marks.dedup
  let r1 := request C id tags t
  let r2 := r1 >>= request C id tags
  { D with
    map1 := r1.map (fun _ => ())
    map2 := r2.map (fun _ => ())
    marks := C.marks
    tags := tags
    mapping := match r2 with
      | .ok t => ((t.maps.getD []).lookup id).getD []
      | .error _ => [] }

/-- `transpose_trace_mat`, transpose_trace_matrix.py:21-26 (without the cache), for a space `V` on the mesh `id`;
    `tag_data` is not used. -/
def transposeTraceMat [CommRing K] {g : Nat} (C : Meshes) (id : Nat) (t : TraceMesh) (V TV : Space K X)
    (D : Trace.Data K X g) : Py (Mat K) := do
  let E ← noRestrict V TV (traced C id t D)
  .ok E.tr

/-- `reduction_matrix` of the assembler, transpose_trace_assembly.py:37-39, as called by
    reduced_assembler.py:92-100: `V` is the space of the annotated argument, which lives on the mesh `own`, and `TV`
    is the space on the mesh of the integral. -/
def reductionMatrix [CommRing K] {g : Nat} (C : Meshes) (own : Nat) (t : TraceMesh) (V TV : Space K X)
    (D : Trace.Data K X g) : Py (Mat K) :=
  transposeTraceMat C own t V TV D

/-- `TransposeTrace`, transpose_trace_form.py:67-85: `maps` are the keys of `trace_mesh.parent_entity_map`,
    `parents` the ids of `trace_mesh.parent_meshes` (`none` if there is no such attribute), `full` is the id of the
    argument `full_mesh`.  The result is the id of `full_mesh` of the annotation. -/
def transposeTrace (isTerminal : Bool) (maps : Option (List Nat)) (parents : Option (List Nat))
    (full : Option Nat) : Py Nat := do
  pyAssert isTerminal
  pyAssert maps.isSome
  let f ← (match full, parents with
    | some f, _ => .ok f
    | none, some [f] => .ok f
    | none, some _ => .error .valueError
    | none, none => .error .attributeError : Py Nat)
  pyAssert ((maps.getD []).contains f)
  .ok f

/-- Requests made to a trace mesh; those which raise do not change it. -/
def afterRequests (C : Meshes) : List (Nat × List Nat) → TraceMesh → TraceMesh
  | [], t => t
  | (id, tags) :: rs, t =>
      match request C id tags t with
      | .ok t' => afterRequests C rs t'
      | .error _ => afterRequests C rs t

end Verif.TransposeTrace
