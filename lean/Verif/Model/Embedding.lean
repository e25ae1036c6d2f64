import Verif.Model.Embedded
import Mathlib.Algebra.Field.Defs
import Mathlib.Order.Defs.LinearOrder
/-!
# Embedding maps (xii/meshing/embedded_mesh.py:127-190, 374-482, xii/meshing/subdomain_mesh.py:15-93,
xii/assembler/trace_matrix.py:513-558)

Meshes are given by their connectivities.  `collide v` stands for the cells of the background mesh found by
`tree.compute_entity_collisions` at the vertex `v` of the embedded mesh, and `dist v w` for the distance of the
vertex `v` of the embedded mesh from the vertex `w` of the background mesh.  Arithmetic is exact.
-/
namespace Verif.Embedding
open Verif Verif.BlockOps Verif.DofMat Verif.Embedded
variable {K : Type}

/-- Best of the rest in `min(l, key=key)`: the first of the smallest wins. -/
def minFrom [LinearOrder K] (key : Nat → K) : Nat → List Nat → Nat
  | best, [] => best
  | best, x :: xs => if key x < key best then minFrom key x xs else minFrom key best xs

/-- `min(l, key=key)`. -/
def pyMinBy [LinearOrder K] (key : Nat → K) : List Nat → Py Nat
  | [] => .error .valueError
  | x :: xs => .ok (minFrom key x xs)

/-- What `build_embedding_map` asks of the two meshes. -/
structure Data (K : Type) where
  collide : Nat → List Nat
  dist : Nat → Nat → K
  scale : K
  tol : K

/-- The dicts `vertex_map` and `cells_with_vertex`, which have the same keys. -/
abbrev Cache := List (Nat × (Nat × List Nat))

/-- embedded_mesh.py:443-454: image and cells of a vertex which was not met before.
    `error < tol` with `error = dist/scale` is written as `dist < tol*scale`: they agree for `scale > 0`, and for
    `scale = 0` numpy gives nan or inf, so that both are false. -/
def locate [Field K] [LinearOrder K] (D : Data K) (c2v : Nat → List Nat) (v : Nat) : Py (Nat × List Nat) := do
  let mcells := D.collide v
  let m0 ← pyGet mcells 0
  let w ← pyMinBy (D.dist v) (c2v m0)
  pyAssert (decide (D.dist v w < D.tol * D.scale))
  .ok (w, mcells)

/-- embedded_mesh.py:443-457: with the caches. -/
def locateCached [Field K] [LinearOrder K] (D : Data K) (c2v : Nat → List Nat) (v : Nat) (vm : Cache) :
    Py ((Nat × List Nat) × Cache) :=
  match vm.lookup v with
  | some r => .ok (r, vm)
  | none => do
      let r ← locate D c2v v
      .ok (r, (v, r) :: vm)

/-- `vertex_set`, embedded_mesh.py:461-463. -/
def vertexSet (T : Topo) (w : Nat) (mcells : List Nat) : List Nat :=
  ((mcells.flatMap T.c2e).filter (fun e => decide (w ∈ T.e2v e))).dedup

/-- `if not s: s.update(new) else: s.intersection_update(new)`, embedded_mesh.py:465-468, subdomain_mesh.py:80-83. -/
def meet (s new : List Nat) : List Nat :=
  if s.isEmpty then new else s.filter (fun e => decide (e ∈ new))

/-- `for vertex in cell.entities(0)`, embedded_mesh.py:442-468. -/
def vertexLoop [Field K] [LinearOrder K] (D : Data K) (T : Topo) : List Nat → List Nat → Cache →
    Py (List Nat × Cache)
  | [], s, vm => .ok (s, vm)
  | v :: vs, s, vm => do
      let (r, vm) ← locateCached D T.c2v v vm
      vertexLoop D T vs (meet s (vertexSet T r.1 r.2)) vm

/-- `the_entity.pop()` after `assert len(the_entity) == 1`. -/
def single : List Nat → Py Nat
  | [e] => .ok e
  | _ => .error .assertion

/-- `for cell in tagged_cells`, embedded_mesh.py:439-471; `cells` are the vertices of the cells of the embedded
    mesh.  `em` is `entity_map[edim]`, the latest entry first. -/
def cellLoop [Field K] [LinearOrder K] (D : Data K) (T : Topo) (cells : Nat → List Nat) :
    List Nat → Cache → List (Nat × Nat) → Py (Cache × List (Nat × Nat))
  | [], vm, em => .ok (vm, em)
  | c :: cs, vm, em => do
      let (s, vm) ← vertexLoop D T (cells c) [] vm
      let e ← single s
      cellLoop D T cells cs vm ((c, e) :: em)

/-- Consecutive differences. -/
def diffs : List Nat → List Nat
  | a :: b :: l => (b - a) :: diffs (b :: l)
  | _ => []

/-- `is_1_sequence`, embedded_mesh.py:374-380. -/
def is1Sequence (l : List Nat) : Bool :=
  npUnique (diffs (l.insertionSort (· ≤ ·))) == [1]

/-- `build_embedding_map`, embedded_mesh.py:383-482 for a mesh which is not a `BoundaryMesh` flagged by the user
    (then the maps of dolfin are returned, 409-416).  `marks` are the values of `esubdomains`, `none` for
    `esubdomains=None`.  The result are the vertex map and the cell map. -/
def buildEmbeddingMap [Field K] [LinearOrder K] (D : Data K) (T : Topo) (dimsOk : Bool) (numVerts numCells : Nat)
    (cells : Nat → List Nat) (marks : Option (List Nat)) (tags : Option (List Nat)) :
    Py (List (Nat × Nat) × List (Nat × Nat)) := do
  pyAssert dimsOk
  pyAssert (marks.isSome || tags.isNone)
  let marks := marks.getD (List.replicate numCells 0)
  let allCheck := tags.isNone
  let tags := tags.getD [0]
  let (vm, em) ← cellLoop D T cells (tags.flatMap (whereEq marks)) [] []
  let keys0 := (vm.map (fun p => p.1)).dedup
  let keys := (em.map (fun p => p.1)).dedup
  pyAssert (!allCheck || decide (keys0.length = numVerts))
  pyAssert (!allCheck || decide (keys.length = numCells))
  pyAssert (!allCheck || is1Sequence keys0)
  pyAssert (!allCheck || is1Sequence keys)
  .ok (vm.map (fun p => (p.1, p.2.1)), em)

/-! ## OverlapMesh -/

/-- `for vertex in cell.entities(0)`, subdomain_mesh.py:63-83; a vertex without collisions raises there
    `StopIteration` (of `next(iter(mcells))`) and not the error of `locate`. -/
def overlapVertices [Field K] [LinearOrder K] (D : Data K) (c2v : Nat → List Nat) : List Nat → List Nat → Cache →
    Py (List Nat × Cache)
  | [], s, vm => .ok (s, vm)
  | v :: vs, s, vm => do
      let (r, vm) ← locateCached D c2v v vm
      overlapVertices D c2v vs (meet s r.2) vm

/-- `for cell in df.cells(emesh)`, subdomain_mesh.py:58-86 (collisions are lists without repetition).
    The lists `vertex_map`, `cell_map` are kept as dicts. -/
def overlapLoop [Field K] [LinearOrder K] (D : Data K) (c2v cells : Nat → List Nat) :
    List Nat → Cache → List (Nat × Nat) → Py (Cache × List (Nat × Nat))
  | [], vm, em => .ok (vm, em)
  | c :: cs, vm, em => do
      let (s, vm) ← overlapVertices D c2v (cells c) [] vm
      let e ← single s
      overlapLoop D c2v cells cs vm ((c, e) :: em)

/-- The map of `OverlapMesh` to the cells of `mesh2`, subdomain_mesh.py:36-91, with the checks that no vertex and
    no cell is left out. -/
def overlapMap [Field K] [LinearOrder K] (D : Data K) (c2v cells : Nat → List Nat) (numVerts numCells : Nat) :
    Py (List (Nat × Nat)) := do
  let (vm, em) ← overlapLoop D c2v cells (List.range numCells) [] []
  pyAssert ((List.range numVerts).all (fun v => (vm.lookup v).isSome))
  pyAssert ((List.range numCells).all (fun c => (em.lookup c).isSome))
  .ok em

/-! ## compute_embedding -/

/-- `min` of numbers. -/
def minK [LinearOrder K] : List K → Py K
  | [] => .error .valueError
  | x :: xs => .ok (xs.foldl min x)

/-- `max` of numbers. -/
def maxK [LinearOrder K] : List K → Py K
  | [] => .error .valueError
  | x :: xs => .ok (xs.foldl max x)

/-- `max(min(norm(entity_x - xp)) for xp in x[c2v(cell)])`, embedded_mesh.py:176-178.  `dist v w` is the distance of
    the vertex `v` of the embedded mesh from the vertex `w` of the parent. -/
def mismatch [LinearOrder K] (dist : Nat → Nat → K) (ev cv : List Nat) : Py K := do
  let ds ← pyMap (fun v => minK (ev.map (dist v))) cv
  maxK ds

/-- `min(matching, key=lambda p: p[1])` where the first is `best`. -/
def minPair [LinearOrder K] : Nat × K → List (Nat × K) → Nat × K
  | best, [] => best
  | best, p :: ps => if p.2 < best.2 then minPair p ps else minPair best ps

/-- Intersection of the nonempty list of sets, `reduce(operator.and_, ..)`. -/
def interAll : List (List Nat) → Py (List Nat)
  | [] => .error .typeError
  | s :: ss => .ok (ss.foldl (fun a b => a.filter (fun x => decide (x ∈ b))) s)

/-- The loop over entities, embedded_mesh.py:162-182; `collide w` are the cells of the embedded mesh which collide
    with the vertex `w` of the parent, `e2v` the vertices of the entities of the parent. -/
def embedLoop [LinearOrder K] (collide : Nat → List Nat) (dist : Nat → Nat → K) (tol : K)
    (e2v c2v : Nat → List Nat) : List Nat → List (Nat × Nat) → Py (List (Nat × Nat))
  | [], m => .ok m
  | e :: es, m => do
      let ev := e2v e
      let maybe ← interAll (ev.map collide)
      let matching ← pyMap (fun c => do let d ← mismatch dist ev (c2v c); .ok (c, d)) maybe
      match matching with
      | [] => .error .valueError
      | p :: ps => do
          let (c, d) := minPair p ps
          pyAssert (decide (d < tol))
          embedLoop collide dist tol e2v c2v es ((c, e) :: m)

/-- The loop over tags, embedded_mesh.py:158-160. -/
def embedTags [LinearOrder K] (collide : Nat → List Nat) (dist : Nat → Nat → K) (tol : K)
    (e2v c2v : Nat → List Nat) (marks : List Nat) : List Nat → List (Nat × Nat) → Py (List (Nat × Nat))
  | [], m => .ok m
  | t :: ts, m => do
      pyAssert (!(whereEq marks t).isEmpty)
      let m ← embedLoop collide dist tol e2v c2v (whereEq marks t) m
      embedTags collide dist tol e2v c2v marks ts m

/-- `EmbeddedMesh.compute_embedding`, embedded_mesh.py:127-190: the map from cells to the tagged entities.
    `present` says that there is a map for the mesh already. -/
def computeEmbedding [LinearOrder K] (collide : Nat → List Nat) (dist : Nat → Nat → K) (tol : K)
    (dimsOk present : Bool) (e2v c2v : Nat → List Nat) (marks tags : List Nat) : Py (List (Nat × Nat)) := do
  pyAssert dimsOk
  if present then .error .valueError else embedTags collide dist tol e2v c2v marks tags []

/-! ## get_entity_map -/

/-- The attributes of the trace mesh: `parent_entity_map` (mesh id to cell map) and `tagged_cells`;
    the vertex maps, which are never read here, are left out. -/
structure TraceMesh where
  maps : Option (List (Nat × List (Nat × Nat)))
  tagged : Option (List Nat)

/-- `get_entity_map`, trace_matrix.py:513-558, for a mesh with the id `id`.  `build tags` stands for the cell map of
    `build_embedding_map(trace_mesh, mesh, subdomains, tags)`, `marks` for the values of `subdomains` (`none` if
    it is `None`).  `subdomains.dim()` is taken to be the dimension of the cells.  A map is updated by putting
    the new entries first. -/
def getEntityMap (build : List Nat → Py (List (Nat × Nat))) (id : Nat) (marks : Option (List Nat))
    (tags : Option (List Nat)) (t : TraceMesh) : Py TraceMesh := do
  let tags := tags.getD [0]
  match t.maps with
  | some maps =>
      match t.tagged with
      | none => .error .assertion
      | some tagged =>
          match maps.lookup id with
          | none => do
              let m ← build tags
              .ok ⟨some ((id, m) :: maps), t.tagged⟩
          | some old =>
              let needed := tagged.filter (fun x => decide (x ∉ tags))
              match needed, marks with
              | _ :: _, none => .error .attributeError
              | _, _ =>
                  let cells := needed.flatMap (whereEq (marks.getD []))
                  if needed.isEmpty || cells.all (fun c => decide (c ∈ old.map (fun p => p.1))) then do
                    let m ← build tags
                    .ok ⟨some ((id, m ++ old) :: maps), t.tagged⟩
                  else .ok t
  | none => do
      let m ← build tags
      match t.tagged with
      | some (_ :: _) => .error .assertion
      | _ => .ok ⟨some [(id, m)], some tags⟩

end Verif.Embedding
