import Verif.Model.Gmsh
import Mathlib.Data.Finset.Powerset
/-!
# Faithful import of a mesh
-/
namespace Verif.Gmsh
variable {K : Type}

/-- The coordinates of a vertex at a point of the model: two in the plane, three in space. -/
def place (planar : Bool) (p : K × K × K) : List K :=
  match planar, p with
  | true, (x, y, _) => [x, y]
  | false, (x, y, z) => [x, y, z]

/-- `M` is the mesh of the cells `rows`, given by nodes: node `n` is the vertex `g n`; every vertex comes from a node of a
    cell, different nodes give different vertices. -/
structure Imports (nodes : List (K × K × K)) (planar : Bool) (rows : List (List Nat)) (M : GMesh K) (g : Nat → Nat) :
    Prop where
  verts : ∀ row ∈ rows, ∀ n ∈ row, ∃ p, nodes[n]? = some p ∧ M.verts[g n]? = some (place planar p)
  inj : ∀ n ∈ rows.flatten, ∀ n' ∈ rows.flatten, g n = g n' → n = n'
  used : ∀ v, v < M.verts.length → ∃ n ∈ rows.flatten, g n = v
  cells : List.Forall₂ (fun cell row => cell.Perm (row.map g)) M.cells rows

/-- The tag of the last of the tagged elements which have the given vertices, 0 if there is none. -/
def lastTag (g : Nat → Nat) (elements : List (List Nat × Nat)) (vs : List Nat) : Nat :=
  (((elements.filter (fun p => (p.1.map g).toFinset = vs.toFinset)).getLast?).map (fun p => p.2)).getD 0

/-- The entities of dimension `d` of a mesh: each is listed once, the entities of the cells are all subsets of their
    vertices of the right size. -/
structure EntsOK (cells : List (List Nat)) (d : Nat) (es : List (List Nat)) : Prop where
  size : ∀ vs ∈ es, vs.Nodup ∧ vs.length = d + 1
  distinct : ∀ (i j : Nat) vs ws, es[i]? = some vs → es[j]? = some ws → vs.toFinset = ws.toFinset → i = j
  all : ∀ cell ∈ cells, ∀ s : Finset Nat, s ⊆ cell.toFinset → s.card = d + 1 → ∃ vs ∈ es, vs.toFinset = s

/-- Elements as gmsh gives them: some segments (type 1), triangles (2) or tetrahedra (4) with distinct nodes, each with a
    positive tag. -/
structure BlockOK (elm : Nat) (b : Block) : Prop where
  width : b.width = (if elm = 1 then 2 else if elm = 2 then 3 else 4)
  rows : ∀ r ∈ b.rows, r.length = b.width ∧ r.Nodup
  ne : b.rows ≠ []
  length : b.tags.length = b.rows.length
  pos : ∀ t ∈ b.tags, 0 < t

/-- Data for the import: a dictionary of such elements. -/
structure DataOK (data : List (Nat × Block)) : Prop where
  keys : (data.map (fun p => p.1)).Nodup
  elms : ∀ p ∈ data, p.1 ∈ [1, 2, 4]
  blocks : ∀ p ∈ data, BlockOK p.1 p.2

/-- The elements of type `elm` in the physical groups with the tags of the groups, in the order of groups, entities and
    elements; nodes are numbered from 0. -/
def elementsOf (elm : Nat) (groups : List (Nat × List Entity)) : List (List Nat × Nat) :=
  groups.flatMap (fun G => G.2.flatMap (fun E => (E.filter (fun x => x.1 = elm)).flatMap (fun x =>
    x.2.2.map (fun r => (r.map (fun t => t - 1), G.1)))))

/-- An entity as gmsh gives it: elements of one type, a segment, a triangle or a tetrahedron, with distinct nodes. -/
def EntityOK (E : Entity) : Prop :=
  ∃ elm width rows, E = [(elm, width, rows)] ∧ elm ∈ [1, 2, 4] ∧ width = (if elm = 1 then 2 else if elm = 2 then 3 else 4) ∧
    rows ≠ [] ∧ ∀ r ∈ rows, r.length = width ∧ r.Nodup ∧ ∀ t ∈ r, 0 < t

end Verif.Gmsh
