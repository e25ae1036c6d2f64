import Verif.Model.Embedded
/-!
# Mortar meshes (xii/meshing/mortar_mesh.py:7-127)
-/
namespace Verif.Mortar
open Verif Verif.BlockOps Verif.Embedded
variable {P : Type}

/-- `d[k] = v` for a python dict, which keeps the order of insertion. -/
def dictSet {α β : Type} [DecidableEq α] (d : List (α × β)) (k : α) (v : β) : List (α × β) :=
  if k ∈ d.map (fun p => p.1) then d.map (fun p => if p.1 = k then (k, v) else p) else d ++ [(k, v)]

/-- `tagged_iface`: pair of tags to (facet to pair of cells). -/
abbrev Iface := List ((Nat × Nat) × List (Nat × (Nat × Nat)))

/-- `tagged_iface[key][facet] = value` with a `defaultdict(dict)`. -/
def record (iface : Iface) (key : Nat × Nat) (f : Nat) (v : Nat × Nat) : Iface :=
  dictSet iface key (dictSet ((iface.lookup key).getD []) f v)

/-- Body of the loop over facets, mortar_mesh.py:35-50; `f2c` are the cells of the facet, `tags` the values of
    `subdomains`. -/
def facetStep (f2c : Nat → List Nat) (tags markers : List Nat) (iface : Iface) (f : Nat) : Py Iface :=
  match f2c f with
  | [] => .ok iface
  | [_] => .ok iface
  | [c0, c1] => do
      let t0 ← pyGet tags c0
      let t1 ← pyGet tags c1
      .ok (if t0 ≠ t1 ∧ t0 ∈ markers ∧ t1 ∈ markers then
             (if t0 < t1 then record iface (t0, t1) f (c0, c1) else record iface (t1, t0) f (c1, c0))
           else iface)
  | _ => .error .valueError

/-- mortar_mesh.py:34-50. -/
def facetLoop (f2c : Nat → List Nat) (tags markers : List Nat) : List Nat → Iface → Py Iface
  | [], iface => .ok iface
  | f :: fs, iface => do
      let iface ← facetStep f2c tags markers iface f
      facetLoop f2c tags markers fs iface

/-- mortar_mesh.py:59-60: `values[list(tagged_iface[tags].keys())] = color` for the colours from `n`. -/
def colorFill : Nat → List (List Nat) → List Nat → Py (List Nat)
  | _, [], vals => .ok vals
  | n, fs :: rest, vals => do
      let vals ← setAll n fs vals
      colorFill (n + 1) rest vals

/-- The part up to the interface mesh, mortar_mesh.py:19-66.  `strictOk` is `not strict or is_continuous(..)`.
    `facets` is `ifacet_iter`; `subdomains` is a cell function (line 23). -/
def mortarInterface (f2c f2v : Nat → List Nat) (coords : Nat → P) (meshDim numFacets : Nat)
    (submesh : List Nat → SubMesh P) (tags markers facets : List Nat) (strictOk : EMesh P → Bool) :
    Py (Iface × EMesh P) := do
  pyAssert (decide (1 < markers.length))
  let iface ← facetLoop f2c tags markers facets []
  let values ← colorFill 0 (iface.map (fun p => p.2.map (fun q => q.1))) (List.replicate numFacets iface.length)
  let M ← embeddedMesh meshDim (meshDim - 1) f2v coords submesh values (List.range iface.length)
  pyAssert (strictOk M)
  .ok (iface, M)

/-- `c2c[tag][gc]`, mortar_mesh.py:83-90, 107.  `enumerate` goes over a dict, that is over its keys `0, 1, ..`, instead
    of its values, so that the map is the identity on the cells of the submesh. -/
def c2c (numSub : Nat → Nat) (tag gc : Nat) : Py Nat :=
  if gc < numSub tag then .ok gc else .error .keyError

/-- What `mortar_meshes` asks of the submeshes: the number of cells, the facets of a cell, and
    `near(cell.midpoint().distance(submesh_facet.midpoint()), 0, tol)`. -/
structure Subs where
  numSub : Nat → Nat
  facets : Nat → Nat → List Nat
  near : Nat → Nat → Nat → Bool

/-- `interface_map`: a list of the assignments `[tag][cell] = facet`, the latest first. -/
abbrev IMap := List ((Nat × Nat) × Nat)

/-- mortar_mesh.py:105-115: one cell and one of the sides. -/
def mapSide (S : Subs) (cell tag gc : Nat) (im : IMap) : Py IMap := do
  let l ← c2c S.numSub tag gc
  .ok (match (S.facets tag l).find? (fun f => S.near cell tag f) with
       | some f => ((tag, cell), f) :: im
       | none => im)

/-- mortar_mesh.py:98-115: the cells of a colour. -/
def mapCells (S : Subs) (cmap : List Nat) (key : Nat × Nat) (d : List (Nat × (Nat × Nat))) : List Nat → IMap → Py IMap
  | [], im => .ok im
  | cell :: cells, im => do
      let f ← pyGet cmap cell
      match d.lookup f with
      | none => .error .keyError
      | some (g0, g1) => do
          let im ← mapSide S cell key.1 g0 im
          let im ← mapSide S cell key.2 g1 im
          mapCells S cmap key d cells im

/-- mortar_mesh.py:94-115: all colours from `n`. -/
def mapColors (S : Subs) (M : EMesh P) : Nat → Iface → IMap → Py IMap
  | _, [], im => .ok im
  | n, (key, d) :: rest, im => do
      let im ← mapCells S M.cmap key d (whereEq M.marking n) im
      mapColors S M (n + 1) rest im

/-- `color_map`, mortar_mesh.py:119. -/
def colorMap (iface : Iface) (markers : List Nat) : List (Nat × Nat) :=
  iface.map (fun p => (markers.idxOf p.1.1, markers.idxOf p.1.2))

/-- `mortar_meshes`, mortar_mesh.py:7-127: the interface mesh, `interface_map` and `color_map`. -/
def mortarMeshes (f2c f2v : Nat → List Nat) (coords : Nat → P) (meshDim numFacets : Nat)
    (submesh : List Nat → SubMesh P) (tags markers facets : List Nat) (strictOk : EMesh P → Bool) (S : Subs) :
    Py (EMesh P × IMap × List (Nat × Nat)) := do
  let (iface, M) ← mortarInterface f2c f2v coords meshDim numFacets submesh tags markers facets strictOk
  let im ← mapColors S M 0 iface []
  .ok (M, im, colorMap iface markers)

end Verif.Mortar
