import Verif.Model.Center
import Verif.Model.BlockOps
import Mathlib.Analysis.Real.Sqrt
/-!
# Vectors between the centers of cells, and the Delaunay check (xii/meshing/cell_centers.py)

Meshes of triangles and tetrahedra (`mesh.topology().dim() > 1`) are lists of facets.  Functions of the space
'Discontinuous Lagrange Trace', 0 have one value per facet, so they are lists of values.  Simplification: the integral of
a function over a facet on which it is constant is its value times `FacetArea`, and the integral of a coordinate is the
mean of the vertices times `FacetArea`; arithmetic is exact.
-/
namespace Verif.CenterVec
open Verif Verif.BlockOps Matrix

/-- What the forms of cell_centers.py see of a facet: `FacetArea`, `FacetNormal` of the side '+', the vertices of the facet
    and those of the cells '+' and '-' (only one cell for exterior facets). -/
structure Facet (d : Nat) where
  area : ℝ
  normal : Fin d → ℝ
  vertices : List (Fin d → ℝ)
  plus : List (Fin d → ℝ)
  minus : Option (List (Fin d → ℝ))

/-- A function which evaluates in each cell to a point (`Center` of cell_centers.py). -/
abbrev CenterFn (d : Nat) := List (Fin d → ℝ) → Py (Fin d → ℝ)

/-- The mean of the vertices. -/
noncomputable def mean {d : Nat} (l : List (Fin d → ℝ)) : Fin d → ℝ := (1 / (l.length : ℝ)) • l.sum

/-- `(1/fK) * inner(g, l)*dS` (or `ds`) assembled, at the dof of a facet: cell_centers.py:313-315 and the other forms. -/
noncomputable def assembled {E : Type} [AddCommGroup E] [Module ℝ E] (area : ℝ) (g : E) : E := (1 / area) • (area • g)

/-- `CellCentroid`, cell_centers.py:433-444. -/
noncomputable def cellCentroid {d : Nat} : CenterFn d := fun l => .ok (mean l)

/-- `FacetCentroid`, cell_centers.py:468-497; `avg` of a quantity which both sides share is that quantity. -/
noncomputable def facetCentroid {d : Nat} (f : Facet d) : Fin d → ℝ := assembled f.area (mean f.vertices)

/-- `_CenterVector`, cell_centers.py:294-317, at one facet. -/
noncomputable def centerVectorAt {d : Nat} (center : CenterFn d) (f : Facet d) : Py (Fin d → ℝ) :=
  match f.minus with
  | some m => do
      let cp ← center f.plus
      let cm ← center m
      .ok (assembled f.area (cp - cm))
  | none => do
      let c ← center f.plus
      .ok (assembled f.area (c - facetCentroid f))

/-- `_CenterVector`, cell_centers.py:294-317. -/
noncomputable def centerVector {d : Nat} (center : CenterFn d) (mesh : List (Facet d)) : Py (List (Fin d → ℝ)) :=
  pyMap (centerVectorAt center) mesh

/-- `sqrt(dot(x, x))`. -/
noncomputable def magnitude {I : Type} [Fintype I] (x : I → ℝ) : ℝ := Real.sqrt (x ⬝ᵥ x)

/-- `_CenterDistance`, cell_centers.py:321-338, of the values `cc` of the function which `Center` returned. -/
noncomputable def centerDistance {d : Nat} {I : Type} [Fintype I] (mesh : List (Facet d)) (cc : List (I → ℝ)) : List ℝ :=
  List.zipWith (fun f x => assembled f.area (magnitude x)) mesh cc

/-- The two parts of `_CenterVectors` at one facet, cell_centers.py:388-401; on exterior facets both have the same center. -/
noncomputable def centerVectorsAt {d : Nat} (center : CenterFn d) (f : Facet d) : Py ((Fin d → ℝ) × (Fin d → ℝ)) :=
  match f.minus with
  | some m => do
      let cp ← center f.plus
      let cm ← center m
      .ok (assembled f.area cp, assembled f.area cm)
  | none => do
      let c ← center f.plus
      .ok (assembled f.area c, assembled f.area c)

open Classical in
/-- `_CenterVectors`, cell_centers.py:370-407: pairs of values, with the assertions of lines 394, 400 and 405 that they do not
    all vanish. -/
noncomputable def centerVectors {d : Nat} (center : CenterFn d) (mesh : List (Facet d)) :
    Py (List ((Fin d → ℝ) × (Fin d → ℝ))) := do
  let cc ← pyMap (centerVectorsAt center) mesh
  pyAssert (decide (∃ x ∈ cc, x.1 ≠ 0))
  pyAssert (decide (∃ x ∈ cc, x.2 ≠ 0))
  pyAssert (decide (∃ x ∈ cc, x.1 ≠ 0 ∨ x.2 ≠ 0))
  .ok cc

/-- `_CenterDistance2`, cell_centers.py:341-366, at one facet. -/
noncomputable def centerDistance2At {d : Nat} (f : Facet d) (cc : (Fin d → ℝ) × (Fin d → ℝ)) : ℝ :=
  let fc := facetCentroid f
  match f.minus with
  | some _ => assembled f.area (magnitude (cc.1 - fc)) + assembled f.area (magnitude (cc.2 - fc))
  | none => (1 / 2) * (assembled f.area (magnitude (cc.1 - fc)) + assembled f.area (magnitude (cc.2 - fc)))

/-- `_CenterDistance2`, cell_centers.py:341-366. -/
noncomputable def centerDistance2 {d : Nat} (mesh : List (Facet d)) (cc : List ((Fin d → ℝ) × (Fin d → ℝ))) : List ℝ :=
  List.zipWith centerDistance2At mesh cc

/-- The components of a function of the space with two vectors. -/
def components {d : Nat} (x : (Fin d → ℝ) × (Fin d → ℝ)) : Fin d ⊕ Fin d → ℝ := Sum.elim x.1 x.2

/-- `CircumVector`, cell_centers.py:416-418. -/
noncomputable def circumVector {d : Nat} (circum : CenterFn d) (mesh : List (Facet d)) := centerVector circum mesh

/-- `CircumDistance`, cell_centers.py:411-413. -/
noncomputable def circumDistance {d : Nat} (circum : CenterFn d) (mesh : List (Facet d)) : Py (List ℝ) := do
  let cc ← circumVector circum mesh
  .ok (centerDistance mesh cc)

/-- `CircumDistance2`, cell_centers.py:422-424. -/
noncomputable def circumDistance2 {d : Nat} (circum : CenterFn d) (mesh : List (Facet d)) : Py (List ℝ) := do
  let cc ← centerVectors circum mesh
  .ok (centerDistance2 mesh cc)

/-- `CentroidVector`, cell_centers.py:452-454. -/
noncomputable def centroidVector {d : Nat} (mesh : List (Facet d)) := centerVector cellCentroid mesh

/-- `CentroidDistance`, cell_centers.py:447-449. -/
noncomputable def centroidDistance {d : Nat} (mesh : List (Facet d)) : Py (List ℝ) := do
  let cc ← centroidVector mesh
  .ok (centerDistance mesh cc)

/-- `CentroidDistance2`, cell_centers.py:457-459, which calls `_CenterDistance` (not `_CenterDistance2`) with the function of
    two vectors. -/
noncomputable def centroidDistance2 {d : Nat} (mesh : List (Facet d)) : Py (List ℝ) := do
  let cc ← centerVectors cellCentroid mesh
  .ok (centerDistance mesh (cc.map components))

open Classical in
/-- `dot(n, nu/sqrt(dot(nu, nu)))` on a facet, `none` for not-a-number (0/0), then `(1/hF)*...` assembled:
    cell_centers.py:513-515, 539-547. -/
noncomputable def cosine {d : Nat} (f : Facet d) (nu : Fin d → ℝ) : Option ℝ :=
  if magnitude nu = 0 then none else some (assembled f.area (f.normal ⬝ᵥ ((1 / magnitude nu) • nu)))

/-- The largest of `np.abs(np.abs(coefs) - 1)`; not a number if there is such an entry. -/
noncomputable def worst : List (Option ℝ) → Option ℝ
  | [] => some 0
  | none :: _ => none
  | some x :: l => (worst l).map (fun y => max |(|x|) - 1| y)

/-- `np.linalg.norm(np.abs(coefs-1), np.inf)`, cell_centers.py:530-532 and 560-562; `ValueError` for an empty array. -/
noncomputable def deviation (coefs : List (Option ℝ)) : Py (Option ℝ) :=
  if coefs.isEmpty then .error .valueError else .ok (worst coefs)

/-- `is_delaunay_interior`, cell_centers.py:500-532.  The mask of line 525 selects the interior facets, since normals have
    length one; on the other facets the assembled values are zero, as line 527 asserts. -/
noncomputable def isDelaunayInterior {d : Nat} (circum : CenterFn d) (mesh : List (Facet d)) : Py (Option ℝ) := do
  let nu ← circumVector circum mesh
  deviation (((mesh.zip nu).filter (fun x => x.1.minus.isSome)).map (fun x => cosine x.1 x.2))

/-- `is_delaunay_exterior`, cell_centers.py:535-562, in the same way for the exterior facets. -/
noncomputable def isDelaunayExterior {d : Nat} (circum : CenterFn d) (mesh : List (Facet d)) : Py (Option ℝ) := do
  let nu ← circumVector circum mesh
  deviation (((mesh.zip nu).filter (fun x => x.1.minus.isNone)).map (fun x => cosine x.1 x.2))

/-- `is_delaunay`, cell_centers.py:565-568. -/
noncomputable def isDelaunay {d : Nat} (circum : CenterFn d) (mesh : List (Facet d)) : Py (Option ℝ × Option ℝ) := do
  let a ← isDelaunayInterior circum mesh
  let b ← isDelaunayExterior circum mesh
  .ok (a, b)

end Verif.CenterVec
