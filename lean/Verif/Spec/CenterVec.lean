import Verif.Model.CenterVec
import Verif.Spec.Center
/-!
# Vectors between centers, Delaunay meshes
-/
namespace Verif.CenterVec
open Matrix Verif.Center

/-- A facet of a mesh of simplices: its area is not zero, its vertices are vertices of the cells at it, the normal has
    length one and is, up to factors, the only vector orthogonal to the facet. -/
structure Facet.Ok {d : Nat} (f : Facet d) : Prop where
  area : f.area ≠ 0
  inPlus : ∀ v ∈ f.vertices, v ∈ f.plus
  inMinus : ∀ m, f.minus = some m → ∀ v ∈ f.vertices, v ∈ m
  unit : f.normal ⬝ᵥ f.normal = 1
  normal : ∀ x : Fin d → ℝ, (∀ v ∈ f.vertices, ∀ w ∈ f.vertices, x ⬝ᵥ (v - w) = 0) → ∃ a : ℝ, x = a • f.normal

/-- The cells at the facet have the centers which the function gives. -/
def CentersAt {d : Nat} (center : CenterFn d) (IsCenter : List (Fin d → ℝ) → (Fin d → ℝ) → Prop) (f : Facet d) : Prop :=
  ∀ l, (l = f.plus ∨ f.minus = some l) → ∃ c, center l = .ok c ∧ IsCenter l c

/-- Euclidean length. -/
noncomputable def len {d : Nat} (x : Fin d → ℝ) : ℝ := Real.sqrt (∑ i, x i ^ 2)

/-- Centre of mass of the vertices. -/
noncomputable def barycenter {d : Nat} (l : List (Fin d → ℝ)) : Fin d → ℝ := fun i => (l.map (fun v => v i)).sum / l.length

/-- The vector at a facet: between the centers of the two cells, or from the facet to the center of the only cell. -/
def Between {d : Nat} (IsCenter : List (Fin d → ℝ) → (Fin d → ℝ) → Prop) (f : Facet d) (x : Fin d → ℝ) : Prop :=
  match f.minus with
  | some m => ∃ cp cm, IsCenter f.plus cp ∧ IsCenter m cm ∧ x = cp - cm
  | none => ∃ c, IsCenter f.plus c ∧ x = c - barycenter f.vertices

/-- The distance over a facet: through its barycenter. -/
def Through {d : Nat} (IsCenter : List (Fin d → ℝ) → (Fin d → ℝ) → Prop) (f : Facet d) (r : ℝ) : Prop :=
  match f.minus with
  | some m => ∃ cp cm, IsCenter f.plus cp ∧ IsCenter m cm ∧
      r = len (cp - barycenter f.vertices) + len (cm - barycenter f.vertices)
  | none => ∃ c, IsCenter f.plus c ∧ r = len (c - barycenter f.vertices)

/-- The cells of a mesh. -/
def cells {d : Nat} (mesh : List (Facet d)) : List (List (Fin d → ℝ)) := mesh.flatMap (fun f => f.plus :: f.minus.toList)

/-- Delaunay: no vertex of the mesh is inside of the circumscribed sphere of a cell. -/
def Delaunay {d : Nat} (mesh : List (Facet d)) : Prop :=
  ∀ l ∈ cells mesh, ∀ c, IsCircumcenter l c → ∀ m ∈ cells mesh, ∀ v ∈ m, ∀ w ∈ l, dist2 c w ≤ dist2 c v

end Verif.CenterVec
