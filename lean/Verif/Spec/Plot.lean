import Verif.Model.Plot
import Verif.Spec.Shape
/-!
# What drawings show
-/
namespace Verif.Plot
open Verif.Shape Verif.Shape.V3

/-- The corners of the cells as points. -/
def corners {P : Type} (d : Drawing P) : List (List (Option P)) := d.cells.map (fun c => c.map (fun i => d.points[i]?))

/-- The quads between two rings with `n` points each: each joins neighbours of one ring with those of the other, the
    last point and the first being neighbours. -/
def quadsBetween {P : Type} (ring0 ring1 : List P) : List (List (Option P)) :=
  (List.range ring0.length).map (fun j =>
    [ring1[j]?, ring1[(j + 1) % ring1.length]?, ring0[(j + 1) % ring0.length]?, ring0[j]?])

/-- The lines of a closed polygon. -/
def polygon {P : Type} (pts : List P) : List (List (Option P)) :=
  (List.range pts.length).map (fun j => [pts[j]?, pts[(j + 1) % pts.length]?])

/-- The closed polygon through the points is the boundary of their convex hull, passed in one direction: seen from the
    tip of `n` no point is to the right of a line, or no point is to the left of one. -/
def Outline (n : V3) (pts : List V3) : Prop :=
  ∃ m, (m = n ∨ m = (-1 : ℝ) • n) ∧ ∀ p q, [some p, some q] ∈ polygon pts → ∀ r ∈ pts, 0 ≤ dot (cross (q - p) (r - p)) m

/-- A piece of the surface of the frustum with axis from `v0` to `v1` and radii `R0`, `R1`: a quad with two corners on
    each of the circles, those with the same direction from the axis being joined. -/
def Piece (v0 v1 : V3) (R0 R1 : ℝ) (quad : List (Option V3)) : Prop :=
  ∃ e f : V3, norm e = 1 ∧ norm f = 1 ∧ dot e (v1 - v0) = 0 ∧ dot f (v1 - v0) = 0 ∧
    quad = [some (v1 + R1 • e), some (v1 + R1 • f), some (v0 + R0 • f), some (v0 + R0 • e)]

/-- What `np.linalg.eigh` returns for a symmetric array: an orthonormal basis of eigenvectors, eigenvalues ascending. -/
def EighAt (eigh : Eigh) (A : Rows) : Prop :=
  let l := (eigh A).1
  let v := (eigh A).2
  (rotApply A v.1 = l.1 • v.1 ∧ rotApply A v.2.1 = l.2.1 • v.2.1 ∧ rotApply A v.2.2 = l.2.2 • v.2.2) ∧
    (dot v.1 v.1 = 1 ∧ dot v.2.1 v.2.1 = 1 ∧ dot v.2.2 v.2.2 = 1) ∧
    (dot v.1 v.2.1 = 0 ∧ dot v.1 v.2.2 = 0 ∧ dot v.2.1 v.2.2 = 0) ∧ l.1 ≤ l.2.1 ∧ l.2.1 ≤ l.2.2

/-- It does so for the arrays which are passed to it, the projectors to planes. -/
def EighSpec (eigh : Eigh) : Prop := ∀ n : V3, dot n n = 1 → EighAt eigh (projector n)

/-- What `np.argsort` returns: the indices, arranged so that the values do not decrease. -/
def ArgsortSpec (argsort : List ℝ → List Nat) : Prop :=
  ∀ as : List ℝ, (argsort as).Perm (List.range as.length) ∧
    ((argsort as).map (fun i => as.getD i 0)).Pairwise (· ≤ ·)

/-- The line through the origin in direction `n` meets the disk with centre `c`, radius `R` and normal `n` in its inside. -/
def AxisMeets (n c : V3) (R : ℝ) : Prop := ∃ s : ℝ, dot (s • n - c) n = 0 ∧ norm (s • n - c) < R

end Verif.Plot
