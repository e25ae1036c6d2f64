import Mathlib.RingTheory.Derivation.Basic
import Mathlib.Data.Real.Basic
import Mathlib.Algebra.BigOperators.Group.List.Basic

/-!
# Functions on the plane, their derivatives and the domains of the demos

The weak equations of the demos are stated here for functions taken from a ring `A` with two
commuting derivations, the partial derivatives, and for domains known only through the
divergence theorem.  `Verif.Lemmas.MmsSmooth` shows that smooth functions on the plane, the integrals over
the unit square and the integrals over its edges are an instance.
-/

namespace Verif.Mms

/-- A ring of functions of `x` and `y` with their partial derivatives. -/
class Smooth (A : Type) [CommRing A] [Algebra ℝ A] where
  /-- derivative in the first coordinate, `f.dx(0)` of UFL -/
  dx : Derivation ℝ A A
  /-- derivative in the second coordinate, `f.dx(1)` of UFL -/
  dy : Derivation ℝ A A
  comm : ∀ f, dx (dy f) = dy (dx f)

export Smooth (dx dy)

variable {A : Type} [CommRing A] [Algebra ℝ A]

/-- `Constant(r)` -/
abbrev c (r : ℝ) : A := algebraMap ℝ A r

/-- vector valued functions -/
abbrev Vec (A : Type) := A × A
/-- matrix valued functions, by rows -/
abbrev Ten (A : Type) := Vec A × Vec A

/-- `dot` and `inner` of two vectors -/
def dot (u v : Vec A) : A := u.1 * v.1 + u.2 * v.2
/-- `dot` of a matrix with a vector -/
def mul (s : Ten A) (v : Vec A) : Vec A := (dot s.1 v, dot s.2 v)
/-- `inner` of two matrices -/
def inner (s r : Ten A) : A := dot s.1 r.1 + dot s.2 r.2
/-- product of a function with a vector -/
def scale (f : A) (v : Vec A) : Vec A := (f * v.1, f * v.2)
/-- `sym` of a matrix -/
noncomputable def sym (s : Ten A) : Ten A :=
  ((s.1.1, c (1 / 2) * (s.1.2 + s.2.1)), (c (1 / 2) * (s.2.1 + s.1.2), s.2.2))
/-- A constant vector as a function -/
def cvec (n : ℝ × ℝ) : Vec A := (c n.1, c n.2)

variable [Smooth A]

/-- `grad` of a scalar -/
def grad (f : A) : Vec A := (dx f, dy f)
/-- `grad` of a vector: the derivatives of a component are in its row -/
def gradV (u : Vec A) : Ten A := (grad u.1, grad u.2)
/-- `div` of a vector -/
def div (u : Vec A) : A := dx u.1 + dy u.2
/-- `div` of a matrix: the divergences of its rows -/
def divT (s : Ten A) : Vec A := (div s.1, div s.2)
/-- `curl` of a vector in the plane, a scalar -/
def curl (u : Vec A) : A := dx u.2 - dy u.1
/-- `curl` of a scalar in the plane, a vector -/
def curlS (p : A) : Vec A := (dy p, - dx p)

/-- Outer normals of a square on its left (1), right (2), bottom (3) and top (4) edges. -/
def outward : ℕ → ℝ × ℝ
  | 1 => (-1, 0)
  | 2 => (1, 0)
  | 3 => (0, -1)
  | 4 => (0, 1)
  | _ => (0, 0)

/-- The unit square with its four edges: the integrals over it and over the edges, known to satisfy
the divergence theorem. -/
structure Square (A : Type) [CommRing A] [Algebra ℝ A] [Smooth A] where
  vol : A →ₗ[ℝ] ℝ
  side : ℕ → A →ₗ[ℝ] ℝ
  green : ∀ F : Vec A, vol (div F) =
    side 1 (dot F (cvec (outward 1))) + side 2 (dot F (cvec (outward 2)))
      + side 3 (dot F (cvec (outward 3))) + side 4 (dot F (cvec (outward 4)))

/-- A square (inner) immersed in the unit square, and the rest (outer) of the unit square.  Edges 1
to 4 are those of the inner square, 5 to 8 those of the unit square. -/
structure Immersed (A : Type) [CommRing A] [Algebra ℝ A] [Smooth A] where
  outer : A →ₗ[ℝ] ℝ
  inner : A →ₗ[ℝ] ℝ
  side : ℕ → A →ₗ[ℝ] ℝ
  greenInner : ∀ F : Vec A, inner (div F) =
    side 1 (dot F (cvec (outward 1))) + side 2 (dot F (cvec (outward 2)))
      + side 3 (dot F (cvec (outward 3))) + side 4 (dot F (cvec (outward 4)))
  greenOuter : ∀ F : Vec A, outer (div F) =
    side 5 (dot F (cvec (outward 1))) + side 6 (dot F (cvec (outward 2)))
      + side 7 (dot F (cvec (outward 3))) + side 8 (dot F (cvec (outward 4)))
      - (side 1 (dot F (cvec (outward 1))) + side 2 (dot F (cvec (outward 2)))
        + side 3 (dot F (cvec (outward 3))) + side 4 (dot F (cvec (outward 4))))

/-- The unit square cut by a vertical segment (7): the left part has the edges 1, 3 and 5, the right
part the edges 2, 4 and 6.  `atEnd 0` and `atEnd 1` are the values in the lower and upper ends of
the segment. -/
structure Halved (A : Type) [CommRing A] [Algebra ℝ A] [Smooth A] where
  left : A →ₗ[ℝ] ℝ
  right : A →ₗ[ℝ] ℝ
  side : ℕ → A →ₗ[ℝ] ℝ
  atEnd : Fin 2 → A →ₐ[ℝ] ℝ
  greenLeft : ∀ F : Vec A, left (div F) =
    side 1 (dot F (cvec (outward 1))) + side 7 (dot F (cvec (outward 2)))
      + side 3 (dot F (cvec (outward 3))) + side 5 (dot F (cvec (outward 4)))
  greenRight : ∀ F : Vec A, right (div F) =
    side 7 (dot F (cvec (outward 1))) + side 2 (dot F (cvec (outward 2)))
      + side 4 (dot F (cvec (outward 3))) + side 6 (dot F (cvec (outward 4)))
  along : ∀ f : A, side 7 (dy f) = atEnd 1 f - atEnd 0 f

/-- A function vanishes on the edge `t`: so does the integral of its product with every function. -/
def Vanishes (side : ℕ → A →ₗ[ℝ] ℝ) (t : ℕ) (v : A) : Prop := ∀ w, side t (w * v) = 0

/-- Both components of a vector vanish on the edge `t`. -/
def VanishesV (side : ℕ → A →ₗ[ℝ] ℝ) (t : ℕ) (v : Vec A) : Prop :=
  Vanishes side t v.1 ∧ Vanishes side t v.2

/-- `sum(f[tag]*ds(tag) for tag in tags)` -/
def over (side : ℕ → A →ₗ[ℝ] ℝ) (tags : List ℕ) (f : ℕ → A) : ℝ :=
  (tags.map fun t => side t (f t)).sum

end Verif.Mms
