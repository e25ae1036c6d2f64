import Verif.Spec.Refine
/-!
# Angles of triangles in the plane
-/
namespace Verif.Refine
variable {K : Type} [Field K] [LinearOrder K]

/-- The product of the edges from `a` to `b` and from `a` to `c`: positive if the angle at `a` is less than a right angle. -/
def corner (a b c : K × K) : K := (b.1 - a.1) * (c.1 - a.1) + (b.2 - a.2) * (c.2 - a.2)

/-- The square of the distance. -/
def sqDist (a b : K × K) : K := (b.1 - a.1) ^ 2 + (b.2 - a.2) ^ 2

/-- All angles of the triangle are less than right angles. -/
def Acute (a b c : K × K) : Prop := 0 < corner a b c ∧ 0 < corner b c a ∧ 0 < corner c a b

/-- The point is equally far from the three vertices. -/
def Equidistant (a b c y : K × K) : Prop := sqDist y a = sqDist y b ∧ sqDist y a = sqDist y c

end Verif.Refine
