import Verif.Spec.Contour
/-! # The polygon which `refine_contour` divides -/
namespace Verif.Contour

/-- `m` is the polygon `c` with the middle points of its segments added and its last point replaced by `p`. -/
def Bent (K : Type) {E : Type} [Field K] [AddCommGroup E] [Module K E] (c : List E) (p : E) (m : List E) : Prop :=
  m.length = 2 * (c.length - 1) + 1 ∧ m.getLast? = some p ∧
  ∀ (j : Nat) (a b : E), c[j]? = some a → c[j + 1]? = some b →
    m[2 * j]? = some a ∧ m[2 * j + 1]? = some (a + (1 / 2 : K) • (b - a))

end Verif.Contour
