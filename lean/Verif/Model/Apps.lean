import Verif.Spec.Apps
import Mathlib.Analysis.SpecialFunctions.Trigonometric.Basic

/-!
# The coupled problems of apps/

Block rows and right hand sides as functions of the trial and test functions.
-/

namespace Verif.Apps

variable {X Y Z : Type} [AddCommGroup X] [Module ℝ X] [AddCommGroup Y] [Module ℝ Y]
  [AddCommGroup Z] [Module ℝ Z]

/-- Forms and parameters of apps/enumath/has_multiplier.py:16,36-57 and
apps/enumath/not_has_multiplier.py:16,35-52: integrals of products of gradients (`e3`, `e1`), over
the boundary (`s3`, `s1`) and over the curve (`m`), averages and conductivities.
The latter are numbers here. -/
structure Problem (X Y : Type) [AddCommGroup X] [Module ℝ X] [AddCommGroup Y] [Module ℝ Y] where
  e3 : X →ₗ[ℝ] X →ₗ[ℝ] ℝ
  s3 : X →ₗ[ℝ] X →ₗ[ℝ] ℝ
  e1 : Y →ₗ[ℝ] Y →ₗ[ℝ] ℝ
  s1 : Y →ₗ[ℝ] Y →ₗ[ℝ] ℝ
  m : Y →ₗ[ℝ] Y →ₗ[ℝ] ℝ
  avg : X →ₗ[ℝ] Y
  radius : ℝ
  k3d : ℝ
  k1d : ℝ
  kG : ℝ
  kbdry : ℝ

namespace Has

variable (P : Problem X Y)

/-- apps/enumath/has_multiplier.py:52 -/
noncomputable def pConst : ℝ := 1 / (2 * Real.pi * P.radius * P.kG)

/-- First row, apps/enumath/has_multiplier.py:41,45. -/
def row0 (u3 : X) (p : Y) (v3 : X) : ℝ :=
  P.k3d * P.e3 u3 v3 + P.kbdry * P.s3 u3 v3 - P.m p (P.avg v3)

/-- Second row, apps/enumath/has_multiplier.py:43,46. -/
noncomputable def row1 (u p v : Y) : ℝ :=
  Real.pi * P.radius ^ 2 * P.k1d * P.e1 u v + P.s1 u v + P.m p v

/-- Third row, apps/enumath/has_multiplier.py:48-49,53; its right hand side is zero (line 57). -/
noncomputable def row2 (u3 : X) (u p q : Y) : ℝ :=
  - P.m q (P.avg u3) + P.m q u - pConst P * P.m p q

end Has

namespace NotHas

variable (P : Problem X Y)

/-- First row, apps/enumath/not_has_multiplier.py:40-42,48; `a` is the average of `u3`. -/
noncomputable def row0 (u3 : X) (a u : Y) (v3 : X) : ℝ :=
  P.k3d * P.e3 u3 v3 + P.kbdry * P.s3 u3 v3 + 2 * Real.pi * P.radius * P.kG * P.m a (P.avg v3)
    - 2 * Real.pi * P.radius * P.kG * P.m u (P.avg v3)

/-- Second row, apps/enumath/not_has_multiplier.py:44-46,49; `a` is the average of `u3`. -/
noncomputable def row1 (a u v : Y) : ℝ :=
  Real.pi * P.radius ^ 2 * P.k1d * P.e1 u v + P.s1 u v + 2 * Real.pi * P.radius * P.kG * P.m u v
    - 2 * Real.pi * P.radius * P.kG * P.m v a

end NotHas

/-- apps/enumath/has_multiplier.py:55, apps/enumath/not_has_multiplier.py:51 -/
def rhs0 (P : Problem X Y) (f v3 : X) : ℝ := P.kbdry * P.s3 f v3

/-- apps/enumath/has_multiplier.py:56, apps/enumath/not_has_multiplier.py:52 -/
def rhs1 (P : Problem X Y) (g v : Y) : ℝ := P.kbdry * P.m g v

/-- The block system of apps/enumath/has_multiplier.py:39-57 for the spaces of lines 28-30. -/
structure Has.Solves (P : Problem X Y) (V3 : Submodule ℝ X) (V Q : Submodule ℝ Y) (f : X) (g : Y)
    (u3 : X) (u p : Y) : Prop where
  mem3 : u3 ∈ V3
  mem1 : u ∈ V
  memQ : p ∈ Q
  eq0 : ∀ v ∈ V3, Has.row0 P u3 p v = rhs0 P f v
  eq1 : ∀ v ∈ V, Has.row1 P u p v = rhs1 P g v
  eq2 : ∀ q ∈ Q, Has.row2 P u3 u p q = 0

/-- The block system of apps/enumath/not_has_multiplier.py:38-52 for the spaces of lines 28-29, with
`a` in place of the average of `u3`. -/
structure NotHas.SolvesWith (P : Problem X Y) (V3 : Submodule ℝ X) (V : Submodule ℝ Y) (f : X)
    (g : Y) (a : Y) (u3 : X) (u : Y) : Prop where
  mem3 : u3 ∈ V3
  mem1 : u ∈ V
  eq0 : ∀ v ∈ V3, NotHas.row0 P u3 a u v = rhs0 P f v
  eq1 : ∀ v ∈ V, NotHas.row1 P a u v = rhs1 P g v

/-- The block system of apps/enumath/not_has_multiplier.py:38-52. -/
def NotHas.Solves (P : Problem X Y) (V3 : Submodule ℝ X) (V : Submodule ℝ Y) (f : X) (g : Y)
    (u3 : X) (u : Y) : Prop := NotHas.SolvesWith P V3 V f g (P.avg u3) u3 u

/-! ### apps/d123/solving.py -/

/-- Forms of apps/d123/solving.py:36-65 on the volume `X`, the surface `Y` and the curve `Z`:
integrals of products of gradients, integrals over surface and curve, traces. -/
structure Nested (X Y Z : Type) [AddCommGroup X] [Module ℝ X] [AddCommGroup Y] [Module ℝ Y]
    [AddCommGroup Z] [Module ℝ Z] where
  e3 : X →ₗ[ℝ] X →ₗ[ℝ] ℝ
  e2 : Y →ₗ[ℝ] Y →ₗ[ℝ] ℝ
  e1 : Z →ₗ[ℝ] Z →ₗ[ℝ] ℝ
  mS : Y →ₗ[ℝ] Y →ₗ[ℝ] ℝ
  mG : Z →ₗ[ℝ] Z →ₗ[ℝ] ℝ
  tS : X →ₗ[ℝ] Y
  tG : Y →ₗ[ℝ] Z

namespace Nested

variable (N : Nested X Y Z)

/-- First row, apps/d123/solving.py:45,49; the right hand sides of lines 61-64 are zero. -/
def row0 (u3 : X) (p2 : Y) (v3 : X) : ℝ := N.e3 u3 v3 + N.mS p2 (N.tS v3)

/-- Second row, apps/d123/solving.py:46,50,52. -/
def row1 (u2 p2 : Y) (p1 : Z) (v2 : Y) : ℝ := N.e2 u2 v2 - N.mS p2 v2 + N.mG p1 (N.tG v2)

/-- Third row, apps/d123/solving.py:47,53. -/
def row2 (u1 p1 v1 : Z) : ℝ := N.e1 u1 v1 - N.mG p1 v1

/-- Fourth row, apps/d123/solving.py:58-59. -/
def row3 (u3 : X) (u2 q2 : Y) : ℝ := N.mS q2 (N.tS u3) - N.mS q2 u2

/-- Fifth row, apps/d123/solving.py:55-56. -/
def row4 (u2 : Y) (u1 q1 : Z) : ℝ := N.mG q1 (N.tG u2) - N.mG q1 u1

/-- apps/d123/solving.py:65 -/
def rhs4 (f q1 : Z) : ℝ := N.mG f q1

/-- The block system of apps/d123/solving.py:42-65 for the spaces of lines 25-27. -/
structure Solves (V3 : Submodule ℝ X) (V2 Q2 : Submodule ℝ Y) (V1 Q1 : Submodule ℝ Z) (f : Z)
    (u3 : X) (u2 : Y) (u1 : Z) (p2 : Y) (p1 : Z) : Prop where
  mem3 : u3 ∈ V3
  mem2 : u2 ∈ V2
  mem1 : u1 ∈ V1
  memS : p2 ∈ Q2
  memG : p1 ∈ Q1
  eq0 : ∀ v ∈ V3, N.row0 u3 p2 v = 0
  eq1 : ∀ v ∈ V2, N.row1 u2 p2 p1 v = 0
  eq2 : ∀ v ∈ V1, N.row2 u1 p1 v = 0
  eq3 : ∀ q ∈ Q2, N.row3 u3 u2 q = 0
  eq4 : ∀ q ∈ Q1, N.row4 u2 u1 q = N.rhs4 f q

end Nested

end Verif.Apps
