import Verif.Spec.Minimise

/-!
# Demos whose equations are the conditions of a constrained minimum

Block rows and right hand sides of `setup_problem` as functions of the trial and test functions, as
in `Verif.Model.Mms`.  Trace and restriction of a function are the function itself, integrated over
the boundary or the overlap.
-/

namespace Verif.Minimise
open Verif.Mms

variable {A : Type} [CommRing A] [Algebra ℝ A] [Smooth A]

/-! ### demo/optim_control_L2.py -/

namespace Optim

/-- First row, demo/optim_control_L2.py:33-34; the right hand side of line 42 is zero. -/
def row0 (vol : A →ₗ[ℝ] ℝ) (eps : ℝ) (p l q : A) : ℝ := vol (c eps * (p * q)) + vol (q * l)

/-- Second row, demo/optim_control_L2.py:36-37. -/
def row1 (vol bdry : A →ₗ[ℝ] ℝ) (u l v : A) : ℝ :=
  bdry (u * v) + (vol (dot (grad v) (grad l)) + vol (v * l))

/-- demo/optim_control_L2.py:43 -/
def rhs1 (bdry : A →ₗ[ℝ] ℝ) (f v : A) : ℝ := bdry (v * f)

/-- Third row, demo/optim_control_L2.py:39-40; the right hand side of line 44 is zero. -/
def row2 (vol : A →ₗ[ℝ] ℝ) (p u b : A) : ℝ :=
  vol (p * b) + (vol (dot (grad u) (grad b)) + vol (u * b))

end Optim

/-! ### demo/layer_2d.py -/

namespace Layer

/-- First row, demo/layer_2d.py:55-57,71. -/
def row0 (vol1 volO : A →ₗ[ℝ] ℝ) (k1 : ℝ) (u1 p v : A) : ℝ :=
  vol1 (c k1 * dot (grad u1) (grad v)) + vol1 (u1 * v) + volO (v * p)

/-- demo/layer_2d.py:67 and, for the other domain, 68. -/
def rhs (vol1 : A →ₗ[ℝ] ℝ) (f1 v : A) : ℝ := vol1 (f1 * v)

/-- Second row, demo/layer_2d.py:59-61,71. -/
def row1 (vol2 volO : A →ₗ[ℝ] ℝ) (k2 : ℝ) (u2 p v : A) : ℝ :=
  vol2 (c k2 * dot (grad u2) (grad v)) + vol2 (u2 * v) - volO (v * p)

/-- Third row, demo/layer_2d.py:63-65,71. -/
def row2 (volO : A →ₗ[ℝ] ℝ) (u1 u2 q : A) : ℝ := volO (u1 * q) - volO (u2 * q)

/-- demo/layer_2d.py:69 -/
def rhs2 (volO : A →ₗ[ℝ] ℝ) (g q : A) : ℝ := volO (g * q)

end Layer

/-! ### demo/poisson_babuska.py and demo/poisson_babuska_3d.py -/

namespace Babuska

/-- First row, demo/poisson_babuska.py:53-54, demo/poisson_babuska_3d.py:35-36 (for which the
gradient has two components here). -/
def row0 (vol bdry : A →ₗ[ℝ] ℝ) (u p v : A) : ℝ :=
  vol (dot (grad u) (grad v)) + vol (u * v) + bdry (v * p)

/-- demo/poisson_babuska.py:60 -/
def rhs0 (vol : A →ₗ[ℝ] ℝ) (f v : A) : ℝ := vol (f * v)

/-- Second row, demo/poisson_babuska.py:55. -/
def row1 (bdry : A →ₗ[ℝ] ℝ) (u q : A) : ℝ := bdry (u * q)

/-- demo/poisson_babuska.py:61 -/
def rhs1 (bdry : A →ₗ[ℝ] ℝ) (g q : A) : ℝ := bdry (g * q)

end Babuska

/-! ### demo/time_dep.py -/

namespace Heat

/-- First row, demo/time_dep.py:29-30. -/
noncomputable def row0 (vol bdry : A →ₗ[ℝ] ℝ) (dt : ℝ) (u p v : A) : ℝ :=
  vol (dot (grad u) (grad v)) + vol (c (1 / dt) * (u * v)) + bdry (p * v)

/-- demo/time_dep.py:36, with the solution `u0` of the step before. -/
noncomputable def rhs0 (vol : A →ₗ[ℝ] ℝ) (dt : ℝ) (u0 f v : A) : ℝ :=
  vol (c (1 / dt) * (u0 * v)) + vol (f * v)

end Heat

end Verif.Minimise
