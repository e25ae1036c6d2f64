import Verif.Model.Minimise
import Verif.Model.Apps

/-!
# Block systems

The discrete problems of some demos: all rows, tested with all functions of the finite element
spaces.
-/

namespace Verif.Solvable
open Verif.Mms Verif.Minimise Verif.Apps

variable {A : Type} [CommRing A] [Algebra ℝ A] [Smooth A]

/-- The system of demo/poisson_babuska.py:52-61 and demo/poisson_babuska_3d.py:34-45 (for which the
gradient has two components here).  `V` are the
functions which are zero where values are prescribed by `DirichletBC` and `d` is a function which has
these values. -/
structure Babuska (vol bdry : A →ₗ[ℝ] ℝ) (V Q : Submodule ℝ A) (f d g u p : A) : Prop where
  mem : u - d ∈ V
  memQ : p ∈ Q
  eq0 : ∀ v ∈ V, Babuska.row0 vol bdry u p v = Babuska.rhs0 vol f v
  eq1 : ∀ q ∈ Q, Babuska.row1 bdry u q = Babuska.rhs1 bdry g q

/-- The system of a step of demo/time_dep.py:28-40, `u0` is the solution of the step before.  Line 31
has the second row of demo/poisson_babuska.py. -/
structure Heat (vol bdry : A →ₗ[ℝ] ℝ) (dt : ℝ) (V Q : Submodule ℝ A) (u0 f d g u p : A) : Prop where
  mem : u - d ∈ V
  memQ : p ∈ Q
  eq0 : ∀ v ∈ V, Heat.row0 vol bdry dt u p v = Heat.rhs0 vol dt u0 f v
  eq1 : ∀ q ∈ Q, Babuska.row1 bdry u q = Babuska.rhs1 bdry g q

/-- The system of demo/layer_2d.py:55-72. -/
structure Layer (vol1 vol2 volO : A →ₗ[ℝ] ℝ) (k1 k2 : ℝ) (V1 V2 Q : Submodule ℝ A)
    (f1 f2 g u1 u2 p : A) : Prop where
  mem1 : u1 ∈ V1
  mem2 : u2 ∈ V2
  memQ : p ∈ Q
  eq0 : ∀ v ∈ V1, Layer.row0 vol1 volO k1 u1 p v = Layer.rhs vol1 f1 v
  eq1 : ∀ v ∈ V2, Layer.row1 vol2 volO k2 u2 p v = Layer.rhs vol2 f2 v
  eq2 : ∀ q ∈ Q, Layer.row2 volO u1 u2 q = Layer.rhs2 volO g q

/-- The system of demo/optim_control_L2.py:31-44 for the spaces of lines 18-20, of which the last two
are the same. -/
structure Optim (vol bdry : A →ₗ[ℝ] ℝ) (eps : ℝ) (Q V : Submodule ℝ A) (f p u l : A) : Prop where
  memQ : p ∈ Q
  mem : u ∈ V
  memB : l ∈ V
  eq0 : ∀ q ∈ Q, Optim.row0 vol eps p l q = 0
  eq1 : ∀ v ∈ V, Optim.row1 vol bdry u l v = Optim.rhs1 bdry f v
  eq2 : ∀ b ∈ V, Optim.row2 vol p u b = 0

/-- What is assumed of the integrals and parameters of apps/enumath/has_multiplier.py:16,39-57 and
apps/enumath/not_has_multiplier.py:16,38-52: only the zero function in the volume has neither gradient
nor boundary values. -/
structure Sane {X Y : Type} [AddCommGroup X] [Module ℝ X] [AddCommGroup Y] [Module ℝ Y]
    (P : Problem X Y) : Prop where
  e3 : Energy P.e3
  s3 : Energy P.s3
  e1 : Energy P.e1
  s1 : Energy P.s1
  m : Inner P.m
  definite : ∀ u, P.e3 u u = 0 → P.s3 u u = 0 → u = 0
  radius : 0 < P.radius
  k3d : 0 < P.k3d
  k1d : 0 < P.k1d
  kG : 0 < P.kG
  kbdry : 0 < P.kbdry

end Verif.Solvable
