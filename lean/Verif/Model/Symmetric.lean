import Verif.Model.Mms
import Verif.Model.Minimise
import Verif.Model.Apps

/-!
# The block systems as forms

Sums of the rows in `Verif.Model.Mms`, `Verif.Model.Minimise` and `Verif.Model.Apps` as functions of
the trial functions `x` and the test functions `y`, and the rows which are not needed there.
-/

namespace Verif.Symmetric
open Verif.Mms

variable {A : Type} [CommRing A] [Algebra ℝ A] [Smooth A]

/-- demo/poisson_babuska_bc.py:45-48, solved in demo/poisson_babuska_bc_iter.py:120 -/
def poissonBc (D : Square A) (s : PoissonBc.Setup) (x y : A × (ℕ → A)) : ℝ :=
  PoissonBc.row0 D s x.1 x.2 y.1 + over D.side (PoissonBc.lmTags s) fun t => x.1 * y.2 t

/-- demo/mixed_poisson_babuska.py:77-82, solved in demo/mixed_poisson_babuska_iter.py:103 -/
def mixedPoisson (D : Square A) (x y : Vec A × A × A) : ℝ :=
  MixedPoisson.row0 D x.1 x.2.1 x.2.2 y.1 + MixedPoisson.row1 D x.1 y.2.1
    + over D.side [2, 4] fun t => y.2.2 * dot x.1 (nrm t)

/-- demo/free_slip_stokes_iter.py:182-191 and demo/free_slip_stokes_iter_cylinder.py:182-187 on the
square.  The penalization of jumps (demo/free_slip_stokes_iter.py:185-186) is an integral `skel` over
inner edges with weight `w`; in the second demo `w` is zero. -/
noncomputable def freeSlip (D : Square A) (skel : A →ₗ[ℝ] ℝ) (w : A) (jump : Vec A → Vec A)
    (x y : Vec A × A × A) : ℝ :=
  Stokes.rowF D x.1 x.2.1 x.2.2 y.1 + skel (w * dot (jump x.1) (jump y.1))
    + Stokes.rowDiv D.vol x.1 y.2.1
    + over D.side [1] fun t => y.2.2 * dot x.1 (nrm t)

/-- demo/bertoluzza_stokes.py:164-169 -/
noncomputable def bertoluzza (D : Square A) (x y : Vec A × A × A) : ℝ :=
  Stokes.rowB D x.1 x.2.1 x.2.2 y.1 + Stokes.rowDiv D.vol x.1 y.2.1
    + over D.side [1] fun t => y.2.2 * dot x.1 (rotateB (nrm t))

/-- demo/isoP2_stokes.py:78-83; the last function is a constant. -/
noncomputable def isoP2 (D : Square A) (x y : Vec A × A × ℝ) : ℝ :=
  Stokes.bulk D.vol 1 x.1 x.2.1 y.1 + (Stokes.rowDiv D.vol x.1 y.2.1 + D.vol (y.2.1 * c x.2.2))
    + D.vol (x.2.1 * c y.2.2)

/-- demo/layton_darcy_stokes.py:52-71, solved in demo/layton_darcy_stokes_iter.py:123.  The functions
are the velocities and the pressures of Stokes and Darcy and the multiplier.  The penalization of
jumps (demo/layton_darcy_stokes.py:58) is an integral `skel` over inner edges with weight `w`, which is
zero without `stokes_CR`. -/
noncomputable def layton (D : Immersed A) (mu K alpha : ℝ) (skel : A →ₗ[ℝ] ℝ) (w : A)
    (jump : Vec A → A) (x y : Vec A × Vec A × A × A × (ℕ → A)) : ℝ :=
  DarcyStokes.laytonRow0 D mu alpha x.1 x.2.2.1 x.2.2.2.2 y.1 + skel (w * (jump x.1 * jump y.1))
    + DarcyStokes.laytonRow1 D K x.2.1 x.2.2.2.1 x.2.2.2.2 y.2.1
    + Stokes.rowDiv D.outer x.1 y.2.2.1 + DarcyStokes.laytonRow3 D x.2.1 y.2.2.2.1
    + DarcyStokes.laytonRow4 D x.1 x.2.1 y.2.2.2.2

/-- demo/dq_darcy_stokes.py:140-148 -/
noncomputable def dq (D : Immersed A) (mu K alpha : ℝ) (x y : Vec A × A × A) : ℝ :=
  DarcyStokes.row0 D mu alpha x.1 x.2.1 x.2.2 y.1 + Stokes.rowDiv D.outer x.1 y.2.1
    + DarcyStokes.row2 D K x.1 x.2.2 y.2.2

/-- demo/emi_primal.py:109-112 -/
def emi (D : Immersed A) (k0 k1 : ℝ) (x y : A × A) : ℝ :=
  Emi.row0 D k0 x.1 x.2 y.1 + Emi.row1 D k1 x.1 x.2 y.2

/-- demo/emi_primal_mortar.py:40-46 -/
def emiMortar (D : Immersed A) (k0 k1 : ℝ) (x y : A × A × (ℕ → A)) : ℝ :=
  Emi.mortarRow0 D k0 x.1 x.2.2 y.1 + Emi.mortarRow1 D k1 x.2.1 x.2.2 y.2.1
    + Emi.mortarRow2 D x.1 x.2.1 x.2.2 y.2.2

/-- demo/twoDoneDoneD.py:119-125, solved in demo/twoDoneDoneD_iter.py:94 -/
def twoD (D : Halved A) (k k1 : ℝ) (x y : A × A × A) : ℝ :=
  TwoOneOne.row0 D k x.1 x.1 x.2.2 y.1 + TwoOneOne.row1 D k1 x.2.1 x.2.2 y.2.1
    + TwoOneOne.row2 D x.1 x.2.1 y.2.2

/-- demo/elasticity_mixed_2d.py:45-52 -/
noncomputable def elasticityMixed (D : Square A) (mu lmbda : ℝ) (x y : Vec A × A × Vec A) : ℝ :=
  Elasticity.mixedRow0 D mu x.1 x.2.1 x.2.2 y.1 + Elasticity.mixedRow1 D lmbda x.1 x.2.1 y.2.1
    + over D.side [1, 2, 3, 4] fun _ => dot x.1 y.2.2

/-- demo/isect_mortar_2d.py:84-102 -/
def isect (D : Immersed A) (eps : ℝ) (x y : A × A × A) : ℝ :=
  Isect.row0 D eps x.1 x.2.2 y.1 + Isect.row1 D x.2.1 x.2.2 y.2.1
    + ((over D.side [1, 2, 3, 4] fun _ => - (y.2.2 * x.1))
      + over D.side [1, 2, 3, 4] fun _ => y.2.2 * x.2.1)

/-- demo/optim_control_L2.py:33-40 -/
def optim (vol bdry : A →ₗ[ℝ] ℝ) (eps : ℝ) (x y : A × A × A) : ℝ :=
  Minimise.Optim.row0 vol eps x.1 x.2.2 y.1 + Minimise.Optim.row1 vol bdry x.2.1 x.2.2 y.2.1
    + Minimise.Optim.row2 vol x.1 x.2.1 y.2.2

/-- demo/layer_2d.py:55-71 -/
def layer (vol1 vol2 volO : A →ₗ[ℝ] ℝ) (k1 k2 : ℝ) (x y : A × A × A) : ℝ :=
  Minimise.Layer.row0 vol1 volO k1 x.1 x.2.2 y.1 + Minimise.Layer.row1 vol2 volO k2 x.2.1 x.2.2 y.2.1
    + Minimise.Layer.row2 volO x.1 x.2.1 y.2.2

/-- demo/poisson_babuska.py:52-55 -/
def babuska (vol bdry : A →ₗ[ℝ] ℝ) (x y : A × A) : ℝ :=
  Minimise.Babuska.row0 vol bdry x.1 x.2 y.1 + Minimise.Babuska.row1 bdry x.1 y.2

/-- demo/time_dep.py:28-31 -/
noncomputable def heat (vol bdry : A →ₗ[ℝ] ℝ) (dt : ℝ) (x y : A × A) : ℝ :=
  Minimise.Heat.row0 vol bdry dt x.1 x.2 y.1 + Minimise.Babuska.row1 bdry x.1 y.2

variable {X Y Z : Type} [AddCommGroup X] [Module ℝ X] [AddCommGroup Y] [Module ℝ Y]
  [AddCommGroup Z] [Module ℝ Z]

/-- apps/enumath/has_multiplier.py:39-53, whose symmetry is asserted in lines 116-118. -/
noncomputable def has (P : Apps.Problem X Y) (x y : X × Y × Y) : ℝ :=
  Apps.Has.row0 P x.1 x.2.2 y.1 + Apps.Has.row1 P x.2.1 x.2.2 y.2.1
    + Apps.Has.row2 P x.1 x.2.1 x.2.2 y.2.2

/-- apps/enumath/not_has_multiplier.py:38-49, whose symmetry is asserted in lines 88-90. -/
noncomputable def notHas (P : Apps.Problem X Y) (x y : X × Y) : ℝ :=
  Apps.NotHas.row0 P x.1 (P.avg x.1) x.2 y.1 + Apps.NotHas.row1 P (P.avg x.1) x.2 y.2

/-- apps/d123/solving.py:42-59 -/
def nested (N : Apps.Nested X Y Z) (x y : X × Y × Z × Y × Z) : ℝ :=
  N.row0 x.1 x.2.2.2.1 y.1 + N.row1 x.2.1 x.2.2.2.1 x.2.2.2.2 y.2.1 + N.row2 x.2.2.1 x.2.2.2.2 y.2.2.1
    + N.row3 x.1 x.2.1 y.2.2.2.1 + N.row4 x.2.1 x.2.2.1 y.2.2.2.2

end Verif.Symmetric
