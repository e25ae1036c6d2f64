import Verif.Model.Symmetric
import Verif.Spec.Symmetric
import Verif.Props.Apps
import Verif.Props.Minimise

/-!
# The block systems of the demos are symmetric

As `MinRes` requires.
-/

namespace Verif.Symmetric
open Verif.Mms

variable {A : Type} [CommRing A] [Algebra ℝ A] [Smooth A]

/-- demo/poisson_babuska_bc.py, for each choice of boundary conditions -/
theorem poissonBc_symm (D : Square A) (s : PoissonBc.Setup) : IsSymm (poissonBc D s) := by
  intro x y
  simp only [poissonBc, PoissonBc.row0, PoissonBc.lmTags, over, List.map_cons, List.map_nil,
    List.sum_cons, List.sum_nil, dot, grad]
  ring_nf

/-- demo/mixed_poisson_babuska.py -/
theorem mixedPoisson_symm (D : Square A) : IsSymm (mixedPoisson D) := by
  intro x y
  simp only [mixedPoisson, MixedPoisson.row0, MixedPoisson.row1, over, List.map_cons, List.map_nil,
    List.sum_cons, List.sum_nil, dot, div, nrm]
  ring_nf

/-- demo/free_slip_stokes_iter.py on the square -/
theorem freeSlip_symm (D : Square A) (skel : A →ₗ[ℝ] ℝ) (w : A) (jump : Vec A → Vec A) :
    IsSymm (freeSlip D skel w jump) := by
  intro x y
  simp only [freeSlip, Stokes.rowF, Stokes.bulk, Stokes.rowDiv, over, List.map_cons, List.map_nil,
    List.sum_cons, List.sum_nil, dot, div, nrm, Mms.inner, sym, gradV, grad]
  ring_nf

/-- demo/bertoluzza_stokes.py on the square -/
theorem bertoluzza_symm (D : Square A) : IsSymm (bertoluzza D) := by
  intro x y
  simp only [bertoluzza, Stokes.rowB, Stokes.bulk, Stokes.rowDiv, over, List.map_cons, List.map_nil,
    List.sum_cons, List.sum_nil, dot, div, nrm, Mms.inner, sym, gradV, grad]
  ring_nf

/-- demo/isoP2_stokes.py -/
theorem isoP2_symm (D : Square A) : IsSymm (isoP2 D) := by
  intro x y
  simp only [isoP2, Stokes.bulk, Stokes.rowDiv, dot, div, Mms.inner, sym, gradV, grad]
  ring_nf

/-- demo/layton_darcy_stokes.py -/
theorem layton_symm (D : Immersed A) (mu K alpha : ℝ) (skel : A →ₗ[ℝ] ℝ) (w : A)
    (jump : Vec A → A) : IsSymm (layton D mu K alpha skel w jump) := by
  intro x y
  simp only [layton, DarcyStokes.laytonRow0, DarcyStokes.laytonRow1, DarcyStokes.laytonRow3,
    DarcyStokes.laytonRow4, DarcyStokes.stokesPart, Stokes.bulk, Stokes.rowDiv, over, List.map_cons,
    List.map_nil, List.sum_cons, List.sum_nil, dot, div, nrm, Mms.inner, sym, gradV, grad]
  ring_nf

/-- demo/dq_darcy_stokes.py -/
theorem dq_symm (D : Immersed A) (mu K alpha : ℝ) : IsSymm (dq D mu K alpha) := by
  intro x y
  simp only [dq, DarcyStokes.row0, DarcyStokes.row2, DarcyStokes.stokesPart, Stokes.bulk,
    Stokes.rowDiv, over, List.map_cons, List.map_nil, List.sum_cons, List.sum_nil, dot, div, Mms.inner,
    sym, gradV, grad, scale]
  ring_nf

/-- demo/emi_primal.py -/
theorem emi_symm (D : Immersed A) (k0 k1 : ℝ) : IsSymm (emi D k0 k1) := by
  intro x y
  simp only [emi, Emi.row0, Emi.row1, over, List.map_cons, List.map_nil, List.sum_cons,
    List.sum_nil, dot, grad]
  ring_nf

/-- demo/emi_primal_mortar.py -/
theorem emiMortar_symm (D : Immersed A) (k0 k1 : ℝ) : IsSymm (emiMortar D k0 k1) := by
  intro x y
  simp only [emiMortar, Emi.mortarRow0, Emi.mortarRow1, Emi.mortarRow2, over, List.map_cons,
    List.map_nil, List.sum_cons, List.sum_nil, dot, grad]
  ring_nf

/-- demo/twoDoneDoneD.py -/
theorem twoD_symm (D : Halved A) (k k1 : ℝ) : IsSymm (twoD D k k1) := by
  intro x y
  simp only [twoD, TwoOneOne.row0, TwoOneOne.row1, TwoOneOne.row2, over, List.map_cons,
    List.map_nil, List.sum_cons, List.sum_nil, dot, grad]
  ring_nf

/-- demo/elasticity_mixed_2d.py -/
theorem elasticityMixed_symm (D : Square A) (mu lmbda : ℝ) : IsSymm (elasticityMixed D mu lmbda) := by
  intro x y
  simp only [elasticityMixed, Elasticity.mixedRow0, Elasticity.mixedRow1, over, List.map_cons,
    List.map_nil, List.sum_cons, List.sum_nil, dot, div, Mms.inner, sym, gradV, grad]
  ring_nf

/-- demo/isect_mortar_2d.py -/
theorem isect_symm (D : Immersed A) (eps : ℝ) : IsSymm (isect D eps) := by
  intro x y
  simp only [isect, Isect.row0, Isect.row1, over, List.map_cons, List.map_nil, List.sum_cons,
    List.sum_nil, dot, grad]
  ring_nf

/-- demo/optim_control_L2.py -/
theorem optim_symm (vol bdry : A →ₗ[ℝ] ℝ) (eps : ℝ) : IsSymm (optim vol bdry eps) := by
  intro x y
  simp only [optim, Minimise.Optim.row0, Minimise.Optim.row1, Minimise.Optim.row2, dot, grad]
  ring_nf

/-- demo/layer_2d.py -/
theorem layer_symm (vol1 vol2 volO : A →ₗ[ℝ] ℝ) (k1 k2 : ℝ) :
    IsSymm (layer vol1 vol2 volO k1 k2) := by
  intro x y
  simp only [layer, Minimise.Layer.row0, Minimise.Layer.row1, Minimise.Layer.row2, dot, grad]
  ring_nf

/-- demo/poisson_babuska.py -/
theorem babuska_symm (vol bdry : A →ₗ[ℝ] ℝ) : IsSymm (babuska vol bdry) := by
  intro x y
  simp only [babuska, Minimise.Babuska.row0, Minimise.Babuska.row1, dot, grad]
  ring_nf

/-- demo/time_dep.py -/
theorem heat_symm (vol bdry : A →ₗ[ℝ] ℝ) (dt : ℝ) : IsSymm (heat vol bdry dt) := by
  intro x y
  simp only [heat, Minimise.Heat.row0, Minimise.Babuska.row1, dot, grad]
  ring_nf

variable {X Y Z : Type} [AddCommGroup X] [Module ℝ X] [AddCommGroup Y] [Module ℝ Y]
  [AddCommGroup Z] [Module ℝ Z]

/-- apps/enumath/has_multiplier.py -/
theorem has_symm (P : Apps.Problem X Y) (h3 : Apps.Energy P.e3) (hs3 : Apps.Energy P.s3)
    (h1 : Apps.Energy P.e1) (hs1 : Apps.Energy P.s1) (hm : Apps.Inner P.m) : IsSymm (has P) := by
  intro x y
  simp only [has, Apps.Has.row0, Apps.Has.row1, Apps.Has.row2]
  rw [h3.symm x.1, hs3.symm x.1, h1.symm x.2.1, hs1.symm x.2.1, hm.symm x.2.2 y.2.2]
  ring

/-- apps/enumath/not_has_multiplier.py -/
theorem notHas_symm (P : Apps.Problem X Y) (h3 : Apps.Energy P.e3) (hs3 : Apps.Energy P.s3)
    (h1 : Apps.Energy P.e1) (hs1 : Apps.Energy P.s1) (hm : Apps.Inner P.m) : IsSymm (notHas P) := by
  intro x y
  simp only [notHas, Apps.NotHas.row0, Apps.NotHas.row1]
  rw [h3.symm x.1, hs3.symm x.1, h1.symm x.2, hs1.symm x.2, hm.symm x.2 y.2,
    hm.symm (P.avg x.1) (P.avg y.1)]
  ring

/-- apps/d123/solving.py -/
theorem nested_symm (N : Apps.Nested X Y Z) (h3 : Apps.Energy N.e3) (h2 : Apps.Energy N.e2)
    (h1 : Apps.Energy N.e1) : IsSymm (nested N) := by
  intro x y
  simp only [nested, Apps.Nested.row0, Apps.Nested.row1, Apps.Nested.row2, Apps.Nested.row3,
    Apps.Nested.row4]
  rw [h3.symm x.1, h2.symm x.2.1, h1.symm x.2.2.1]
  ring

/-! ### Examples -/

-- constant functions on the unit square, whose boundary has length 4
example : letI := Minimise.constants
    babuska LinearMap.id ((4 : ℝ) • LinearMap.id) (1, 2) (3, 5) = 47 := by
  letI := Minimise.constants
  simp only [babuska, Minimise.Babuska.row0, Minimise.Babuska.row1, Minimise.constants_dot]
  norm_num

-- functions on the unit square
example (x y : Sm × (ℕ → Sm)) : poissonBc unitSquare .dir x y = poissonBc unitSquare .dir y x :=
  poissonBc_symm unitSquare .dir x y

-- the hypotheses on the forms can be met
example : IsSymm (has Apps.kinked) :=
  has_symm Apps.kinked ⟨fun _ _ => rfl, fun _ => le_rfl⟩
    ⟨fun u v => mul_comm u v, fun u => mul_self_nonneg u⟩ ⟨fun _ _ => rfl, fun _ => le_rfl⟩
    ⟨fun _ _ => rfl, fun _ => le_rfl⟩ Apps.kinked_inner

end Verif.Symmetric
