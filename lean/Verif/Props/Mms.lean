import Verif.Lemmas.MmsData

/-!
# The manufactured solutions of the demos solve the equations the demos set up

The errors reported by the demos are those of the discretisation only if the manufactured solution,
put in place of the trial functions, satisfies each row of the block form for all test functions.
-/

namespace Verif.Mms

variable {A : Type} [CommRing A] [Algebra ℝ A] [Smooth A]

/-- demo/poisson_babuska.py: a function whose gradient vanishes on the boundary, with multiplier zero,
satisfies the first equation for every test function. -/
theorem poisson_consistent (D : Square A) (u v : A)
    (h : ∀ t ∈ [1, 2, 3, 4], VanishesV D.side t (grad u)) :
    Poisson.row0 D u 0 v = Poisson.rhs0 D u v := by
  have g := D.green' (scale v (grad u))
  rw [div_scale, map_add] at g
  simp only [List.mem_cons, List.not_mem_nil, or_false, forall_eq_or_imp, forall_eq, VanishesV,
    Vanishes] at h
  obtain ⟨⟨h1, -⟩, ⟨h2, -⟩, ⟨-, h3⟩, ⟨-, h4⟩⟩ := h
  simp [Poisson.row0, Poisson.rhs0, Poisson.force, over, scale, h1, h2, h3, h4, add_mul] at g ⊢
  linarith

/-- demo/poisson_babuska_bc.py: every function with the multipliers of `setup_mms` satisfies the
first equation, for each of the boundary conditions and all test functions vanishing on the
Dirichlet edges. -/
theorem poisson_bc_consistent (D : Square A) (s : PoissonBc.Setup) (u v : A)
    (hv : ∀ t ∈ PoissonBc.dirTags s, Vanishes D.side t v) :
    PoissonBc.row0 D s u (PoissonBc.lms u) v = PoissonBc.rhs0 D s u v := by
  have g := D.green' (scale v (grad u))
  rw [div_scale, map_add] at g
  obtain ⟨n1, n2, n3, n4⟩ := normals_eq
  cases s <;>
  simp [PoissonBc.row0, PoissonBc.rhs0, PoissonBc.lms, PoissonBc.neumann, PoissonBc.force,
    PoissonBc.lmTags, PoissonBc.dirTags, PoissonBc.neuTags, over, n1, n2, n3, n4, cvec, dot, scale,
    grad, Vanishes] at g hv ⊢ <;>
  simp only [mul_comm v] at g ⊢ <;> (try simp only [hv] at g ⊢) <;> linarith

/-- demo/mixed_poisson_babuska.py: flux, potential and multiplier satisfy the equations for every
test function whose normal component is zero on the bottom edge. -/
theorem mixed_poisson_consistent (D : Square A) (u : A) (r : Vec A)
    (hr : Vanishes D.side 3 (dot r (nrm 3))) :
    MixedPoisson.row0 D (MixedPoisson.flux u) u u r = MixedPoisson.rhs0 D u r ∧
      ∀ v, MixedPoisson.row1 D (MixedPoisson.flux u) v = MixedPoisson.rhs1 D u v := by
  constructor
  · have g := D.green' (scale u r)
    rw [div_scale, map_add] at g
    have h := hr u
    simp [MixedPoisson.row0, MixedPoisson.rhs0, MixedPoisson.flux, over, scale, nrm, cvec, dot,
      outward, grad, mul_comm] at g h ⊢
    linarith
  · intro v
    simp only [MixedPoisson.row1, MixedPoisson.rhs1, MixedPoisson.force, mul_comm]

/-- demo/grad_div_babuska.py: every vector function with its multiplier satisfies the first equation. -/
theorem grad_div_consistent (D : Square A) (u v : Vec A) :
    GradDiv.row0 D u (GradDiv.lm u) v = GradDiv.rhs0 D u v := by
  have g := D.green' (scale (div u) v)
  rw [div_scale, map_add] at g
  simp only [GradDiv.row0, GradDiv.rhs0, GradDiv.lm, GradDiv.force, over, scale, nrm, cvec,
      outward] at g ⊢
  generalize div u = d at *
  generalize div v = e at *
  simp [dot, add_mul, grad] at g ⊢
  ring_nf at g ⊢
  linarith

/-- demo/curl_curl_babuska.py: every vector function with its multiplier satisfies the first
equation. -/
theorem curl_curl_consistent (D : Square A) (u v : Vec A) :
    CurlCurl.row0 D u (CurlCurl.lm u) v = CurlCurl.rhs0 D u v := by
  have g := D.green' (scale (curl u) (v.2, - v.1))
  rw [div_scale, map_add] at g
  have e : div (v.2, - v.1) = curl v := by simp [div, curl, sub_eq_add_neg]
  rw [e] at g
  simp only [CurlCurl.row0, CurlCurl.rhs0, CurlCurl.lm, CurlCurl.force, over, scale, nrm, cvec,
      outward, curlS] at g ⊢
  generalize curl u = d at *
  generalize curl v = e at *
  simp [dot, rotate, add_mul, grad] at g ⊢
  ring_nf at g ⊢
  linarith

/-- demo/sym_grad_babuska.py: every vector function with its multiplier satisfies the first equation
whether the full trace, its normal or its tangential part is prescribed by the multiplier. -/
theorem sym_grad_consistent (D : Square A) (u v : Vec A) :
    SymGrad.rowFull D u (SymGrad.lm u) v = SymGrad.rhsFull D u v ∧
      SymGrad.rowNormal D u (SymGrad.lmN u) v = SymGrad.rhsNormal D u v ∧
      SymGrad.rowTangent D u (SymGrad.lmT u) v = SymGrad.rhsTangent D u v := by
  have g := D.green' (tmul (SymGrad.stress u) v)
  rw [div_tmul, map_add] at g
  obtain ⟨n1, n2, n3, n4⟩ := normals_eq
  have hs : (SymGrad.stress u).1.2 = (SymGrad.stress u).2.1 := by
    simp [SymGrad.stress, sym, add_comm]
  refine ⟨?_, ?_, ?_⟩ <;>
  · simp only [SymGrad.rowNormal, SymGrad.rhsNormal, SymGrad.rowFull, SymGrad.rhsFull,
      SymGrad.rowTangent, SymGrad.rhsTangent, SymGrad.bulk, inner_sym]
    rw [← SymGrad.stress]
    simp [SymGrad.lmN, SymGrad.lmT, SymGrad.lm, SymGrad.neumann, SymGrad.force, over, n1, n2, n3,
      n4, nrm, outward, cvec, dot, mul, tmul, rotate, add_mul, mul_add, hs] at g ⊢
    ring_nf at g ⊢
    linarith

/-- demo/bertoluzza_stokes.py: every velocity and pressure satisfy the momentum equation with the
multiplier of `setup_mms`. -/
theorem bertoluzza_consistent (D : Square A) (u : Vec A) (p : A) (v : Vec A)
    (hv : ∀ t ∈ [3, 4], VanishesV D.side t v) :
    Stokes.rowB D u p (Stokes.lmT u p) v = Stokes.rhsB D u p v := by
  rw [Stokes.rowB, stokes_bulk, D.green']
  obtain ⟨n1, n2, n3, n4⟩ := normals_eq
  have hs := stress_symm 1 u p
  simp only [List.mem_cons, List.not_mem_nil, or_false, forall_eq_or_imp, forall_eq, VanishesV,
    Vanishes] at hv
  obtain ⟨⟨h1, h2⟩, h3, h4⟩ := hv
  simp [Stokes.rhsB, Stokes.lmT, Stokes.neumann, Stokes.lagrangeN, over, tmul, n1, n2, nrm,
    outward, cvec, dot, mul, rotateB, hs, h1, h2, h3, h4]
  ring

/-- demo/free_slip_stokes_iter.py on the unit square: the same. -/
theorem free_slip_consistent (D : Square A) (u : Vec A) (p : A) (v : Vec A)
    (hv : ∀ t ∈ [3, 4], VanishesV D.side t v) :
    Stokes.rowF D u p (Stokes.lmN u p) v = Stokes.rhsF D u p v := by
  rw [Stokes.rowF, stokes_bulk, D.green']
  obtain ⟨n1, n2, n3, n4⟩ := normals_eq
  have hs := stress_symm 1 u p
  simp only [List.mem_cons, List.not_mem_nil, or_false, forall_eq_or_imp, forall_eq, VanishesV,
    Vanishes] at hv
  obtain ⟨⟨h1, h2⟩, h3, h4⟩ := hv
  simp [Stokes.rhsF, Stokes.lmN, Stokes.neumann, Stokes.lagrangeT, Stokes.tangent, over, tmul, n1,
    n2, nrm, outward, cvec, dot, mul, hs, h1, h2, h3, h4]
  ring

/-- demo/isoP2_stokes.py: the same with the velocity prescribed on all edges. -/
theorem isoP2_consistent (D : Square A) (u : Vec A) (p : A) (v : Vec A)
    (hv : ∀ t ∈ [1, 2, 3, 4], VanishesV D.side t v) :
    Stokes.bulk D.vol 1 u p v = Stokes.rhsIso D u p v := by
  rw [stokes_bulk, D.green']
  simp only [List.mem_cons, List.not_mem_nil, or_false, forall_eq_or_imp, forall_eq, VanishesV,
    Vanishes] at hv
  obtain ⟨⟨h1, h2⟩, ⟨h3, h4⟩, ⟨h5, h6⟩, h7, h8⟩ := hv
  simp [Stokes.rhsIso, tmul, h1, h2, h3, h4, h5, h6, h7, h8]

/-- The velocities of these demos satisfy the equation of mass. -/
theorem mass_consistent (vol : A →ₗ[ℝ] ℝ) (phi q : A) :
    Stokes.rowDiv vol (Stokes.velocity phi) q = 0 := by
  simp [Stokes.rowDiv, velocity_div]

/-- demo/emi_primal.py: every pair of potentials satisfies both equations. -/
theorem emi_consistent (D : Immersed A) (k0 k1 : ℝ) (u0 u1 : A) :
    (∀ v, (∀ t ∈ [5, 6, 7, 8], Vanishes D.side t v) →
      Emi.row0 D k0 u0 u1 v = Emi.rhs0 D k0 u0 u1 v) ∧
      ∀ v, Emi.row1 D k1 u0 u1 v = Emi.rhs1 D k0 k1 u0 u1 v := by
  obtain ⟨n1, n2, n3, n4⟩ := normalsI_eq
  constructor
  · intro v hv
    have g := D.greenO (scale v (Emi.flux k0 u0))
    rw [div_scale, map_add] at g
    simp only [List.mem_cons, List.not_mem_nil, or_false, forall_eq_or_imp, forall_eq,
      Vanishes] at hv
    obtain ⟨h5, h6, h7, h8⟩ := hv
    simp [Emi.row0, Emi.rhs0, Emi.force, Emi.gR, over, n1, n2, n3, n4, cvec, dot, scale, mul_add,
      add_mul, sub_mul] at g ⊢
    simp only [mul_comm v, h5, h6, h7, h8] at g ⊢
    simp only [Emi.flux, scale, grad] at g ⊢
    ring_nf at g ⊢
    linarith
  · intro v
    have g := D.greenI (scale v (Emi.flux k1 u1))
    rw [div_scale, map_add] at g
    simp [Emi.row1, Emi.rhs1, Emi.force, Emi.gR, Emi.gN, over, n1, n2, n3, n4, cvec, dot, scale,
      mul_add, add_mul, sub_mul] at g ⊢
    simp only [mul_comm v] at g ⊢
    simp only [Emi.flux, scale, grad] at g ⊢
    ring_nf at g ⊢
    linarith

/-- demo/emi_primal_mortar.py: every pair of potentials with the multiplier of `setup_mms` satisfies
the three equations. -/
theorem emi_mortar_consistent (D : Immersed A) (k0 k1 : ℝ) (u0 u1 : A) :
    (∀ v, (∀ t ∈ [5, 6, 7, 8], Vanishes D.side t v) →
      Emi.mortarRow0 D k0 u0 (Emi.lms k0 u0) v = Emi.mortarRhs0 D k0 u0 v) ∧
      (∀ v, Emi.mortarRow1 D k1 u1 (Emi.lms k0 u0) v = Emi.mortarRhs1 D k0 k1 u0 u1 v) ∧
      ∀ q, Emi.mortarRow2 D u0 u1 (Emi.lms k0 u0) q = Emi.mortarRhs2 D k0 u0 u1 q := by
  obtain ⟨n1, n2, n3, n4⟩ := normalsI_eq
  refine ⟨?_, ?_, ?_⟩
  · intro v hv
    have g := D.greenO (scale v (Emi.flux k0 u0))
    rw [div_scale, map_add] at g
    simp only [List.mem_cons, List.not_mem_nil, or_false, forall_eq_or_imp, forall_eq,
      Vanishes] at hv
    obtain ⟨h5, h6, h7, h8⟩ := hv
    simp [Emi.mortarRow0, Emi.mortarRhs0, Emi.force, Emi.lms, over, n1, n2, n3, n4, cvec, dot,
      scale, mul_add, add_mul] at g ⊢
    simp only [mul_comm v, h5, h6, h7, h8] at g ⊢
    simp only [Emi.flux, scale, grad] at g ⊢
    ring_nf at g ⊢
    linarith
  · intro v
    have g := D.greenI (scale v (Emi.flux k1 u1))
    rw [div_scale, map_add] at g
    simp [Emi.mortarRow1, Emi.mortarRhs1, Emi.force, Emi.gN, Emi.lms, over, n1, n2, n3, n4, cvec,
      dot, scale, mul_add, add_mul, sub_mul] at g ⊢
    simp only [mul_comm v] at g ⊢
    simp only [Emi.flux, scale, grad] at g ⊢
    ring_nf at g ⊢
    linarith
  · intro q
    simp [Emi.mortarRow2, Emi.mortarRhs2, Emi.gR, Emi.lms, over, n1, n2, n3, n4, cvec, dot, add_mul,
      sub_mul, mul_comm (q _)]
    ring

/-- demo/dq_darcy_stokes.py: every Stokes velocity and pressure and Darcy pressure satisfy the
equations of momentum and of the Darcy pressure. -/
theorem dq_consistent (D : Immersed A) (mu K alpha : ℝ) (u : Vec A) (p pD : A) :
    (∀ v, (∀ t ∈ [5, 6], VanishesV D.side t v) →
      DarcyStokes.row0 D mu alpha u p pD v = DarcyStokes.rhs0 D mu alpha u p pD v) ∧
      ∀ q, DarcyStokes.row2 D K u pD q = DarcyStokes.rhs2 D K u pD q := by
  obtain ⟨n1, n2, n3, n4⟩ := normalsI_eq
  obtain ⟨m7, m8⟩ := normalsS_eq
  constructor
  · intro v hv
    have hs := stress_symm mu u p
    rw [DarcyStokes.row0, DarcyStokes.stokesPart, stokes_bulk, D.greenO]
    simp only [List.mem_cons, List.not_mem_nil, or_false, forall_eq_or_imp, forall_eq, VanishesV,
      Vanishes] at hv
    obtain ⟨⟨h1, h2⟩, h3, h4⟩ := hv
    simp [DarcyStokes.rhs0, DarcyStokes.gN, DarcyStokes.gT, DarcyStokes.traction, DarcyStokes.nS,
      over, tmul, n1, n2, n3, n4, m7, m8, cvec, outward, dot, mul, rotate, hs, h1, h2, h3, h4,
      sub_mul, mul_assoc]
    ring
  · intro q
    have g := D.greenI (scale q (DarcyStokes.velocityD K pD))
    rw [div_scale, map_add] at g
    simp [DarcyStokes.row2, DarcyStokes.rhs2, DarcyStokes.forceD, DarcyStokes.gU, DarcyStokes.nS,
      over, n1, n2, n3, n4, cvec, outward, dot, scale, sub_mul] at g ⊢
    simp only [mul_comm q] at g ⊢
    simp only [DarcyStokes.velocityD, grad] at g ⊢
    simp at g ⊢
    linarith

/-- demo/layton_darcy_stokes.py: every Stokes velocity and pressure and Darcy pressure satisfy the
equations with the multiplier of `setup_mms`. -/
theorem layton_consistent (D : Immersed A) (mu K alpha : ℝ) (hK : K ≠ 0) (u : Vec A) (p pD : A) :
    (∀ v, (∀ t ∈ [5, 6], VanishesV D.side t v) →
      DarcyStokes.laytonRow0 D mu alpha u p (DarcyStokes.lms mu u p) v =
        DarcyStokes.laytonRhs0 D mu alpha u p v) ∧
      (∀ v, DarcyStokes.laytonRow1 D K (DarcyStokes.velocityD K pD) pD (DarcyStokes.lms mu u p) v =
        DarcyStokes.laytonRhs1 D mu u p pD v) ∧
      (∀ q, DarcyStokes.laytonRow3 D (DarcyStokes.velocityD K pD) q =
        DarcyStokes.laytonRhs3 D K pD q) ∧
      ∀ m, DarcyStokes.laytonRow4 D u (DarcyStokes.velocityD K pD) m =
        DarcyStokes.laytonRhs4 D u (DarcyStokes.velocityD K pD) m := by
  obtain ⟨n1, n2, n3, n4⟩ := normalsI_eq
  obtain ⟨m7, m8⟩ := normalsS_eq
  have hs := stress_symm mu u p
  refine ⟨?_, ?_, ?_, ?_⟩
  · intro v hv
    rw [DarcyStokes.laytonRow0, DarcyStokes.stokesPart, stokes_bulk, D.greenO]
    simp only [List.mem_cons, List.not_mem_nil, or_false, forall_eq_or_imp, forall_eq, VanishesV,
      Vanishes] at hv
    obtain ⟨⟨h1, h2⟩, h3, h4⟩ := hv
    simp [DarcyStokes.laytonRhs0, DarcyStokes.lms, DarcyStokes.gT, DarcyStokes.traction,
      DarcyStokes.nS, over, tmul, n1, n2, n3, n4, m7, m8, cvec, outward, dot, mul, rotate, hs, h1,
      h2, h3, h4, sub_mul, mul_assoc]
    ring
  · intro v
    have g := D.greenI (scale pD v)
    rw [div_scale, map_add] at g
    have e : (c (1 / K) : A) * dot (DarcyStokes.velocityD K pD) v = - dot v (grad pD) := by
      have hk : (c (1 / K) : A) * c K = 1 := by
        rw [c, c, ← map_mul, one_div_mul_cancel hK, map_one]
      simp only [DarcyStokes.velocityD, dot, grad]
      linear_combination (- (dx pD * v.1 + dy pD * v.2)) * hk
    rw [DarcyStokes.laytonRow1, e]
    simp [DarcyStokes.laytonRhs1, DarcyStokes.lms, DarcyStokes.gN,
      over, n1, n2, n3, n4, nrm, cvec, outward, dot, mul, scale, sub_mul] at g ⊢
    rw [mul_comm pD (div v)]
    linarith
  · intro q
    simp only [DarcyStokes.laytonRow3, DarcyStokes.laytonRhs3, DarcyStokes.forceD, mul_comm]
  · intro m
    simp [DarcyStokes.laytonRow4, DarcyStokes.laytonRhs4, DarcyStokes.gU, DarcyStokes.nS,
      over, n1, n2, n3, n4, nrm, cvec, outward, dot, sub_mul, mul_comm (m _)]
    ring

/-- demo/twoDoneDoneD.py: all functions on the two parts and on the segment satisfy the three
equations. -/
theorem twoD_consistent (D : Halved A) (k k1 : ℝ) (u0 u1 u : A) :
    (∀ v, (∀ t ∈ [1, 2, 3, 4, 5, 6], Vanishes D.side t v) →
      TwoOneOne.row0 D k u0 u1 (TwoOneOne.lm k u0 u1) v = TwoOneOne.rhs0 D k u0 u1 v) ∧
      (∀ v, (∀ i, D.atEnd i v = 0) →
        TwoOneOne.row1 D k1 u (TwoOneOne.lm k u0 u1) v = TwoOneOne.rhs1 D k k1 u0 u1 u v) ∧
      ∀ q, TwoOneOne.row2 D u0 u q = TwoOneOne.rhs2 D u0 u q := by
  refine ⟨?_, ?_, ?_⟩
  · intro v hv
    have g := D.greenLeft (scale v (scale (c k) (grad u0)))
    have g' := D.greenRight (scale v (scale (c k) (grad u1)))
    rw [div_scale, map_add] at g g'
    simp only [List.mem_cons, List.not_mem_nil, or_false, forall_eq_or_imp, forall_eq,
      Vanishes] at hv
    obtain ⟨h1, h2, h3, h4, h5, h6⟩ := hv
    simp only [dot_out1, dot_out2, dot_out3, dot_out4] at g g'
    simp [TwoOneOne.row0, TwoOneOne.rhs0, TwoOneOne.force, TwoOneOne.lm, over, cvec, dot, scale,
      mul_add, sub_mul] at g g' ⊢
    simp only [mul_comm v, h1, h2, h3, h4, h5, h6] at g g' ⊢
    simp only [grad, mul_assoc] at g g' ⊢
    linarith
  · intro v hv
    have g := D.along (c k1 * dy u * v)
    simp only [map_mul, hv] at g
    simp [Derivation.leibniz, smul_eq_mul] at g
    simp [TwoOneOne.row1, TwoOneOne.rhs1, TwoOneOne.forceGamma, over, sub_mul]
    simp only [mul_comm v, mul_assoc] at g ⊢
    ring_nf at g ⊢
    linarith
  · intro q
    simp [TwoOneOne.row2, TwoOneOne.rhs2, over, sub_mul, mul_comm q]
    ring

/-- demo/isect_mortar_2d.py: two functions with gradients vanishing on the interface satisfy both
equations with the multiplier `u1`. -/
theorem isect_consistent (D : Immersed A) (eps : ℝ) (u1 u2 v : A)
    (hu1 : ∀ t ∈ [1, 2, 3, 4], VanishesV D.side t (grad u1))
    (hu2 : ∀ t ∈ [1, 2, 3, 4], VanishesV D.side t (grad u2)) :
    Isect.row0 D eps u1 u1 v = Isect.rhs0 D eps u1 v ∧
      Isect.row1 D u2 u1 v = Isect.rhs1 D u1 u2 v := by
  simp only [List.mem_cons, List.not_mem_nil, or_false, forall_eq_or_imp, forall_eq, VanishesV,
    Vanishes, grad] at hu1 hu2
  obtain ⟨⟨h1, -⟩, ⟨h2, -⟩, ⟨-, h3⟩, ⟨-, h4⟩⟩ := hu1
  obtain ⟨⟨k1, -⟩, ⟨k2, -⟩, ⟨-, k3⟩, ⟨-, k4⟩⟩ := hu2
  constructor
  · have g := D.greenI (scale (c eps * v) (grad u1))
    rw [div_scale, map_add] at g
    simp [Isect.row0, Isect.rhs0, Isect.force1, over, dot, scale, grad, div, h1, h2, h3, h4,
      Derivation.leibniz] at g ⊢
    ring_nf at g ⊢
    simp only [map_add, map_sub, map_neg] at g ⊢
    linarith
  · have g := D.greenO (scale v (grad u2))
    rw [div_scale, map_add] at g
    simp [Isect.row1, Isect.rhs1, Isect.force2, over, dot, cvec, outward, scale, grad, div, k1, k2,
      k3, k4] at g ⊢
    ring_nf at g ⊢
    simp only [map_add, map_sub, map_neg] at g ⊢
    linarith

/-- demo/elasticity_2d.py: a displacement whose gradient vanishes on the boundary, with multiplier
zero, satisfies the first equation. -/
theorem elasticity_consistent (D : Square A) (mu lmbda : ℝ) (u v : Vec A)
    (h : ∀ t ∈ [1, 2, 3, 4], VanishesV D.side t (grad u.1) ∧ VanishesV D.side t (grad u.2)) :
    Elasticity.row0 D mu lmbda u (0, 0) v = Elasticity.rhs0 D mu lmbda u v := by
  have g := D.green' (tmul (Elasticity.stress mu lmbda u) v)
  obtain ⟨k1, -⟩ := traction_vanishes mu lmbda u v 1 (h 1 (by simp))
  obtain ⟨k2, -⟩ := traction_vanishes mu lmbda u v 2 (h 2 (by simp))
  obtain ⟨-, k3⟩ := traction_vanishes mu lmbda u v 3 (h 3 (by simp))
  obtain ⟨-, k4⟩ := traction_vanishes mu lmbda u v 4 (h 4 (by simp))
  rw [div_tmul, map_add, k1, k2, k3, k4] at g
  rw [Elasticity.row0, inner_stress_sym]
  simp [Elasticity.rhs0, Elasticity.force, over, dot] at g ⊢
  linarith

/-- demo/elasticity_mixed_2d.py: the same with the solid pressure as unknown. -/
theorem elasticity_mixed_consistent (D : Square A) (mu lmbda : ℝ) (hl : lmbda ≠ 0) (u : Vec A)
    (h : ∀ t ∈ [1, 2, 3, 4], VanishesV D.side t (grad u.1) ∧ VanishesV D.side t (grad u.2)) :
    (∀ v, Elasticity.mixedRow0 D mu u (Elasticity.pressure lmbda u) (0, 0) v =
      Elasticity.rhs0 D mu lmbda u v) ∧
      ∀ q, Elasticity.mixedRow1 D lmbda u (Elasticity.pressure lmbda u) q = 0 := by
  constructor
  · intro v
    rw [← elasticity_consistent D mu lmbda u v h, Elasticity.mixedRow0, Elasticity.row0, ← map_add]
    congr 2
    simp only [Elasticity.pressure, Elasticity.stress, inner, dot, sym, div, gradV, grad]
    ring
  · intro q
    have hk : (c (1 / lmbda) : A) * c lmbda = 1 := by
      rw [c, c, ← map_mul, one_div_mul_cancel hl, map_one]
    rw [Elasticity.mixedRow1, Elasticity.pressure, ← map_add, ← map_zero D.vol]
    congr 1
    linear_combination (- (div u * q)) * hk

/-- demo/dirac_2d.py: a function whose gradient vanishes on the boundary satisfies the first equation
in both components, with multiplier zero. -/
theorem dirac_consistent (D : Square A) (pt : Vec A → ℝ × ℝ) (u : A) (v : Vec A)
    (h : ∀ t ∈ [1, 2, 3, 4], VanishesV D.side t (grad u)) :
    Dirac.row0 D.vol pt (u, u) (0, 0) v = Dirac.rhs0 D.vol u v := by
  have h1 := poisson_consistent D u v.1 h
  have h2 := poisson_consistent D u v.2 h
  have e : Dirac.force u = Poisson.force u := by
    simp only [Dirac.force, Poisson.force, div, grad]; ring
  simp only [Poisson.row0, Poisson.rhs0, over, mul_zero, map_zero, List.map_cons, List.map_nil,
    List.sum_cons, List.sum_nil, add_zero, map_add] at h1 h2
  simp only [Dirac.row0, Dirac.rhs0, e, inner, gradV, dot, mul_zero, add_zero, map_zero, map_add]
    at h1 h2 ⊢
  linarith

/-- demo/time_dep.py: put in place of the discrete solution, the exact solution violates the first
equation of a step only by the difference of the time derivative and the difference quotient. -/
theorem heat_residual (D : Square A) (dt : ℝ) (u u0 ut v : A) (hv : Vanishes D.side 4 v) :
    TimeDep.row0 D dt u (fun t => - dot (grad u) (cvec (normals t))) v
        - TimeDep.rhs0 D dt u0 (TimeDep.force u ut) v =
      D.vol ((c (1 / dt) * (u - u0) - ut) * v) := by
  have g := D.green' (scale v (grad u))
  rw [div_scale, map_add] at g
  obtain ⟨n1, n2, n3, n4⟩ := normals_eq
  have h4 := hv (dy u)
  have e : (c (1 / dt) * (u - u0) - ut) * v =
      c (1 / dt) * (u * v) - c (1 / dt) * (u0 * v) - ut * v := by ring
  have e' : TimeDep.force u ut * v = ut * v - v * div (grad u) := by
    simp only [TimeDep.force, div, grad]; ring
  rw [TimeDep.row0, TimeDep.rhs0, e, e']
  simp [over, n1, n2, n3, cvec, dot, scale, grad] at g ⊢
  simp only [mul_comm v] at g ⊢
  linarith

/-! ### The functions of the demos -/

/-- demo/dirac_2d.py: its manufactured solution satisfies the first equation, wherever the point
is. -/
theorem dirac_demo (pt : Vec Sm → ℝ × ℝ) (v : Vec Sm) :
    Dirac.row0 unitSquare.vol pt (poissonU, poissonU) (0, 0) v =
      Dirac.rhs0 unitSquare.vol poissonU v :=
  dirac_consistent unitSquare pt poissonU v (bubble_cos _)

/-- demo/time_dep.py:40 prescribes zero for the multiplier at the ends of the three edges.  The
multiplier of the exact solution is not zero at the upper end of the left edge at positive times. -/
theorem heat_multiplier_end (t : ℝ) (ht : 0 < t) :
    (- dot (grad (heatU t)) (cvec (normals 1))).1 (0, 1) ≠ 0 := by
  have e : (- dot (grad (heatU t)) (cvec (normals 1))) = dx (heatU t) := by
    rw [normals_eq.1]
    simp only [dot, grad, cvec, c, map_zero, map_neg, map_one]; ring
  rw [e, dx_heatU]
  have := Real.pi_pos
  positivity

/-- demo/poisson_babuska.py: its manufactured solution satisfies the first equation. -/
theorem poisson_demo (v : Sm) :
    Poisson.row0 unitSquare poissonU 0 v = Poisson.rhs0 unitSquare poissonU v :=
  poisson_consistent unitSquare poissonU v (bubble_cos _)

/-- demo/elasticity_2d.py and demo/elasticity_mixed_2d.py: their manufactured solutions satisfy the
equations for all parameters. -/
theorem elasticity_demo (mu lmbda : ℝ) (hl : lmbda ≠ 0) :
    (∀ v, Elasticity.row0 unitSquare mu lmbda elasticityU (0, 0) v =
      Elasticity.rhs0 unitSquare mu lmbda elasticityU v) ∧
      (∀ v, Elasticity.mixedRow0 unitSquare mu elasticityU (Elasticity.pressure lmbda elasticityU)
        (0, 0) v = Elasticity.rhs0 unitSquare mu lmbda elasticityU v) ∧
      ∀ q, Elasticity.mixedRow1 unitSquare lmbda elasticityU
        (Elasticity.pressure lmbda elasticityU) q = 0 := by
  have h : ∀ t ∈ [1, 2, 3, 4], VanishesV unitSquare.side t (grad elasticityU.1) ∧
      VanishesV unitSquare.side t (grad elasticityU.2) := fun t ht =>
    ⟨(bubble_cos _ t ht).const _, (bubble_cos _ t ht).const _⟩
  exact ⟨fun v => elasticity_consistent unitSquare mu lmbda elasticityU v h,
    elasticity_mixed_consistent unitSquare mu lmbda hl elasticityU h⟩

/-- demo/isect_mortar_2d.py: its manufactured solution satisfies both equations. -/
theorem isect_demo (eps : ℝ) (v : Sm) :
    Isect.row0 immersed eps isectU1 isectU1 v = Isect.rhs0 immersed eps isectU1 v ∧
      Isect.row1 immersed isectU2 isectU1 v = Isect.rhs1 immersed isectU1 isectU2 v :=
  isect_consistent immersed eps isectU1 isectU2 v (innerBubble_cos _)
    fun t ht => (innerBubble_cos _ t ht).const _

/-- demo/twoDoneDoneD.py:136 prescribes zero for the multiplier at both ends of the segment.  The
multiplier of the manufactured solution is zero only at the lower one. -/
theorem twoD_multiplier_ends (k : ℝ) (hk : k ≠ 0) :
    halved.atEnd 0 (TwoOneOne.lm k cross (- cross)) = 0 ∧
      halved.atEnd 1 (TwoOneOne.lm k cross (- cross)) ≠ 0 := by
  have h0 : halved.atEnd 0 (TwoOneOne.lm k cross (- cross)) = _ := lm_cross k 0
  have h1 : halved.atEnd 1 (TwoOneOne.lm k cross (- cross)) = _ := lm_cross k 1
  rw [h0, h1]
  simp [hk, Real.pi_ne_zero]

/-- demo/free_slip_stokes_iter.py:205 prescribes zero for the multiplier at both ends of the left
edge.  The multiplier of the manufactured solution is 1 and -1 there. -/
theorem free_slip_multiplier_ends :
    (Stokes.lmN (Stokes.velocity stream) pres).1 (0, 0) = 1 ∧
      (Stokes.lmN (Stokes.velocity stream) pres).1 (0, 1) = -1 := by
  rw [lmN_eq, dxy_stream]
  have e (y : ℝ) : (- (c 2 * (c 2 * c Real.pi * c Real.pi * sinS wave)) + pres).1 (0, y) =
      - (2 * (2 * Real.pi * Real.pi * (sinS wave).1 (0, y)))
        + Real.cos (Real.pi * (2 * 0 - 3 * y)) := rfl
  rw [e, e, wave_end 0 (.inl rfl), wave_end 1 (.inr rfl)]
  constructor
  · simp
  · have : Real.pi * (2 * 0 - 3 * 1) = - (Real.pi + 2 * Real.pi) := by ring
    rw [this, Real.cos_neg, Real.cos_add_two_pi, Real.cos_pi]
    simp

/-- demo/bertoluzza_stokes.py:183 prescribes zero for its multiplier at both ends of the left edge,
and this is the value of the multiplier of the manufactured solution. -/
theorem bertoluzza_multiplier_ends (y : ℝ) (hy : y = 0 ∨ y = 1) :
    (Stokes.lmT (Stokes.velocity stream) pres).1 (0, y) = 0 := by
  rw [lmT_eq, dxx_stream, dyy_stream]
  show - (Real.pi * Real.pi * (sinS wave).1 (0, y))
    - - (2 * 2 * (Real.pi * Real.pi * (sinS wave).1 (0, y))) = 0
  rw [wave_end y hy]
  simp

/-- demo/daq_3d1d.py:54: a solution of the second equation of the demo's header
satisfies the second row of the demo's block form only if the form `a11` is zero on it. -/
theorem daq_drops {V Q : Type} (F : Daq.Forms V Q) (L1 : Q → ℝ) (u : V) (p : Q)
    (h : ∀ q, F.a10 u q + F.a11 p q = L1 q) :
    (∀ q, Daq.row1 F u p q = L1 q) ↔ ∀ q, F.a11 p q = 0 := by
  simp only [Daq.row1, add_zero, ← h]
  exact forall_congr' fun q => ⟨fun e => by linarith, fun e => by linarith⟩

/-! ### The hypotheses can be met -/

theorem bubble_vanish : ∀ t ∈ [1, 2, 3, 4], Vanishes unitSquare.side t bubble := by
  apply sides_vanish <;> intro z <;> simp [bubble_apply]

theorem bubble_vanish_outer : ∀ t ∈ [5, 6, 7, 8], Vanishes immersed.side t bubble := by
  apply outer_vanish <;> intro z <;> simp [bubble_apply]

-- the bubble is not zero
example : bubble.1 (1/2, 1/2) = 1/16 := by rw [bubble_apply]; norm_num

example (s : PoissonBc.Setup) (u : Sm) :
    PoissonBc.row0 unitSquare s u (PoissonBc.lms u) bubble = PoissonBc.rhs0 unitSquare s u bubble :=
  poisson_bc_consistent unitSquare s u bubble fun t ht => bubble_vanish t (by
    cases s <;> simp [PoissonBc.dirTags] at ht ⊢ <;> omega)

-- without an error in time when the solution grows linearly, as `u0 + t w`
example (dt t : ℝ) (h : dt ≠ 0) (u0 w : Sm) :
    TimeDep.row0 unitSquare dt (u0 + c (t + dt) * w)
        (fun s => - dot (grad (u0 + c (t + dt) * w)) (cvec (normals s))) bubble =
      TimeDep.rhs0 unitSquare dt (u0 + c t * w) (TimeDep.force (u0 + c (t + dt) * w) w) bubble := by
  have r := heat_residual unitSquare dt (u0 + c (t + dt) * w) (u0 + c t * w) w bubble
    (bubble_vanish 4 (by simp))
  have e : c (1 / dt) * (u0 + c (t + dt) * w - (u0 + c t * w)) - w = 0 := by
    have e1 : (c (1 / dt) * c dt : Sm) = 1 := by
      simp only [c]; rw [← map_mul, one_div_mul_cancel h, map_one]
    have e2 : (c (t + dt) : Sm) = c t + c dt := map_add _ _ _
    rw [e2]
    linear_combination w * e1
  rw [e, zero_mul, map_zero] at r
  linarith

example (u : Sm) (f : Sm) :
    MixedPoisson.row0 unitSquare (MixedPoisson.flux u) u u (f, bubble) =
      MixedPoisson.rhs0 unitSquare u (f, bubble) :=
  (mixed_poisson_consistent unitSquare u (f, bubble) (by
    intro w
    have h := bubble_vanish 3 (by simp) (- w)
    have e : w * dot ((f, bubble) : Vec Sm) (nrm 3) = - w * bubble := by
      simp only [nrm, cvec, outward, dot, c, map_zero, map_neg, map_one]; ring
    rw [e]; exact h)).1

example (u : Vec Sm) (p f g : Sm) :
    Stokes.rowB unitSquare u p (Stokes.lmT u p) (bubble * f, bubble * g) =
        Stokes.rhsB unitSquare u p (bubble * f, bubble * g) ∧
      Stokes.rowF unitSquare u p (Stokes.lmN u p) (bubble * f, bubble * g) =
        Stokes.rhsF unitSquare u p (bubble * f, bubble * g) ∧
      Stokes.bulk unitSquare.vol 1 u p (bubble * f, bubble * g) =
        Stokes.rhsIso unitSquare u p (bubble * f, bubble * g) := by
  have h : ∀ t ∈ [1, 2, 3, 4], VanishesV unitSquare.side t ((bubble * f, bubble * g) : Vec Sm) :=
    fun t ht => ⟨(bubble_vanish t ht).mul' _, (bubble_vanish t ht).mul' _⟩
  have h' : ∀ t ∈ [3, 4], VanishesV unitSquare.side t ((bubble * f, bubble * g) : Vec Sm) :=
    fun t ht => h t (by simp at ht ⊢; omega)
  exact ⟨bertoluzza_consistent _ u p _ h', free_slip_consistent _ u p _ h',
    isoP2_consistent _ u p _ h⟩

example (k0 k1 : ℝ) (u0 u1 : Sm) :
    Emi.row0 immersed k0 u0 u1 bubble = Emi.rhs0 immersed k0 u0 u1 bubble ∧
      Emi.mortarRow0 immersed k0 u0 (Emi.lms k0 u0) bubble = Emi.mortarRhs0 immersed k0 u0 bubble :=
  ⟨(emi_consistent immersed k0 k1 u0 u1).1 _ bubble_vanish_outer,
    (emi_mortar_consistent immersed k0 k1 u0 u1).1 _ bubble_vanish_outer⟩

example (mu K alpha : ℝ) (hK : K ≠ 0) (u : Vec Sm) (p pD : Sm) :
    DarcyStokes.row0 immersed mu alpha u p pD (bubble, bubble) =
        DarcyStokes.rhs0 immersed mu alpha u p pD (bubble, bubble) ∧
      DarcyStokes.laytonRow0 immersed mu alpha u p (DarcyStokes.lms mu u p) (bubble, bubble) =
        DarcyStokes.laytonRhs0 immersed mu alpha u p (bubble, bubble) := by
  have h : ∀ t ∈ [5, 6], VanishesV immersed.side t ((bubble, bubble) : Vec Sm) := fun t ht =>
    have := bubble_vanish_outer t (by simp at ht ⊢; omega)
    ⟨this, this⟩
  exact ⟨(dq_consistent immersed mu K alpha u p pD).1 _ h,
    (layton_consistent immersed mu K alpha hK u p pD).1 _ h⟩

-- the bubble vanishes on the outer edges of the cut square and at the ends of the segment
example (k k1 : ℝ) (u0 u1 u : Sm) :
    TwoOneOne.row0 halved k u0 u1 (TwoOneOne.lm k u0 u1) bubble =
        TwoOneOne.rhs0 halved k u0 u1 bubble ∧
      TwoOneOne.row1 halved k1 u (TwoOneOne.lm k u0 u1) bubble =
        TwoOneOne.rhs1 halved k k1 u0 u1 u bubble := by
  obtain ⟨h, h', -⟩ := twoD_consistent halved k k1 u0 u1 u
  constructor
  · apply h
    simp only [List.mem_cons, List.not_mem_nil, or_false, forall_eq_or_imp, forall_eq]
    refine ⟨vert_vanishes ?_, vert_vanishes ?_, horz_vanishes ?_, horz_vanishes ?_,
      horz_vanishes ?_, horz_vanishes ?_⟩ <;> intro z <;> simp [bubble_apply]
  · apply h'
    intro i
    fin_cases i
    · show bubble.1 (1/2, 0) = 0
      simp [bubble_apply]
    · show bubble.1 (1/2, 1) = 0
      simp [bubble_apply]

-- forms as in daq_3d1d.py with a solution of the equation in the header on which `a11` is not zero
example : ∃ F : Daq.Forms Sm Sm,
    ¬ ∀ q, Daq.row1 F 0 1 q = vert (1/2) 0 1 (c 10.01 * q) := by
  refine ⟨⟨fun _ _ => 0, fun _ _ => 0, fun u q => vert (1/2) 0 1 (- (c 10 * (u * q))),
    fun p q => vert (1/2) 0 1 (c 2 * (dy p * dy q) + c 10.01 * (p * q))⟩, ?_⟩
  rw [daq_drops _ _ 0 1 (by
    intro q
    have : vert (1/2) 0 1 (- (c 10 * ((0 : Sm) * q))) = 0 := by
      rw [zero_mul, mul_zero, neg_zero, map_zero]
    have e : (c 2 * (dy (1 : Sm) * dy q) + c 10.01 * (1 * q) : Sm) = c 10.01 * q := by
      rw [Derivation.map_one_eq_zero]; ring
    show vert (1/2) 0 1 (- (c 10 * ((0 : Sm) * q))) + vert (1/2) 0 1 _ = _
    rw [this, e, zero_add])]
  intro h
  have h1 := h 1
  have e : (c 2 * (dy (1 : Sm) * dy 1) + c 10.01 * (1 * 1) : Sm) = c 10.01 := by
    rw [Derivation.map_one_eq_zero]; ring
  have e' : vert (1/2) 0 1 (c 2 * (dy (1 : Sm) * dy 1) + c 10.01 * (1 * 1)) = 0 := h1
  rw [e] at e'
  have e'' : vert (1/2) 0 1 (c 10.01) = ∫ _ in (0:ℝ)..1, (10.01 : ℝ) := rfl
  rw [e''] at e'
  norm_num at e'

end Verif.Mms
