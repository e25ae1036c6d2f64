import Verif.Lemmas.Nonsingular
import Verif.Model.Symmetric
import Verif.Props.Minimise

/-!
# Which block systems of the demos are nonsingular

`V`, `Q`, ... are the finite element spaces (the functions of which are zero where values are
prescribed), arbitrary subspaces of finite dimension here.
-/

namespace Verif.Nonsingular
open Verif.Mms Verif.Minimise Verif.Symmetric

variable {A : Type} [CommRing A] [Algebra ℝ A] [Smooth A]

/-- demo/mixed_poisson_babuska.py: nonsingular if and only if no pair of a potential and a multiplier
but zero is orthogonal to the divergences and normal components of the fluxes. -/
theorem mixedPoisson_iff (D : Square A) (V : Submodule ℝ (Vec A)) (U Q : Submodule ℝ A)
    [FiniteDimensional ℝ V] [FiniteDimensional ℝ U] [FiniteDimensional ℝ Q]
    (hV : ∀ s ∈ V, D.vol (dot s s) = 0 → s = 0) :
    Nonsingular (V.prod (U.prod Q)) (mixedPoisson D) ↔ ∀ u ∈ U, ∀ p ∈ Q,
      (∀ r ∈ V, D.vol (- (u * div r)) + over D.side [2, 4] (fun t => p * dot r (nrm t)) = 0) →
        u = 0 ∧ p = 0 := by
  have := finite_prod U Q
  let b : Vec A →ₗ[ℝ] (A × A) →ₗ[ℝ] ℝ :=
    (divForm.compr₂ D.vol).compl₂ (LinearMap.fst ℝ A A)
      + ((fluxForm (nrm 2)).compr₂ (D.side 2)).compl₂ (LinearMap.snd ℝ A A)
      + ((fluxForm (nrm 4)).compr₂ (D.side 4)).compl₂ (LinearMap.snd ℝ A A)
  have eb : ∀ r q, b r q = D.vol (- (q.1 * div r)) + over D.side [2, 4] (fun t => q.2 * dot r (nrm t)) := by
    intro r q
    have : b r q = D.vol (- (q.1 * div r)) + D.side 2 (q.2 * dot r (nrm 2))
      + D.side 4 (q.2 * dot r (nrm 4)) := rfl
    rw [this]
    simp only [over, List.map_cons, List.map_nil, List.sum_cons, List.sum_nil]
    ring
  rw [saddle_iff V (U.prod Q) (dotForm.compr₂ D.vol) b (fun v hv h _ => hV v hv h) _ fun x y => by
    have : dotForm.compr₂ D.vol x.1 y.1 = D.vol (dot x.1 y.1) := rfl
    rw [this, eb, eb, mixedPoisson, MixedPoisson.row0, MixedPoisson.row1]
    ring]
  simp only [eb]
  exact ⟨fun h u hu p hp hr => Prod.mk.inj (h (u, p) ⟨hu, hp⟩ hr),
    fun h q hq hr => Prod.ext (h q.1 hq.1 q.2 hq.2 hr).1 (h q.1 hq.1 q.2 hq.2 hr).2⟩

/-- demo/free_slip_stokes_iter.py and demo/free_slip_stokes_iter_cylinder.py: if only the zero velocity
has neither strains nor penalized jumps, the system is nonsingular if and only if no pair of a pressure
and a multiplier but zero is orthogonal to the divergences and normal components of the velocities. -/
theorem freeSlip_iff (D : Square A) (skel : A →ₗ[ℝ] ℝ) (w : A) (jump : Vec A →ₗ[ℝ] Vec A)
    (V : Submodule ℝ (Vec A)) (P Q : Submodule ℝ A) [FiniteDimensional ℝ V] [FiniteDimensional ℝ P]
    [FiniteDimensional ℝ Q]
    (hv : ∀ u : Vec A, 0 ≤ D.vol (c 2 * Mms.inner (sym (gradV u)) (sym (gradV u))))
    (hs : ∀ u : Vec A, 0 ≤ skel (w * dot (jump u) (jump u)))
    (hV : ∀ u ∈ V, D.vol (c 2 * Mms.inner (sym (gradV u)) (sym (gradV u))) = 0 →
      skel (w * dot (jump u) (jump u)) = 0 → u = 0) :
    Nonsingular (V.prod (P.prod Q)) (freeSlip D skel w jump) ↔ ∀ p ∈ P, ∀ l ∈ Q,
      (∀ v ∈ V, D.vol (- (p * div v)) + over D.side [1] (fun t => l * dot v (nrm t)) = 0) →
        p = 0 ∧ l = 0 := by
  have := finite_prod P Q
  let b : Vec A →ₗ[ℝ] (A × A) →ₗ[ℝ] ℝ :=
    (divForm.compr₂ D.vol).compl₂ (LinearMap.fst ℝ A A)
      + ((fluxForm (nrm 1)).compr₂ (D.side 1)).compl₂ (LinearMap.snd ℝ A A)
  let a : Vec A →ₗ[ℝ] Vec A →ₗ[ℝ] ℝ := (strainForm 1).compr₂ D.vol
    + (dotForm.compl₁₂ jump jump).compr₂ (skel.comp (LinearMap.mulLeft ℝ w))
  have eb : ∀ r q, b r q = D.vol (- (q.1 * div r)) + over D.side [1] (fun t => q.2 * dot r (nrm t)) := by
    intro r q
    have : b r q = D.vol (- (q.1 * div r)) + D.side 1 (q.2 * dot r (nrm 1)) := rfl
    rw [this]
    simp only [over, List.map_cons, List.map_nil, List.sum_cons, List.sum_nil, add_zero]
  have ea : ∀ u v, a u v = D.vol (c (2 * 1) * Mms.inner (sym (gradV u)) (sym (gradV v)))
      + skel (w * dot (jump u) (jump v)) := fun _ _ => rfl
  rw [saddle_iff V (P.prod Q) a b (fun v hv' h _ => by
    rw [ea, mul_one] at h
    have h1 := hv v
    have h2 := hs v
    exact hV v hv' (by linarith) (by linarith)) _ fun x y => by
    rw [ea, eb, eb, freeSlip, Stokes.rowF, Stokes.bulk, Stokes.rowDiv, mul_comm (div x.1) y.2.1]
    ring]
  simp only [eb]
  exact ⟨fun h u hu p hp hr => Prod.mk.inj (h (u, p) ⟨hu, hp⟩ hr),
    fun h q hq hr => Prod.ext (h q.1 hq.1 q.2 hq.2 hr).1 (h q.1 hq.1 q.2 hq.2 hr).2⟩

/-- demo/bertoluzza_stokes.py: as before, with tangential components. -/
theorem bertoluzza_iff (D : Square A) (V : Submodule ℝ (Vec A)) (P Q : Submodule ℝ A)
    [FiniteDimensional ℝ V] [FiniteDimensional ℝ P] [FiniteDimensional ℝ Q]
    (hV : ∀ u ∈ V, D.vol (c 2 * Mms.inner (sym (gradV u)) (sym (gradV u))) = 0 → u = 0) :
    Nonsingular (V.prod (P.prod Q)) (bertoluzza D) ↔ ∀ p ∈ P, ∀ l ∈ Q,
      (∀ v ∈ V, D.vol (- (p * div v)) + over D.side [1] (fun t => l * dot v (rotateB (nrm t))) = 0) →
        p = 0 ∧ l = 0 := by
  have := finite_prod P Q
  let b : Vec A →ₗ[ℝ] (A × A) →ₗ[ℝ] ℝ :=
    (divForm.compr₂ D.vol).compl₂ (LinearMap.fst ℝ A A)
      + ((fluxForm (rotateB (nrm 1))).compr₂ (D.side 1)).compl₂ (LinearMap.snd ℝ A A)
  have eb : ∀ r q, b r q = D.vol (- (q.1 * div r))
      + over D.side [1] (fun t => q.2 * dot r (rotateB (nrm t))) := by
    intro r q
    have : b r q = D.vol (- (q.1 * div r)) + D.side 1 (q.2 * dot r (rotateB (nrm 1))) := rfl
    rw [this]
    simp only [over, List.map_cons, List.map_nil, List.sum_cons, List.sum_nil, add_zero]
  have ea : ∀ u v, (strainForm 1).compr₂ D.vol u v =
      D.vol (c (2 * 1) * Mms.inner (sym (gradV u)) (sym (gradV v))) := fun _ _ => rfl
  rw [saddle_iff V (P.prod Q) ((strainForm 1).compr₂ D.vol) b (fun v hv' h _ => by
    rw [ea, mul_one] at h
    exact hV v hv' h) _ fun x y => by
    rw [ea, eb, eb, bertoluzza, Stokes.rowB, Stokes.bulk, Stokes.rowDiv, mul_comm (div x.1) y.2.1]
    ring]
  simp only [eb]
  exact ⟨fun h u hu p hp hr => Prod.mk.inj (h (u, p) ⟨hu, hp⟩ hr),
    fun h q hq hr => Prod.ext (h q.1 hq.1 q.2 hq.2 hr).1 (h q.1 hq.1 q.2 hq.2 hr).2⟩

/-- demo/isoP2_stokes.py: nonsingular if and only if no pressure of mean zero but zero is orthogonal to
the divergences, so the multiplier takes care of exactly the constant pressures. -/
theorem isoP2_iff (D : Square A) (V : Submodule ℝ (Vec A)) (Q : Submodule ℝ A) [FiniteDimensional ℝ V]
    [FiniteDimensional ℝ Q]
    (hV : ∀ u ∈ V, D.vol (c 2 * Mms.inner (sym (gradV u)) (sym (gradV u))) = 0 → u = 0)
    (h1 : (1 : A) ∈ Q) (hD : D.vol 1 ≠ 0) :
    Nonsingular (V.prod (Q.prod (⊤ : Submodule ℝ ℝ))) (isoP2 D) ↔ ∀ q ∈ Q,
      (∀ v ∈ V, D.vol (- (q * div v)) = 0) → D.vol q = 0 → q = 0 := by
  have := finite_prod Q (⊤ : Submodule ℝ ℝ)
  have := finite_prod V (Q.prod (⊤ : Submodule ℝ ℝ))
  let p1 := LinearMap.fst ℝ (Vec A) (A × ℝ)
  let p2 := (LinearMap.fst ℝ A ℝ).comp (LinearMap.snd ℝ (Vec A) (A × ℝ))
  let p3 := (Algebra.linearMap ℝ A).comp ((LinearMap.snd ℝ A ℝ).comp (LinearMap.snd ℝ (Vec A) (A × ℝ)))
  let B : (Vec A × A × ℝ) →ₗ[ℝ] (Vec A × A × ℝ) →ₗ[ℝ] ℝ :=
    ((strainForm 1).compr₂ D.vol).compl₁₂ p1 p1 + ((divForm.compr₂ D.vol).flip).compl₁₂ p2 p1
      + (divForm.compr₂ D.vol).compl₁₂ p1 p2 + (Solvable.prod D.vol).flip.compl₁₂ p3 p2
      + (Solvable.prod D.vol).compl₁₂ p2 p3
  have eB : ∀ x y, isoP2 D x y = B x y := by
    intro x y
    have : B x y = D.vol (c (2 * 1) * Mms.inner (sym (gradV x.1)) (sym (gradV y.1)))
      + D.vol (- (x.2.1 * div y.1)) + D.vol (- (y.2.1 * div x.1)) + D.vol (y.2.1 * c x.2.2)
      + D.vol (x.2.1 * c y.2.2) := rfl
    rw [this, isoP2, Stokes.bulk, Stokes.rowDiv, mul_comm (div x.1) y.2.1]
    ring
  have e : isoP2 D = fun x y => B x y := funext fun x => funext fun y => eB x y
  have ec : ∀ (q : A) (k : ℝ), D.vol (q * c k) = k * D.vol q := fun q k => by
    rw [mul_comm, vol_c]
  constructor
  · intro h q hq hv hm
    have := (h 0).unique (y₁ := 0) (y₂ := (0, q, 0)) ⟨Submodule.zero_mem _, fun y _ => by
      rw [eB, map_zero]⟩ ⟨⟨V.zero_mem, hq, trivial⟩, fun y hy => by
      show Stokes.bulk D.vol 1 0 q y.1 + (Stokes.rowDiv D.vol 0 y.2.1 + D.vol (y.2.1 * c 0))
        + D.vol (q * c y.2.2) = 0
      rw [ec, ec, hm, Stokes.bulk, hv y.1 hy.1, Stokes.rowDiv]
      simp [Mms.inner, sym, gradV, grad, dot, div]⟩
    exact (congrArg (fun x => x.2.1) this).symm
  · intro hb
    rw [e]
    refine of_kernel _ B fun x hx h => ?_
    obtain ⟨u, p, k⟩ := x
    obtain ⟨mu, mp, -⟩ := hx
    have r0 : ∀ v ∈ V, D.vol (c (2 * 1) * Mms.inner (sym (gradV u)) (sym (gradV v)))
        + D.vol (- (p * div v)) = 0 := fun v hv => by
      have := h (v, 0, 0) ⟨hv, Q.zero_mem, trivial⟩
      rw [← eB] at this
      simpa [isoP2, Stokes.bulk, Stokes.rowDiv] using this
    have r1 : ∀ q ∈ Q, D.vol (- (q * div u)) + k * D.vol q = 0 := fun q hq => by
      have := h (0, q, 0) ⟨V.zero_mem, hq, trivial⟩
      rw [← eB] at this
      simpa [isoP2, Stokes.bulk, Stokes.rowDiv, ec, Mms.inner, sym, gradV, grad, dot, div,
        mul_comm] using this
    have r2 : D.vol p = 0 := by
      have := h (0, 0, 1) ⟨V.zero_mem, Q.zero_mem, trivial⟩
      rw [← eB] at this
      simpa [isoP2, Stokes.bulk, Stokes.rowDiv, ec, Mms.inner, sym, gradV, grad, dot, div] using this
    have a0 := r0 u mu
    have a1 := r1 p mp
    rw [r2, mul_zero, add_zero] at a1
    rw [a1, add_zero, mul_one] at a0
    obtain rfl : u = 0 := hV u mu a0
    have a2 := r1 1 h1
    have dz : div (0 : Vec A) = 0 := by simp [div]
    rw [dz, mul_zero, neg_zero, map_zero, zero_add] at a2
    obtain rfl : k = 0 := (mul_eq_zero.1 a2).resolve_right hD
    obtain rfl : p = 0 := hb p mp (fun v hv => by
      have := r0 v hv
      simpa [Mms.inner, sym, gradV, grad, dot] using this) r2
    rfl

/-- demo/emi_primal.py with positive conductivities: nonsingular if and only if only zero potentials are
without gradients and without a jump on the interface. -/
theorem emi_iff (D : Immersed A) (k0 k1 : ℝ) (h0 : 0 < k0) (h1 : 0 < k1) (S : Submodule ℝ (A × A))
    [FiniteDimensional ℝ S] (hO : SqNonneg D.outer) (hI : SqNonneg D.inner)
    (hS : ∀ t ∈ [1, 2, 3, 4], SqNonneg (D.side t)) :
    Nonsingular S (emi D k0 k1) ↔ ∀ x ∈ S, D.outer (dot (grad x.1) (grad x.1)) = 0 →
      D.inner (dot (grad x.2) (grad x.2)) = 0 →
      (∀ t ∈ [1, 2, 3, 4], D.side t ((x.1 - x.2) * (x.1 - x.2)) = 0) → x = 0 := by
  let p1 := LinearMap.fst ℝ A A
  let p2 := LinearMap.snd ℝ A A
  let B : (A × A) →ₗ[ℝ] (A × A) →ₗ[ℝ] ℝ :=
    (Solvable.stiff D.outer k0 0).compl₁₂ p1 p1 + (Solvable.stiff D.inner k1 0).compl₁₂ p2 p2
      + (Solvable.prod (D.side 1 + D.side 2 + D.side 3 + D.side 4)).compl₁₂ (p1 - p2) (p1 - p2)
  have e' : ∀ x y, B x y = k0 * D.outer (dot (grad x.1) (grad y.1))
      + k1 * D.inner (dot (grad x.2) (grad y.2))
      + (D.side 1 ((x.1 - x.2) * (y.1 - y.2)) + D.side 2 ((x.1 - x.2) * (y.1 - y.2))
        + D.side 3 ((x.1 - x.2) * (y.1 - y.2)) + D.side 4 ((x.1 - x.2) * (y.1 - y.2))) := by
    intro x y
    have : B x y = Solvable.stiff D.outer k0 0 x.1 y.1 + Solvable.stiff D.inner k1 0 x.2 y.2
      + (D.side 1 ((x.1 - x.2) * (y.1 - y.2)) + D.side 2 ((x.1 - x.2) * (y.1 - y.2))
        + D.side 3 ((x.1 - x.2) * (y.1 - y.2)) + D.side 4 ((x.1 - x.2) * (y.1 - y.2))) := rfl
    rw [this, Solvable.stiff_apply, Solvable.stiff_apply]
    ring
  have eB : ∀ x y, emi D k0 k1 x y = B x y := by
    intro x y
    rw [e', emi, Emi.row0, Emi.row1, vol_c, vol_c]
    simp only [over, List.map_cons, List.map_nil, List.sum_cons, List.sum_nil, sub_mul, mul_sub,
      map_sub, map_neg]
    ring
  have sS : SqNonneg (D.side 1 + D.side 2 + D.side 3 + D.side 4) := fun f =>
    add_nonneg (add_nonneg (add_nonneg (hS 1 (by simp) f) (hS 2 (by simp) f)) (hS 3 (by simp) f))
      (hS 4 (by simp) f)
  have en : Verif.Apps.Energy B :=
    Energy.add (Energy.add (Energy.comp (stiff_energy hO h0.le le_rfl) _)
      (Energy.comp (stiff_energy hI h1.le le_rfl) _)) (Energy.comp (prod_energy sS) _)
  have e : emi D k0 k1 = fun x y => B x y := funext fun x => funext fun y => eB x y
  constructor
  · intro h x hx g0 g1 g2
    have z : B x x = 0 := by
      rw [e', g0, g1, g2 1 (by simp), g2 2 (by simp), g2 3 (by simp), g2 4 (by simp)]
      ring
    exact (h 0).unique ⟨hx, fun y _ => by rw [eB, Multipliers.energy_zero en z]; rfl⟩
      ⟨S.zero_mem, fun y _ => by rw [eB, map_zero]⟩
  · intro h
    rw [e]
    refine of_kernel _ B fun x hx hy => ?_
    have z := hy x hx
    rw [e'] at z
    have a1 := dot_nonneg hO (grad x.1)
    have a2 := dot_nonneg hI (grad x.2)
    have a1' := mul_nonneg h0.le a1
    have a2' := mul_nonneg h1.le a2
    have b1 := hS 1 (by simp) (x.1 - x.2)
    have b2 := hS 2 (by simp) (x.1 - x.2)
    have b3 := hS 3 (by simp) (x.1 - x.2)
    have b4 := hS 4 (by simp) (x.1 - x.2)
    refine h x hx ((mul_eq_zero.1 (show k0 * _ = 0 by linarith)).resolve_left h0.ne')
      ((mul_eq_zero.1 (show k1 * _ = 0 by linarith)).resolve_left h1.ne') fun t ht => ?_
    simp only [List.mem_cons, List.not_mem_nil, or_false] at ht
    rcases ht with rfl | rfl | rfl | rfl <;> linarith

/-- demo/twoDoneDoneD.py with positive conductivities: nonsingular if and only if only the zero pair of
a potential in the square and one on the segment is without gradients and has a jump orthogonal to all
multipliers, and only the zero multiplier is orthogonal to all jumps. -/
theorem twoD_iff (D : Halved A) (k k1 : ℝ) (hk : 0 < k) (hk1 : 0 < k1) (V U Q : Submodule ℝ A)
    [FiniteDimensional ℝ V] [FiniteDimensional ℝ U] [FiniteDimensional ℝ Q] (hl : SqNonneg D.left)
    (hr : SqNonneg D.right) (hs : SqNonneg (D.side 7)) :
    Nonsingular (V.prod (U.prod Q)) (twoD D k k1) ↔
      (∀ v ∈ V, ∀ u ∈ U, D.left (dot (grad v) (grad v)) = 0 → D.right (dot (grad v) (grad v)) = 0 →
        D.side 7 (dy u * dy u) = 0 → (∀ q ∈ Q, D.side 7 ((v - u) * q) = 0) → v = 0 ∧ u = 0) ∧
      ∀ q ∈ Q, (∀ v ∈ V, ∀ u ∈ U, D.side 7 ((v - u) * q) = 0) → q = 0 := by
  have := finite_prod V U
  let d := (dy : Derivation ℝ A A).toLinearMap
  let a : (A × A) →ₗ[ℝ] (A × A) →ₗ[ℝ] ℝ :=
    (Solvable.stiff D.left k 0 + Solvable.stiff D.right k 0).compl₁₂ (LinearMap.fst ℝ A A)
      (LinearMap.fst ℝ A A)
    + (k1 • (Solvable.prod (D.side 7)).compl₁₂ d d).compl₁₂ (LinearMap.snd ℝ A A) (LinearMap.snd ℝ A A)
  let b : (A × A) →ₗ[ℝ] A →ₗ[ℝ] ℝ :=
    (Solvable.prod (D.side 7)).compl₁₂ (LinearMap.fst ℝ A A - LinearMap.snd ℝ A A) LinearMap.id
  have ea : ∀ x y, a x y = k * D.left (dot (grad x.1) (grad y.1)) + k * D.right (dot (grad x.1) (grad y.1))
      + k1 * D.side 7 (dy x.2 * dy y.2) := by
    intro x y
    have : a x y = Solvable.stiff D.left k 0 x.1 y.1 + Solvable.stiff D.right k 0 x.1 y.1
      + k1 * D.side 7 (dy x.2 * dy y.2) := rfl
    rw [this, Solvable.stiff_apply, Solvable.stiff_apply]
    ring
  have eb : ∀ x q, b x q = D.side 7 ((x.1 - x.2) * q) := fun _ _ => rfl
  rw [reassoc, penalized_iff (V.prod U) Q a b 0
    (Energy.add (Energy.comp (Energy.add (stiff_energy hl hk.le le_rfl) (stiff_energy hr hk.le le_rfl)) _)
      (Energy.comp (Energy.smul hk1.le (Energy.comp (prod_energy hs) _)) _)) Energy.zero _ fun x y => by
    rw [ea, eb, eb, twoD, TwoOneOne.row0, TwoOneOne.row1, TwoOneOne.row2]
    simp only [over, List.map_cons, List.map_nil, List.sum_cons, List.sum_nil, vol_c, sub_mul,
      map_sub, map_neg, LinearMap.zero_apply, mul_comm x.2, mul_comm y.2]
    ring]
  simp only [ea, eb]
  constructor
  · rintro ⟨h1, h2⟩
    exact ⟨fun v hv u hu g1 g2 g3 hq => Prod.mk.inj (h1 (v, u) ⟨hv, hu⟩ (by rw [g1, g2, g3]; ring) hq),
      fun q hq h => h2 q hq rfl fun x hx => h _ hx.1 _ hx.2⟩
  · rintro ⟨h1, h2⟩
    refine ⟨fun x hx h hq => ?_, fun q hq _ h => h2 q hq fun v hv u hu => h (v, u) ⟨hv, hu⟩⟩
    have n1 := mul_nonneg hk.le (dot_nonneg hl (grad x.1))
    have n2 := mul_nonneg hk.le (dot_nonneg hr (grad x.1))
    have n3 := mul_nonneg hk1.le (hs (dy x.2))
    have := h1 x.1 hx.1 x.2 hx.2 ((mul_eq_zero.1 (show k * _ = 0 by linarith)).resolve_left hk.ne')
      ((mul_eq_zero.1 (show k * _ = 0 by linarith)).resolve_left hk.ne')
      ((mul_eq_zero.1 (show k1 * _ = 0 by linarith)).resolve_left hk1.ne') hq
    exact Prod.ext this.1 this.2

/-- demo/emi_primal_mortar.py with positive conductivities: nonsingular if and only if only the zero pair
of potentials is without gradients and has a jump orthogonal to all multipliers.  There is no condition on
the multipliers. -/
theorem emiMortar_iff (D : Immersed A) (k0 k1 : ℝ) (h0 : 0 < k0) (h1 : 0 < k1) (V U : Submodule ℝ A)
    (Q : Submodule ℝ (ℕ → A)) [FiniteDimensional ℝ V] [FiniteDimensional ℝ U] [FiniteDimensional ℝ Q]
    (hO : SqNonneg D.outer) (hI : SqNonneg D.inner) (hS : ∀ t ∈ [1, 2, 3, 4], SqNonneg (D.side t))
    (hQ : ∀ q ∈ Q, over D.side [1, 2, 3, 4] (fun t => q t * q t) = 0 → q = 0) :
    Nonsingular (V.prod (U.prod Q)) (emiMortar D k0 k1) ↔
      ∀ v ∈ V, ∀ u ∈ U, D.outer (dot (grad v) (grad v)) = 0 → D.inner (dot (grad u) (grad u)) = 0 →
        (∀ q ∈ Q, over D.side [1, 2, 3, 4] (fun t => (v - u) * q t) = 0) → v = 0 ∧ u = 0 := by
  have := finite_prod V U
  let a : (A × A) →ₗ[ℝ] (A × A) →ₗ[ℝ] ℝ :=
    (Solvable.stiff D.outer k0 0).compl₁₂ (LinearMap.fst ℝ A A) (LinearMap.fst ℝ A A)
    + (Solvable.stiff D.inner k1 0).compl₁₂ (LinearMap.snd ℝ A A) (LinearMap.snd ℝ A A)
  let p (t : ℕ) : (ℕ → A) →ₗ[ℝ] A := LinearMap.proj t
  let b' (t : ℕ) : (A × A) →ₗ[ℝ] (ℕ → A) →ₗ[ℝ] ℝ :=
    (Solvable.prod (D.side t)).compl₁₂ (LinearMap.fst ℝ A A - LinearMap.snd ℝ A A) (p t)
  let c' (t : ℕ) : (ℕ → A) →ₗ[ℝ] (ℕ → A) →ₗ[ℝ] ℝ := (Solvable.prod (D.side t)).compl₁₂ (p t) (p t)
  have ea : ∀ x y, a x y = k0 * D.outer (dot (grad x.1) (grad y.1))
      + k1 * D.inner (dot (grad x.2) (grad y.2)) := by
    intro x y
    have : a x y = Solvable.stiff D.outer k0 0 x.1 y.1 + Solvable.stiff D.inner k1 0 x.2 y.2 := rfl
    rw [this, Solvable.stiff_apply, Solvable.stiff_apply]
    ring
  have eb : ∀ x q, (b' 1 + b' 2 + b' 3 + b' 4) x q =
      over D.side [1, 2, 3, 4] (fun t => (x.1 - x.2) * q t) := by
    intro x q
    have : (b' 1 + b' 2 + b' 3 + b' 4) x q = D.side 1 ((x.1 - x.2) * q 1) + D.side 2 ((x.1 - x.2) * q 2)
      + D.side 3 ((x.1 - x.2) * q 3) + D.side 4 ((x.1 - x.2) * q 4) := rfl
    rw [this]
    simp only [over, List.map_cons, List.map_nil, List.sum_cons, List.sum_nil]
    ring
  have ec : ∀ x q, (c' 1 + c' 2 + c' 3 + c' 4) x q =
      over D.side [1, 2, 3, 4] (fun t => x t * q t) := by
    intro x q
    have : (c' 1 + c' 2 + c' 3 + c' 4) x q = D.side 1 (x 1 * q 1) + D.side 2 (x 2 * q 2)
      + D.side 3 (x 3 * q 3) + D.side 4 (x 4 * q 4) := rfl
    rw [this]
    simp only [over, List.map_cons, List.map_nil, List.sum_cons, List.sum_nil]
    ring
  have en : ∀ t ∈ [1, 2, 3, 4], Apps.Energy (c' t) := fun t ht => Energy.comp (prod_energy (hS t ht)) _
  rw [reassoc, penalized_iff (V.prod U) Q a (b' 1 + b' 2 + b' 3 + b' 4) (c' 1 + c' 2 + c' 3 + c' 4)
    (Energy.add (Energy.comp (stiff_energy hO h0.le le_rfl) _) (Energy.comp (stiff_energy hI h1.le le_rfl) _))
    (Energy.add (Energy.add (Energy.add (en 1 (by simp)) (en 2 (by simp))) (en 3 (by simp)))
      (en 4 (by simp))) _ fun x y => by
    rw [ea, eb, eb, ec, emiMortar, Emi.mortarRow0, Emi.mortarRow1, Emi.mortarRow2]
    simp only [over, List.map_cons, List.map_nil, List.sum_cons, List.sum_nil, vol_c, sub_mul,
      map_sub, map_neg, mul_comm (x.2 _) y.1.1, mul_comm (x.2 _) y.1.2, mul_comm (y.2 _) x.1.1,
      mul_comm (y.2 _) x.1.2]
    ring]
  simp only [ea, eb, ec]
  constructor
  · rintro ⟨hv, -⟩ v mv u mu g1 g2 hq
    exact Prod.mk.inj (hv (v, u) ⟨mv, mu⟩ (by rw [g1, g2]; ring) hq)
  · intro h
    refine ⟨fun x hx hz hq => ?_, fun q hq hz _ => hQ q hq hz⟩
    have n1 := mul_nonneg h0.le (dot_nonneg hO (grad x.1))
    have n2 := mul_nonneg h1.le (dot_nonneg hI (grad x.2))
    have := h x.1 hx.1 x.2 hx.2 ((mul_eq_zero.1 (show k0 * _ = 0 by linarith)).resolve_left h0.ne')
      ((mul_eq_zero.1 (show k1 * _ = 0 by linarith)).resolve_left h1.ne') hq
    exact Prod.ext this.1 this.2

/-- demo/elasticity_mixed_2d.py with positive parameters: nonsingular if and only if only the zero
displacement is without strains, has a divergence orthogonal to all pressures and is orthogonal on the
boundary to all multipliers, and only the zero multiplier is orthogonal to all displacements.  There is no
condition on the pressures. -/
theorem elasticityMixed_iff (D : Square A) (mu lmbda : ℝ) (hm : 0 < mu) (hl : 0 < lmbda)
    (V : Submodule ℝ (Vec A)) (P : Submodule ℝ A) (Y : Submodule ℝ (Vec A)) [FiniteDimensional ℝ V]
    [FiniteDimensional ℝ P] [FiniteDimensional ℝ Y] (hD : SqNonneg D.vol)
    (hP : ∀ p ∈ P, D.vol (p * p) = 0 → p = 0) :
    Nonsingular (V.prod (P.prod Y)) (elasticityMixed D mu lmbda) ↔
      (∀ u ∈ V, D.vol (Mms.inner (sym (gradV u)) (sym (gradV u))) = 0 →
        (∀ p ∈ P, D.vol (div u * p) = 0) →
        (∀ y ∈ Y, over D.side [1, 2, 3, 4] (fun _ => dot u y) = 0) → u = 0) ∧
      ∀ y ∈ Y, (∀ v ∈ V, over D.side [1, 2, 3, 4] (fun _ => dot v y) = 0) → y = 0 := by
  have := finite_prod P Y
  let f1 := LinearMap.fst ℝ A (Vec A)
  let a : Vec A →ₗ[ℝ] Vec A →ₗ[ℝ] ℝ := (strainForm mu).compr₂ D.vol
  let b : Vec A →ₗ[ℝ] (A × Vec A) →ₗ[ℝ] ℝ := - (divForm.compr₂ D.vol).compl₂ f1
    + (dotForm.compr₂ (D.side 1 + D.side 2 + D.side 3 + D.side 4)).compl₂ (LinearMap.snd ℝ A (Vec A))
  have ea : ∀ x y, a x y = (2 * mu) * D.vol (Mms.inner (sym (gradV x)) (sym (gradV y))) := fun x y => by
    rw [← vol_c]; rfl
  have eb : ∀ v q, b v q = D.vol (div v * q.1) + over D.side [1, 2, 3, 4] (fun _ => dot v q.2) := by
    intro v q
    have : b v q = - D.vol (- (q.1 * div v)) + (D.side 1 (dot v q.2) + D.side 2 (dot v q.2)
      + D.side 3 (dot v q.2) + D.side 4 (dot v q.2)) := rfl
    rw [this, map_neg, mul_comm q.1]
    simp only [over, List.map_cons, List.map_nil, List.sum_cons, List.sum_nil]
    ring
  have ec : ∀ q r, ((1 / lmbda) • Solvable.prod D.vol).compl₁₂ f1 f1 q r = 1 / lmbda * D.vol (q.1 * r.1) :=
    fun _ _ => rfl
  have hl' : 0 < 1 / lmbda := one_div_pos.2 hl
  have sn : ∀ s : Ten A, 0 ≤ D.vol (Mms.inner s s) := fun s => by
    rw [Mms.inner, map_add]
    exact add_nonneg (dot_nonneg hD _) (dot_nonneg hD _)
  rw [penalized_iff V (P.prod Y) a b (((1 / lmbda) • Solvable.prod D.vol).compl₁₂ f1 f1)
    ⟨fun x y => by
      rw [ea, ea]
      simp only [Mms.inner, dot, mul_comm], fun x => by
      rw [ea]
      exact mul_nonneg (by linarith) (sn _)⟩
    (Energy.comp (Energy.smul hl'.le (prod_energy hD)) _) _ fun x y => by
    rw [ea, eb, eb, ec, elasticityMixed, Elasticity.mixedRow0, Elasticity.mixedRow1, vol_c, map_neg, vol_c]
    ring]
  simp only [ea, eb, ec]
  constructor
  · rintro ⟨h1, h2⟩
    refine ⟨fun u hu hz hp hy => h1 u hu (by rw [hz, mul_zero]) fun q hq => by
      rw [hp _ hq.1, hy _ hq.2, add_zero], fun y hy h => ?_⟩
    exact congrArg Prod.snd (h2 (0, y) ⟨P.zero_mem, hy⟩ (by simp) fun v hv => by
      rw [h v hv]; simp)
  · rintro ⟨h1, h2⟩
    refine ⟨fun u hu hz hq => h1 u hu ((mul_eq_zero.1 hz).resolve_left (by linarith)) (fun p hp => ?_)
      fun y hy => ?_, fun q hq hz hv => ?_⟩
    · have := hq (p, 0) ⟨hp, Y.zero_mem⟩
      simpa [over, dot] using this
    · have := hq (0, y) ⟨P.zero_mem, hy⟩
      simpa using this
    · obtain ⟨q, y⟩ := q
      obtain rfl : q = 0 := hP q hq.1 ((mul_eq_zero.1 hz).resolve_left hl'.ne')
      obtain rfl : y = 0 := h2 y hq.2 fun v hv' => by simpa using hv v hv'
      rfl

/-- demo/isect_mortar_2d.py: nonsingular if and only if only the zero multiplier is orthogonal to the
jumps. -/
theorem isect_iff (D : Immersed A) (eps : ℝ) (he : 0 ≤ eps) (V U Q : Submodule ℝ A)
    [FiniteDimensional ℝ V] [FiniteDimensional ℝ U] [FiniteDimensional ℝ Q]
    (hO : SqNonneg D.outer) (hI : SqNonneg D.inner) (hS : ∀ t ∈ [1, 2, 3, 4], SqNonneg (D.side t))
    (hV : ∀ v ∈ V, D.inner (v * v) = 0 → v = 0)
    (hU : ∀ u ∈ U, D.outer (dot (grad u) (grad u)) = 0 →
      over D.side [1, 2, 3, 4] (fun _ => u * u) = 0 → u = 0) :
    Nonsingular (V.prod (U.prod Q)) (isect D eps) ↔ ∀ q ∈ Q,
      (∀ v ∈ V, ∀ u ∈ U, over D.side [1, 2, 3, 4] (fun _ => (u - v) * q) = 0) → q = 0 := by
  have := finite_prod V U
  let S := D.side 1 + D.side 2 + D.side 3 + D.side 4
  have eS : ∀ f, over D.side [1, 2, 3, 4] (fun _ => f) = S f := fun f => by
    have : S f = D.side 1 f + D.side 2 f + D.side 3 f + D.side 4 f := rfl
    rw [this]
    simp only [over, List.map_cons, List.map_nil, List.sum_cons, List.sum_nil]
    ring
  have sS : SqNonneg S := fun f =>
    add_nonneg (add_nonneg (add_nonneg (hS 1 (by simp) f) (hS 2 (by simp) f)) (hS 3 (by simp) f))
      (hS 4 (by simp) f)
  let f1 := LinearMap.fst ℝ A A
  let f2 := LinearMap.snd ℝ A A
  let a : (A × A) →ₗ[ℝ] (A × A) →ₗ[ℝ] ℝ :=
    (Solvable.stiff D.inner eps 1 + Solvable.prod S).compl₁₂ f1 f1
    + (Solvable.stiff D.outer 1 0 + Solvable.prod S).compl₁₂ f2 f2
  let b : (A × A) →ₗ[ℝ] A →ₗ[ℝ] ℝ := (Solvable.prod S).compl₁₂ (f2 - f1) LinearMap.id
  have ea : ∀ x y, a x y = eps * D.inner (dot (grad x.1) (grad y.1)) + D.inner (x.1 * y.1)
      + S (x.1 * y.1) + (D.outer (dot (grad x.2) (grad y.2)) + S (x.2 * y.2)) := by
    intro x y
    have : a x y = Solvable.stiff D.inner eps 1 x.1 y.1 + S (x.1 * y.1)
      + (Solvable.stiff D.outer 1 0 x.2 y.2 + S (x.2 * y.2)) := rfl
    rw [this, Solvable.stiff_apply, Solvable.stiff_apply]
    ring
  have eb : ∀ x q, b x q = S ((x.2 - x.1) * q) := fun _ _ => rfl
  rw [reassoc, penalized_iff (V.prod U) Q a b 0
    (Energy.add (Energy.comp (Energy.add (stiff_energy hI he zero_le_one) (prod_energy sS)) _)
      (Energy.comp (Energy.add (stiff_energy hO zero_le_one le_rfl) (prod_energy sS)) _)) Energy.zero _
    fun x y => by
    rw [ea, eb, eb, isect, Isect.row0, Isect.row1]
    simp only [eS, map_add, vol_c, sub_mul, map_sub, map_neg, LinearMap.zero_apply, mul_comm x.2,
      mul_comm y.2]
    ring]
  simp only [ea, eb, eS]
  constructor
  · rintro ⟨-, h2⟩ q hq h
    exact h2 q hq rfl fun x hx => h _ hx.1 _ hx.2
  · intro h2
    refine ⟨fun x hx h _ => ?_, fun q hq _ h => h2 q hq fun v hv u hu => h (v, u) ⟨hv, hu⟩⟩
    have n1 := mul_nonneg he (dot_nonneg hI (grad x.1))
    have n2 := hI x.1
    have n3 := sS x.1
    have n4 := dot_nonneg hO (grad x.2)
    have n5 := sS x.2
    exact Prod.ext (hV _ hx.1 (by linarith)) (hU _ hx.2 (by linarith) (by rw [eS]; linarith))

/-- demo/poisson_babuska_bc.py: in each of its three setups (the essential boundary conditions restrict
`V`) nonsingular if and only if only the zero function is without gradient and orthogonal to all
multipliers and only the zero multiplier is orthogonal to all functions. -/
theorem poissonBc_iff (D : Square A) (s : PoissonBc.Setup) (V : Submodule ℝ A) (Q : Submodule ℝ (ℕ → A))
    [FiniteDimensional ℝ V] [FiniteDimensional ℝ Q] (hD : SqNonneg D.vol) :
    Nonsingular (V.prod Q) (poissonBc D s) ↔
      (∀ v ∈ V, D.vol (dot (grad v) (grad v)) = 0 →
        (∀ q ∈ Q, D.side 2 (v * q 2) + D.side 4 (v * q 4) = 0) → v = 0) ∧
      ∀ q ∈ Q, (∀ v ∈ V, D.side 2 (v * q 2) + D.side 4 (v * q 4) = 0) → q = 0 := by
  let p (t : ℕ) : (ℕ → A) →ₗ[ℝ] A := LinearMap.proj t
  let b : A →ₗ[ℝ] (ℕ → A) →ₗ[ℝ] ℝ :=
    (Solvable.prod (D.side 2)).compl₂ (p 2) + (Solvable.prod (D.side 4)).compl₂ (p 4)
  have eb : ∀ v q, b v q = D.side 2 (v * q 2) + D.side 4 (v * q 4) := fun _ _ => rfl
  have ea : ∀ u v, Solvable.stiff D.vol 1 0 u v = D.vol (dot (grad u) (grad v)) := fun u v => by
    rw [Solvable.stiff_apply]; ring
  rw [penalized_iff V Q (Solvable.stiff D.vol 1 0) b 0 (stiff_energy hD zero_le_one le_rfl) Energy.zero _
    fun x y => by
    rw [ea, eb, eb, poissonBc, PoissonBc.row0]
    simp only [over, PoissonBc.lmTags, List.map_cons, List.map_nil, List.sum_cons, List.sum_nil,
      LinearMap.zero_apply]
    ring]
  simp only [ea, eb]
  exact ⟨fun h => ⟨h.1, fun q hq => h.2 q hq rfl⟩, fun h => ⟨h.1, fun q hq _ => h.2 q hq⟩⟩

/-- demo/layton_darcy_stokes.py: nonsingular if and only if no triple of a Stokes pressure, a Darcy
pressure and a multiplier but zero is orthogonal to the divergences and the fluxes through the interface
of both velocities. -/
theorem layton_iff (D : Immersed A) (mu K alpha : ℝ) (hmu : 0 < mu) (hK : 0 < K) (ha : 0 ≤ alpha)
    (skel : A →ₗ[ℝ] ℝ) (w : A) (jump : Vec A →ₗ[ℝ] A) (VS VD : Submodule ℝ (Vec A))
    (QS QD : Submodule ℝ A) (M : Submodule ℝ (ℕ → A)) [FiniteDimensional ℝ VS] [FiniteDimensional ℝ VD]
    [FiniteDimensional ℝ QS] [FiniteDimensional ℝ QD] [FiniteDimensional ℝ M]
    (hO : SqNonneg D.outer) (hI : SqNonneg D.inner) (hS : ∀ t ∈ [1, 2, 3, 4], SqNonneg (D.side t))
    (hs : ∀ f : A, 0 ≤ skel (w * (f * f)))
    (hV : ∀ u ∈ VS, D.outer (Mms.inner (sym (gradV u)) (sym (gradV u))) = 0 →
      skel (w * (jump u * jump u)) = 0 → u = 0)
    (hVD : ∀ u ∈ VD, D.inner (dot u u) = 0 → u = 0) :
    Nonsingular (VS.prod (VD.prod (QS.prod (QD.prod M)))) (layton D mu K alpha skel w jump) ↔
      ∀ p ∈ QS, ∀ q ∈ QD, ∀ m ∈ M,
        (∀ v ∈ VS, D.outer (- (p * div v)) + over D.side [1, 2, 3, 4] (fun t => m t * dot v (DarcyStokes.nS t)) = 0) →
        (∀ v ∈ VD, D.inner (- (q * div v)) + over D.side [1, 2, 3, 4] (fun t => m t * dot v (nrm t)) = 0) →
        p = 0 ∧ q = 0 ∧ m = 0 := by
  have := finite_prod VS VD
  have := finite_prod QD M
  have := finite_prod QS (QD.prod M)
  let g (t : ℕ) : (A × A × (ℕ → A)) →ₗ[ℝ] A :=
    (LinearMap.proj t).comp ((LinearMap.snd ℝ A (ℕ → A)).comp (LinearMap.snd ℝ A (A × (ℕ → A))))
  let g1 := LinearMap.fst ℝ A (A × (ℕ → A))
  let g2 := (LinearMap.fst ℝ A (ℕ → A)).comp (LinearMap.snd ℝ A (A × (ℕ → A)))
  let f1 := LinearMap.fst ℝ (Vec A) (Vec A)
  let f2 := LinearMap.snd ℝ (Vec A) (Vec A)
  let r (t : ℕ) : Vec A →ₗ[ℝ] A := dotForm.flip (rotate (DarcyStokes.nS t))
  let k (t : ℕ) : Vec A →ₗ[ℝ] Vec A →ₗ[ℝ] ℝ := (Solvable.prod (D.side t)).compl₁₂ (r t) (r t)
  let bS (t : ℕ) : (Vec A × Vec A) →ₗ[ℝ] (A × A × (ℕ → A)) →ₗ[ℝ] ℝ :=
    ((fluxForm (DarcyStokes.nS t)).compr₂ (D.side t)).compl₁₂ f1 (g t)
      + ((fluxForm (nrm t)).compr₂ (D.side t)).compl₁₂ f2 (g t)
  let b : (Vec A × Vec A) →ₗ[ℝ] (A × A × (ℕ → A)) →ₗ[ℝ] ℝ :=
    (divForm.compr₂ D.outer).compl₁₂ f1 g1 + (divForm.compr₂ D.inner).compl₁₂ f2 g2
      + (bS 1 + bS 2 + bS 3 + bS 4)
  let a : (Vec A × Vec A) →ₗ[ℝ] (Vec A × Vec A) →ₗ[ℝ] ℝ :=
    ((strainForm mu).compr₂ D.outer + alpha • (k 1 + k 2 + k 3 + k 4)
      + (Solvable.prod (skel.comp (LinearMap.mulLeft ℝ w))).compl₁₂ jump jump).compl₁₂ f1 f1
    + ((1 / K) • dotForm.compr₂ D.inner).compl₁₂ f2 f2
  have eb : ∀ v q, b v q = (D.outer (- (q.1 * div v.1))
        + over D.side [1, 2, 3, 4] (fun t => q.2.2 t * dot v.1 (DarcyStokes.nS t)))
      + (D.inner (- (q.2.1 * div v.2)) + over D.side [1, 2, 3, 4] (fun t => q.2.2 t * dot v.2 (nrm t))) := by
    intro v q
    have : b v q = D.outer (- (q.1 * div v.1)) + D.inner (- (q.2.1 * div v.2))
      + ((D.side 1 (q.2.2 1 * dot v.1 (DarcyStokes.nS 1)) + D.side 1 (q.2.2 1 * dot v.2 (nrm 1)))
        + (D.side 2 (q.2.2 2 * dot v.1 (DarcyStokes.nS 2)) + D.side 2 (q.2.2 2 * dot v.2 (nrm 2)))
        + (D.side 3 (q.2.2 3 * dot v.1 (DarcyStokes.nS 3)) + D.side 3 (q.2.2 3 * dot v.2 (nrm 3)))
        + (D.side 4 (q.2.2 4 * dot v.1 (DarcyStokes.nS 4)) + D.side 4 (q.2.2 4 * dot v.2 (nrm 4)))) := rfl
    rw [this]
    simp only [over, List.map_cons, List.map_nil, List.sum_cons, List.sum_nil]
    ring
  have ea : ∀ x y, a x y = (2 * mu) * D.outer (Mms.inner (sym (gradV x.1)) (sym (gradV y.1)))
      + (over D.side [1, 2, 3, 4] fun t =>
        c alpha * (dot x.1 (rotate (DarcyStokes.nS t)) * dot y.1 (rotate (DarcyStokes.nS t))))
      + skel (w * (jump x.1 * jump y.1)) + 1 / K * D.inner (dot x.2 y.2) := by
    intro x y
    have : a x y = D.outer (c (2 * mu) * Mms.inner (sym (gradV x.1)) (sym (gradV y.1)))
      + alpha * (D.side 1 (dot x.1 (rotate (DarcyStokes.nS 1)) * dot y.1 (rotate (DarcyStokes.nS 1)))
        + D.side 2 (dot x.1 (rotate (DarcyStokes.nS 2)) * dot y.1 (rotate (DarcyStokes.nS 2)))
        + D.side 3 (dot x.1 (rotate (DarcyStokes.nS 3)) * dot y.1 (rotate (DarcyStokes.nS 3)))
        + D.side 4 (dot x.1 (rotate (DarcyStokes.nS 4)) * dot y.1 (rotate (DarcyStokes.nS 4))))
      + skel (w * (jump x.1 * jump y.1)) + 1 / K * D.inner (dot x.2 y.2) := rfl
    rw [this, vol_c]
    simp only [over, List.map_cons, List.map_nil, List.sum_cons, List.sum_nil, vol_c]
    ring
  have hK' : 0 < 1 / K := one_div_pos.2 hK
  rw [reassoc, saddle_iff (VS.prod VD) (QS.prod (QD.prod M)) a b (fun x hx h _ => by
    rw [ea] at h
    have n1 : 0 ≤ D.outer (Mms.inner (sym (gradV x.1)) (sym (gradV x.1))) := by
      rw [Mms.inner, map_add]
      exact add_nonneg (dot_nonneg hO _) (dot_nonneg hO _)
    have n1' := mul_nonneg (show 0 ≤ 2 * mu by linarith) n1
    have n2 : 0 ≤ over D.side [1, 2, 3, 4] fun t =>
        c alpha * (dot x.1 (rotate (DarcyStokes.nS t)) * dot x.1 (rotate (DarcyStokes.nS t))) := by
      refine List.sum_nonneg fun z hz => ?_
      obtain ⟨t, ht, rfl⟩ := List.mem_map.1 hz
      rw [vol_c]
      exact mul_nonneg ha (hS t ht _)
    have n3 := hs (jump x.1)
    have n4 := mul_nonneg hK'.le (dot_nonneg hI x.2)
    exact Prod.ext
      (hV _ hx.1 ((mul_eq_zero.1 (show 2 * mu * _ = 0 by linarith)).resolve_left (by linarith))
        (by linarith))
      (hVD _ hx.2 ((mul_eq_zero.1 (show 1 / K * _ = 0 by linarith)).resolve_left hK'.ne'))) _
    fun x y => by
    rw [ea, eb, eb, layton, DarcyStokes.laytonRow0, DarcyStokes.stokesPart, Stokes.bulk,
      DarcyStokes.laytonRow1, Stokes.rowDiv, DarcyStokes.laytonRow3, DarcyStokes.laytonRow4, vol_c, vol_c,
      mul_comm (div x.1.1) y.2.1]
    ring]
  simp only [eb]
  constructor
  · intro h p hp q hq m hm h1 h2
    have := h (p, q, m) ⟨hp, hq, hm⟩ fun v hv => by rw [h1 _ hv.1, h2 _ hv.2, add_zero]
    simpa using this
  · intro h x hx hv
    have z : ∀ n : ℕ → Vec A, over D.side [1, 2, 3, 4] (fun t => x.2.2 t * dot 0 (n t)) = 0 := fun n => by
      simp [over, dot]
    have d : div (0 : Vec A) = 0 := by simp [div]
    have := h x.1 hx.1 x.2.1 hx.2.1 x.2.2 hx.2.2
      (fun v hv' => by
        have := hv (v, 0) ⟨hv', VD.zero_mem⟩
        simpa [z, d] using this)
      fun v hv' => by
        have := hv (0, v) ⟨VS.zero_mem, hv'⟩
        simpa [z, d] using this
    exact Prod.ext this.1 (Prod.ext this.2.1 this.2.2)

/-- demo/dq_darcy_stokes.py: nonsingular if and only if no pair of a Stokes pressure and a Darcy pressure
without gradient but zero is orthogonal to the divergences and the fluxes through the interface of the
velocities. -/
theorem dq_iff (D : Immersed A) (mu K alpha : ℝ) (hmu : 0 < mu) (hK : 0 < K) (ha : 0 ≤ alpha)
    (V : Submodule ℝ (Vec A)) (QS QD : Submodule ℝ A) [FiniteDimensional ℝ V]
    [FiniteDimensional ℝ QS] [FiniteDimensional ℝ QD]
    (hO : SqNonneg D.outer) (hI : SqNonneg D.inner) (hS : ∀ t ∈ [1, 2, 3, 4], SqNonneg (D.side t))
    (hV : ∀ u ∈ V, D.outer (Mms.inner (sym (gradV u)) (sym (gradV u))) = 0 → u = 0) :
    Nonsingular (V.prod (QS.prod QD)) (dq D mu K alpha) ↔
      ∀ p ∈ QS, ∀ q ∈ QD, D.inner (dot (grad q) (grad q)) = 0 →
        (∀ v ∈ V, D.outer (- (p * div v))
          + over D.side [1, 2, 3, 4] (fun t => q * dot v (DarcyStokes.nS t)) = 0) → p = 0 ∧ q = 0 := by
  have := finite_prod QS QD
  let g1 := LinearMap.fst ℝ A A
  let g2 := LinearMap.snd ℝ A A
  let r (t : ℕ) : Vec A →ₗ[ℝ] A := dotForm.flip (rotate (DarcyStokes.nS t))
  let k (t : ℕ) : Vec A →ₗ[ℝ] Vec A →ₗ[ℝ] ℝ := (Solvable.prod (D.side t)).compl₁₂ (r t) (r t)
  let bS (t : ℕ) : Vec A →ₗ[ℝ] (A × A) →ₗ[ℝ] ℝ :=
    ((fluxForm (DarcyStokes.nS t)).compr₂ (D.side t)).compl₂ g2
  let b : Vec A →ₗ[ℝ] (A × A) →ₗ[ℝ] ℝ :=
    (divForm.compr₂ D.outer).compl₂ g1 + (bS 1 + bS 2 + bS 3 + bS 4)
  let a : Vec A →ₗ[ℝ] Vec A →ₗ[ℝ] ℝ :=
    (strainForm mu).compr₂ D.outer + alpha • (k 1 + k 2 + k 3 + k 4)
  let e : (A × A) →ₗ[ℝ] (A × A) →ₗ[ℝ] ℝ := (Solvable.stiff D.inner K 0).compl₁₂ g2 g2
  have eb : ∀ v q, b v q = D.outer (- (q.1 * div v))
        + over D.side [1, 2, 3, 4] (fun t => q.2 * dot v (DarcyStokes.nS t)) := by
    intro v q
    have : b v q = D.outer (- (q.1 * div v))
      + (D.side 1 (q.2 * dot v (DarcyStokes.nS 1)) + D.side 2 (q.2 * dot v (DarcyStokes.nS 2))
        + D.side 3 (q.2 * dot v (DarcyStokes.nS 3)) + D.side 4 (q.2 * dot v (DarcyStokes.nS 4))) := rfl
    rw [this]
    simp only [over, List.map_cons, List.map_nil, List.sum_cons, List.sum_nil]
    ring
  have ee : ∀ p q, e p q = K * D.inner (dot (grad p.2) (grad q.2)) := by
    intro p q
    have : e p q = Solvable.stiff D.inner K 0 p.2 q.2 := rfl
    rw [this, Solvable.stiff_apply]
    ring
  have ea : ∀ x y, a x y = (2 * mu) * D.outer (Mms.inner (sym (gradV x)) (sym (gradV y)))
      + over D.side [1, 2, 3, 4] fun t =>
        c alpha * (dot x (rotate (DarcyStokes.nS t)) * dot y (rotate (DarcyStokes.nS t))) := by
    intro x y
    have : a x y = D.outer (c (2 * mu) * Mms.inner (sym (gradV x)) (sym (gradV y)))
      + alpha * (D.side 1 (dot x (rotate (DarcyStokes.nS 1)) * dot y (rotate (DarcyStokes.nS 1)))
        + D.side 2 (dot x (rotate (DarcyStokes.nS 2)) * dot y (rotate (DarcyStokes.nS 2)))
        + D.side 3 (dot x (rotate (DarcyStokes.nS 3)) * dot y (rotate (DarcyStokes.nS 3)))
        + D.side 4 (dot x (rotate (DarcyStokes.nS 4)) * dot y (rotate (DarcyStokes.nS 4)))) := rfl
    rw [this, vol_c]
    simp only [over, List.map_cons, List.map_nil, List.sum_cons, List.sum_nil, vol_c]
    ring
  have n1 : ∀ u : Vec A, 0 ≤ D.outer (Mms.inner (sym (gradV u)) (sym (gradV u))) := fun u => by
    rw [Mms.inner, map_add]
    exact add_nonneg (dot_nonneg hO _) (dot_nonneg hO _)
  have en : ∀ t ∈ [1, 2, 3, 4], Apps.Energy (k t) := fun t ht => Energy.comp (prod_energy (hS t ht)) _
  have ek : Apps.Energy (alpha • (k 1 + k 2 + k 3 + k 4)) := Energy.smul ha
    (Energy.add (Energy.add (Energy.add (en 1 (by simp)) (en 2 (by simp))) (en 3 (by simp)))
      (en 4 (by simp)))
  have es : Apps.Energy ((strainForm mu).compr₂ D.outer) := by
    have es : ∀ x y, (strainForm mu).compr₂ D.outer x y =
      (2 * mu) * D.outer (Mms.inner (sym (gradV x)) (sym (gradV y))) := fun x y => by rw [← vol_c]; rfl
    exact ⟨fun x y => by
      rw [es, es]
      simp only [Mms.inner, dot, mul_comm], fun x => by
      rw [es]
      exact mul_nonneg (by linarith) (n1 _)⟩
  rw [penalized_iff V (QS.prod QD) a b e (Energy.add es ek) (Energy.comp (stiff_energy hI hK.le le_rfl) _) _
    fun x y => by
    rw [ea, eb, eb, ee, dq, DarcyStokes.row0, DarcyStokes.stokesPart, Stokes.bulk, Stokes.rowDiv,
      DarcyStokes.row2, vol_c, mul_comm (div x.1) y.2.1,
      show dot (scale (c K) (grad x.2.2)) (grad y.2.2) = c K * dot (grad x.2.2) (grad y.2.2) by
        simp only [dot, scale]; ring, map_neg D.inner, vol_c]
    ring]
  constructor
  · rintro ⟨-, h⟩ p hp q hq h0 hv
    exact Prod.mk.inj (h (p, q) ⟨hp, hq⟩ (by rw [ee, h0, mul_zero]) fun v hv' => by rw [eb]; exact hv v hv')
  · intro h
    refine ⟨fun u hu h0 _ => hV u hu ?_, fun q hq h0 hv => ?_⟩
    · have h2 := ek.nonneg u
      have h1 := es.nonneg u
      have h3 : (strainForm mu).compr₂ D.outer u u + (alpha • (k 1 + k 2 + k 3 + k 4)) u u = 0 := h0
      have h4 : D.outer (c (2 * mu) * Mms.inner (sym (gradV u)) (sym (gradV u))) = 0 :=
        show (strainForm mu).compr₂ D.outer u u = 0 by linarith
      rw [vol_c] at h4
      exact (mul_eq_zero.1 h4).resolve_left (by linarith)
    · rw [ee] at h0
      have := h q.1 hq.1 q.2 hq.2 ((mul_eq_zero.1 h0).resolve_left hK.ne') fun v hv' => by
        rw [← hv v hv', eb]
      exact Prod.ext this.1 this.2

/-! The hypotheses on the unit square with velocities along `(x, 0)`, constant pressures and no
multipliers: all four systems are nonsingular. -/

example :
    let V := Submodule.span ℝ {((X, 0) : Vec Sm)}
    let P := Submodule.span ℝ {(1 : Sm)}
    Nonsingular (V.prod (P.prod ⊥)) (mixedPoisson unitSquare) ∧
      Nonsingular (V.prod (P.prod ⊥)) (freeSlip unitSquare 0 0 (0 : Vec Sm →ₗ[ℝ] Vec Sm)) ∧
      Nonsingular (V.prod (P.prod ⊥)) (bertoluzza unitSquare) ∧
      Nonsingular (V.prod (P.prod (⊤ : Submodule ℝ ℝ))) (isoP2 unitSquare) := by
  intro V P
  have mX : ((X, 0) : Vec Sm) ∈ V := Submodule.mem_span_singleton_self _
  have sq : SqNonneg unitSquare.vol := fun _ =>
    intervalIntegral.integral_nonneg zero_le_one fun _ _ =>
      intervalIntegral.integral_nonneg zero_le_one fun _ _ => mul_self_nonneg _
  refine ⟨(mixedPoisson_iff unitSquare V P ⊥ fun s hs h => ?_).2 ?_,
    (freeSlip_iff unitSquare 0 0 0 V P ⊥ (fun u => ?_) (fun u => by simp) fun u hu h _ =>
      unit_strain u hu h).2 ?_,
    (bertoluzza_iff unitSquare V P ⊥ fun u hu h => unit_strain u hu h).2 ?_,
    (isoP2_iff unitSquare V P (fun u hu h => unit_strain u hu h)
      (Submodule.mem_span_singleton_self _) (by rw [unit_vol_one]; exact one_ne_zero)).2
      fun q hq h _ => unit_div q hq (h _ mX)⟩
  · obtain ⟨k, rfl⟩ := Submodule.mem_span_singleton.1 hs
    have e : dot (k • ((X, 0) : Vec Sm)) (k • ((X, 0) : Vec Sm)) = c (k * k) * (X * X) := by
      simp only [dot, Prod.smul_fst, Prod.smul_snd]
      simp only [c, Algebra.smul_def, map_mul]
      ring
    rw [e, vol_c, unit_vol_sq] at h
    have : k = 0 := by nlinarith
    rw [this, zero_smul]
  · intro u hu p hp h
    rw [Submodule.mem_bot] at hp
    subst hp
    exact ⟨unit_div u hu (by simpa [over] using h _ mX), rfl⟩
  · rw [vol_c, Mms.inner, map_add]
    have := dot_nonneg sq (sym (gradV u)).1
    have := dot_nonneg sq (sym (gradV u)).2
    linarith
  · intro u hu p hp h
    rw [Submodule.mem_bot] at hp
    subst hp
    exact ⟨unit_div u hu (by simpa [over] using h _ mX), rfl⟩
  · intro u hu p hp h
    rw [Submodule.mem_bot] at hp
    subst hp
    exact ⟨unit_div u hu (by simpa [over] using h _ mX), rfl⟩

-- with constant potentials: grounding one of them is needed
example : letI := constants
    ∃ D : Immersed ℝ, Nonsingular ((⊤ : Submodule ℝ ℝ).prod ⊥) (emi D 1 2) ∧
      ¬ Nonsingular (⊤ : Submodule ℝ (ℝ × ℝ)) (emi D 1 2) := by
  letI := constants
  have d : ∀ F : Vec ℝ, div F = 0 := fun F => add_zero (0 : ℝ)
  let D : Immersed ℝ := {
    outer := LinearMap.id
    inner := LinearMap.id
    side := fun _ => LinearMap.id
    greenInner := fun F => by rw [d]; simp [dot, cvec, outward, c]
    greenOuter := fun F => by rw [d]; simp [dot, cvec, outward, c] }
  have sq : SqNonneg (LinearMap.id : ℝ →ₗ[ℝ] ℝ) := fun u => mul_self_nonneg u
  have := finite_prod (⊤ : Submodule ℝ ℝ) (⊥ : Submodule ℝ ℝ)
  refine ⟨D, (emi_iff D 1 2 one_pos two_pos _ sq sq fun _ _ => sq).2 fun x hx _ _ h => ?_, fun h => ?_⟩
  · have h2 : x.2 = 0 := hx.2
    have h1 : (x.1 - x.2) * (x.1 - x.2) = 0 := h 1 (by simp)
    rw [h2, sub_zero] at h1
    exact Prod.ext (mul_self_eq_zero.1 h1) h2
  · have := (emi_iff D 1 2 one_pos two_pos _ sq sq fun _ _ => sq).1 h (1, 1) trivial
      (by simp [D, dot, grad, dx, dy, constants]) (by simp [D, dot, grad, dx, dy, constants])
      (fun _ _ => by simp [D])
    exact one_ne_zero (congrArg Prod.fst this)

-- with constants on the other domains
example : letI := constants
    ∃ (S : Square ℝ) (D : Immersed ℝ) (H : Halved ℝ),
      Nonsingular ((⊤ : Submodule ℝ ℝ).prod (Submodule.span ℝ {fun _ => (1 : ℝ)})) (poissonBc S .neu) ∧
      Nonsingular ((⊤ : Submodule ℝ ℝ).prod (Submodule.prod ⊥ ⊤)) (twoD H 1 2) ∧
      Nonsingular ((⊤ : Submodule ℝ ℝ).prod (Submodule.prod ⊥ (Submodule.span ℝ {fun _ => (1 : ℝ)})))
        (emiMortar D 1 2) ∧
      Nonsingular ((⊤ : Submodule ℝ (Vec ℝ)).prod (Submodule.prod (⊤ : Submodule ℝ ℝ) ⊤))
        (elasticityMixed S 1 2) ∧
      Nonsingular ((⊤ : Submodule ℝ ℝ).prod (Submodule.prod ⊤ ⊤)) (isect D 1) ∧
      Nonsingular ((Submodule.span ℝ {((1, 0) : Vec ℝ)}).prod (Submodule.prod (⊤ : Submodule ℝ (Vec ℝ))
        (Submodule.prod ⊥ (Submodule.prod ⊥ (Submodule.span ℝ {fun t => if t = 1 then (1 : ℝ) else 0})))))
        (layton D 1 1 1 LinearMap.id 1 (LinearMap.fst ℝ ℝ ℝ)) := by
  letI := constants
  have d : ∀ F : Vec ℝ, div F = 0 := fun F => add_zero (0 : ℝ)
  let S : Square ℝ := {
    vol := LinearMap.id
    side := fun _ => LinearMap.id
    green := fun F => by rw [d]; simp [dot, cvec, outward, c] }
  let D : Immersed ℝ := {
    outer := LinearMap.id
    inner := LinearMap.id
    side := fun _ => LinearMap.id
    greenInner := fun F => by rw [d]; simp [dot, cvec, outward, c]
    greenOuter := fun F => by rw [d]; simp [dot, cvec, outward, c] }
  let H : Halved ℝ := {
    left := LinearMap.id
    right := LinearMap.id
    side := fun _ => LinearMap.id
    atEnd := fun _ => AlgHom.id ℝ ℝ
    greenLeft := fun F => by rw [d]; simp [dot, cvec, outward, c]
    greenRight := fun F => by rw [d]; simp [dot, cvec, outward, c]
    along := fun f => (sub_self f).symm }
  have sq : SqNonneg (LinearMap.id : ℝ →ₗ[ℝ] ℝ) := fun u => mul_self_nonneg u
  refine ⟨S, D, H, (poissonBc_iff S .neu _ _ sq).2 ⟨fun v _ _ h => ?_, fun q hq h => ?_⟩,
    (twoD_iff H 1 2 one_pos two_pos _ _ _ sq sq sq).2 ⟨fun v _ u hu _ _ _ h => ?_, fun q _ h => ?_⟩,
    (emiMortar_iff D 1 2 one_pos two_pos _ _ _ sq sq (fun _ _ => sq) fun q hq h => ?_).2
      fun v _ u hu _ _ h => ?_,
    (elasticityMixed_iff S 1 2 one_pos two_pos _ _ _ sq fun p _ h => mul_self_eq_zero.1 h).2
      ⟨fun u _ _ _ h => ?_, fun y _ h => ?_⟩,
    (isect_iff D 1 zero_le_one _ _ _ sq sq (fun _ _ => sq) (fun v _ h => mul_self_eq_zero.1 h)
      fun u _ _ h => ?_).2 fun q _ h => ?_,
    (layton_iff D 1 1 1 one_pos one_pos zero_le_one LinearMap.id 1 (LinearMap.fst ℝ ℝ ℝ) _ _ _ _ _ sq sq
      (fun _ _ => sq) (fun f => by simpa using mul_self_nonneg f) (fun u hu _ h => ?_)
      fun u _ h => ?_).2 fun p hp q hq m hm h _ => ?_⟩
  · have h1 : v * 1 + v * 1 = 0 := h _ (Submodule.mem_span_singleton_self _)
    linarith
  · obtain ⟨k, rfl⟩ := Submodule.mem_span_singleton.1 hq
    have h1 : 1 * (k * 1) + 1 * (k * 1) = 0 := h 1 trivial
    rw [show k = 0 by linarith, zero_smul]
  · have h0 : u = 0 := hu
    have h1 : (v - u) * 1 = 0 := h 1 trivial
    exact ⟨by rw [h0] at h1; linarith, h0⟩
  · have h1 : (1 - 0) * q = 0 := h 1 trivial 0 rfl
    linarith
  · obtain ⟨k, rfl⟩ := Submodule.mem_span_singleton.1 hq
    have h1 : (k * 1) * (k * 1) + ((k * 1) * (k * 1) + ((k * 1) * (k * 1) + ((k * 1) * (k * 1) + 0))) = 0 := h
    rw [show k = 0 by nlinarith, zero_smul]
  · have h0 : u = 0 := hu
    have h1 : (v - u) * 1 + ((v - u) * 1 + ((v - u) * 1 + ((v - u) * 1 + 0))) = 0 :=
      h _ (Submodule.mem_span_singleton_self _)
    exact ⟨by rw [h0] at h1; linarith, h0⟩
  · have h1 : dot u u + (dot u u + (dot u u + (dot u u + 0))) = 0 := h u trivial
    rw [dot] at h1
    exact Prod.ext (by show u.1 = 0; nlinarith [mul_self_nonneg u.2])
      (by show u.2 = 0; nlinarith [mul_self_nonneg u.1])
  · have h1 : dot y y + (dot y y + (dot y y + (dot y y + 0))) = 0 := h y trivial
    rw [dot] at h1
    exact Prod.ext (by show y.1 = 0; nlinarith [mul_self_nonneg y.2])
      (by show y.2 = 0; nlinarith [mul_self_nonneg y.1])
  · have h1 : u * u + (u * u + (u * u + (u * u + 0))) = 0 := h
    nlinarith
  · have h1 : (1 - 0) * q + ((1 - 0) * q + ((1 - 0) * q + ((1 - 0) * q + 0))) = 0 := h 0 trivial 1 trivial
    linarith
  · obtain ⟨k, rfl⟩ := Submodule.mem_span_singleton.1 hu
    have h1 : 1 * ((k * 1) * (k * 1)) = 0 := h
    rw [show k = 0 by nlinarith, zero_smul]
  · have h1 : u.1 * u.1 + u.2 * u.2 = 0 := h
    exact Prod.ext (by show u.1 = 0; nlinarith [mul_self_nonneg u.2])
      (by show u.2 = 0; nlinarith [mul_self_nonneg u.1])
  · obtain rfl : p = 0 := hp
    obtain rfl : q = 0 := hq
    obtain ⟨k, rfl⟩ := Submodule.mem_span_singleton.1 hm
    have h1 := h (1, 0) (Submodule.mem_span_singleton_self _)
    rw [d] at h1
    simp [D, over, dot, DarcyStokes.nS, cvec, outward, c] at h1
    exact ⟨rfl, rfl, by rw [h1, zero_smul]⟩

-- velocities along `(x, 0)` and constant Darcy pressures
example : ∃ D : Immersed Sm, Nonsingular ((Submodule.span ℝ {((X, 0) : Vec Sm)}).prod
    (Submodule.prod ⊥ (Submodule.span ℝ {(1 : Sm)}))) (dq D 1 1 1) := by
  let D : Immersed Sm := {
    outer := unitSquare.vol
    inner := unitSquare.vol
    side := fun t => if t ≤ 4 then unitSquare.side t else (2 : ℝ) • unitSquare.side (t - 4)
    greenInner := fun F => unitSquare.green F
    greenOuter := fun F => by
      rw [unitSquare.green F]
      simp
      ring }
  have sq : SqNonneg unitSquare.vol := fun _ =>
    intervalIntegral.integral_nonneg zero_le_one fun _ _ =>
      intervalIntegral.integral_nonneg zero_le_one fun _ _ => mul_self_nonneg _
  refine ⟨D, (dq_iff D 1 1 1 one_pos one_pos zero_le_one _ _ _ sq sq (fun t ht => ?_) fun u hu h =>
    unit_strain u hu ?_).2 fun p hp q hq _ h => ?_⟩
  · simp only [List.mem_cons, List.not_mem_nil, or_false] at ht
    rcases ht with rfl | rfl | rfl | rfl <;>
      exact fun _ => intervalIntegral.integral_nonneg zero_le_one fun _ _ => mul_self_nonneg _
  · have h' : unitSquare.vol (Mms.inner (sym (gradV u)) (sym (gradV u))) = 0 := h
    rw [vol_c, h', mul_zero]
  · obtain rfl : p = 0 := hp
    obtain ⟨k, rfl⟩ := Submodule.mem_span_singleton.1 hq
    have h0 := h (X, 0) (Submodule.mem_span_singleton_self _)
    have e1 : (k • (1 : Sm)) * dot (X, 0) (DarcyStokes.nS 1) = k • X := by
      simp [dot, DarcyStokes.nS, cvec, outward, c]
    have e2 : (k • (1 : Sm)) * dot (X, 0) (DarcyStokes.nS 2) = - k • X := by
      have e : dot ((X, 0) : Vec Sm) (DarcyStokes.nS 2) = - X := by
        simp only [dot, DarcyStokes.nS, cvec, outward, c, map_one, map_zero]
        ring
      rw [e, smul_mul_assoc, one_mul, smul_neg, neg_smul]
    have e3 : (k • (1 : Sm)) * dot (X, 0) (DarcyStokes.nS 3) = 0 := by
      simp [dot, DarcyStokes.nS, cvec, outward, c]
    have e4 : (k • (1 : Sm)) * dot (X, 0) (DarcyStokes.nS 4) = 0 := by
      simp [dot, DarcyStokes.nS, cvec, outward, c]
    have s1 : D.side 1 X = 0 := by
      show (∫ _ in (0 : ℝ)..1, (0 : ℝ)) = 0
      simp
    have s2 : D.side 2 X = 1 := by
      show (∫ _ in (0 : ℝ)..1, (1 : ℝ)) = 1
      simp
    simp only [over, List.map_cons, List.map_nil, List.sum_cons, List.sum_nil, e1, e2, e3, e4, map_smul,
      s1, s2, map_zero, zero_mul, neg_zero, smul_eq_mul] at h0
    rw [show k = 0 by linarith]
    exact ⟨rfl, zero_smul _ _⟩

end Verif.Nonsingular
