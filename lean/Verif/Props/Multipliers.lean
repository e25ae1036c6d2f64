import Verif.Lemmas.Multipliers
import Verif.Props.Solvable

/-!
# Constrained minimisers are the solutions of the block systems

The converse of the theorems in `Verif.Props.Minimise` and of `nested_minimises`: each minimiser has
a multiplier with which it solves the system.  Only the spaces of multipliers need to have finite
dimension.
-/

namespace Verif.Multipliers
open Verif.Mms Verif.Minimise Verif.Solvable Verif.Apps

variable {A : Type} [CommRing A] [Algebra ℝ A] [Smooth A]

/-- demo/poisson_babuska.py and demo/poisson_babuska_3d.py: the primal parts of the solutions are
exactly the functions of least energy with the prescribed boundary values. -/
theorem babuska_minimises_iff (vol bdry : A →ₗ[ℝ] ℝ) (hv : SqNonneg vol) (V Q : Submodule ℝ A)
    [FiniteDimensional ℝ Q] (f d g u : A) :
    Minimises (Prescribed bdry V Q d g) (energy vol f) u ↔ ∃ p, Babuska vol bdry V Q f d g u p := by
  constructor
  · rintro ⟨⟨hu, hc⟩, hm⟩
    obtain ⟨p, hp⟩ := first_order ((prod bdry).compl₁₂ V.subtype Q.subtype)
      ((stiff vol 1 1 u - prod vol f).comp V.subtype) (fun w => 1 / 2 * normSq vol 1 w)
      (fun w hw t => by
        have hy : u + t • (w : A) ∈ Prescribed bdry V Q d g := by
          refine ⟨?_, fun q hq => ?_⟩
          · rw [show u + t • (w : A) - d = (u - d) + t • (w : A) by abel]
            exact V.add_mem hu (V.smul_mem t w.2)
          · have : bdry (w * q) = 0 := hw ⟨q, hq⟩
            rw [add_mul, map_add, smul_mul_assoc, map_smul, this, smul_zero, add_zero]
            exact hc q hq
        have := hm _ hy
        show 0 ≤ t * (stiff vol 1 1 u w - vol (f * w)) + t ^ 2 * (1 / 2 * normSq vol 1 (w : A))
        rw [energy, energy, normSq_add, mul_add f, map_add] at this
        simp only [normSq, vol_c, vol_dot, Derivation.map_smul, map_smul, smul_mul_assoc, mul_smul_comm, smul_eq_mul] at this
        rw [stiff_apply, vol_dot, normSq]
        linarith)
    refine ⟨p, hu, p.2, fun v hv' => ?_, hc⟩
    have : stiff vol 1 1 u v - vol (f * v) + bdry (v * p) = 0 := hp ⟨v, hv'⟩
    rw [stiff_apply] at this
    rw [Babuska.row0, Babuska.rhs0]
    linarith
  · rintro ⟨p, h⟩
    exact (babuska_minimises vol bdry hv f d g V Q h.mem h.memQ h.eq0 h.eq1).1

/-- demo/time_dep.py: the primal parts of the solutions of a step are exactly the functions of least
energy with the prescribed boundary values. -/
theorem heat_minimises_iff (vol bdry : A →ₗ[ℝ] ℝ) (hv : SqNonneg vol) (dt : ℝ) (hdt : 0 < dt)
    (V Q : Submodule ℝ A) [FiniteDimensional ℝ Q] (u0 f d g u : A) :
    Minimises (Prescribed bdry V Q d g) (stepEnergy vol dt u0 f) u ↔
      ∃ p, Heat vol bdry dt V Q u0 f d g u p := by
  constructor
  · rintro ⟨⟨hu, hc⟩, hm⟩
    obtain ⟨p, hp⟩ := first_order ((prod bdry).compl₁₂ V.subtype Q.subtype)
      ((stiff vol 1 (1 / dt) u - (1 / dt) • prod vol u0 - prod vol f).comp V.subtype)
      (fun w => 1 / 2 * stiff vol 1 (1 / dt) w w)
      (fun w hw t => by
        have hy : u + t • (w : A) ∈ Prescribed bdry V Q d g := by
          refine ⟨?_, fun q hq => ?_⟩
          · rw [show u + t • (w : A) - d = (u - d) + t • (w : A) by abel]
            exact V.add_mem hu (V.smul_mem t w.2)
          · have : bdry (w * q) = 0 := hw ⟨q, hq⟩
            rw [add_mul, map_add, smul_mul_assoc, map_smul, this, smul_zero, add_zero]
            exact hc q hq
        have := hm _ hy
        show 0 ≤ t * (stiff vol 1 (1 / dt) u w - 1 / dt * vol (u0 * w) - vol (f * w))
          + t ^ 2 * (1 / 2 * stiff vol 1 (1 / dt) w w)
        have a : u + t • (w : A) - u0 = (u - u0) + t • (w : A) := by abel
        have b : 1 / (2 * dt) = 1 / 2 * (1 / dt) := by ring
        rw [stepEnergy, stepEnergy, map_add dx, map_add dy, a, vol_sq_add, vol_sq_add, vol_sq_add,
          mul_add f, map_add, b] at this
        simp only [Derivation.map_smul, map_smul, smul_mul_assoc, mul_smul_comm, smul_eq_mul, sub_mul u u0 (w : A),
          map_sub] at this
        rw [stiff_apply, stiff_apply, vol_dot, vol_dot]
        linarith)
    refine ⟨p, hu, p.2, fun v hv' => ?_, hc⟩
    have : stiff vol 1 (1 / dt) u v - 1 / dt * vol (u0 * v) - vol (f * v) + bdry (v * p) = 0 :=
      hp ⟨v, hv'⟩
    rw [stiff_apply] at this
    rw [Heat.row0, Heat.rhs0, vol_c, vol_c, mul_comm (p : A) v]
    linarith
  · rintro ⟨p, h⟩
    exact heat_step_minimises vol bdry hv dt hdt u0 f d g V Q h.mem h.memQ h.eq0 h.eq1

/-- demo/layer_2d.py: the primal parts of the solutions are exactly the pairs of least energy which
satisfy the constraint. -/
theorem layer_minimises_iff (vol1 vol2 volO : A →ₗ[ℝ] ℝ) (hv1 : SqNonneg vol1) (hv2 : SqNonneg vol2)
    (k1 k2 : ℝ) (hk1 : 0 ≤ k1) (hk2 : 0 ≤ k2) (V1 V2 Q : Submodule ℝ A) [FiniteDimensional ℝ Q]
    (f1 f2 g u1 u2 : A) :
    Minimises (Coupled volO V1 V2 Q g) (layerEnergy vol1 vol2 k1 k2 f1 f2) (u1, u2) ↔
      ∃ p, Layer vol1 vol2 volO k1 k2 V1 V2 Q f1 f2 g u1 u2 p := by
  constructor
  · rintro ⟨⟨m1, m2, hc⟩, hm⟩
    obtain ⟨p, hp⟩ := first_order
      ((prod volO).compl₁₂ (V1.subtype.comp (LinearMap.fst ℝ V1 V2)
        - V2.subtype.comp (LinearMap.snd ℝ V1 V2)) Q.subtype)
      (((stiff vol1 k1 1 u1 - prod vol1 f1).comp V1.subtype).coprod
        ((stiff vol2 k2 1 u2 - prod vol2 f2).comp V2.subtype))
      (fun w => 1 / 2 * normSq vol1 k1 w.1 + 1 / 2 * normSq vol2 k2 w.2)
      (fun w hw t => by
        have hy : (u1 + t • (w.1 : A), u2 + t • (w.2 : A)) ∈ Coupled volO V1 V2 Q g := by
          refine ⟨V1.add_mem m1 (V1.smul_mem t w.1.2), V2.add_mem m2 (V2.smul_mem t w.2.2),
            fun q hq => ?_⟩
          have : volO ((w.1 - w.2) * q) = 0 := hw ⟨q, hq⟩
          show volO ((u1 + t • (w.1 : A) - (u2 + t • (w.2 : A))) * q) = _
          rw [show (u1 + t • (w.1 : A) - (u2 + t • (w.2 : A))) = (u1 - u2) + t • ((w.1 : A) - w.2) by
            rw [smul_sub]; abel, add_mul, map_add, smul_mul_assoc, map_smul, this, smul_zero, add_zero]
          exact hc q hq
        have := hm _ hy
        show 0 ≤ t * ((stiff vol1 k1 1 u1 w.1 - vol1 (f1 * w.1))
            + (stiff vol2 k2 1 u2 w.2 - vol2 (f2 * w.2)))
          + t ^ 2 * (1 / 2 * normSq vol1 k1 (w.1 : A) + 1 / 2 * normSq vol2 k2 (w.2 : A))
        simp only [layerEnergy, normSq_add, mul_add, map_add] at this
        simp only [normSq, vol_c, vol_dot, Derivation.map_smul, map_smul, smul_mul_assoc, mul_smul_comm, smul_eq_mul] at this
        rw [stiff_apply, stiff_apply, vol_dot, vol_dot, normSq, normSq]
        linarith)
    have e : ∀ (v1 : V1) (v2 : V2), (stiff vol1 k1 1 u1 v1 - vol1 (f1 * v1))
        + (stiff vol2 k2 1 u2 v2 - vol2 (f2 * v2)) + volO ((v1 - v2) * p) = 0 := fun v1 v2 => hp (v1, v2)
    refine ⟨p, m1, m2, p.2, fun v hv' => ?_, fun v hv' => ?_, fun q hq => ?_⟩
    · have := e ⟨v, hv'⟩ 0
      simp only [stiff_apply, Submodule.coe_zero, mul_zero, map_zero, sub_zero, dot, grad, add_zero]
        at this
      rw [Layer.row0, Layer.rhs, vol_c, dot, grad, grad]
      linarith
    · have := e 0 ⟨v, hv'⟩
      simp only [stiff_apply, Submodule.coe_zero, mul_zero, map_zero, sub_zero, dot, grad, add_zero,
        zero_add, zero_sub, neg_mul, map_neg] at this
      rw [Layer.row1, Layer.rhs, vol_c, dot, grad, grad]
      linarith
    · have := hc q hq
      rw [sub_mul, map_sub] at this
      exact this
  · rintro ⟨p, h⟩
    exact (layer_minimises vol1 vol2 volO hv1 hv2 k1 k2 hk1 hk2 f1 f2 g V1 V2 Q h.mem1 h.mem2 h.memQ
      h.eq0 h.eq1 h.eq2).1

/-- demo/optim_control_L2.py: controls and states of the solutions are exactly the best ones. -/
theorem optim_minimises_iff (vol bdry : A →ₗ[ℝ] ℝ) (hv : SqNonneg vol) (hb : SqNonneg bdry) (eps : ℝ)
    (he : 0 ≤ eps) (Q V : Submodule ℝ A) [FiniteDimensional ℝ V] (f p u : A) :
    Minimises (Controlled vol Q V V) (controlCost vol bdry eps f) (p, u) ↔
      ∃ l, Optim vol bdry eps Q V f p u l := by
  constructor
  · rintro ⟨⟨hp, hu, hc⟩, hm⟩
    have hc' : ∀ b ∈ V, vol (dot (grad u) (grad b)) + vol (u * b) = - vol (p * b) := hc
    obtain ⟨l, hl⟩ := first_order
      ((prod vol).compl₁₂ (Q.subtype.comp (LinearMap.fst ℝ Q V)) V.subtype
        + (stiff vol 1 1).compl₁₂ (V.subtype.comp (LinearMap.snd ℝ Q V)) V.subtype)
      ((((eps • prod vol) p).comp Q.subtype).coprod ((prod bdry (u - f)).comp V.subtype))
      (fun w => 1 / 2 * bdry (w.2 * w.2) + eps / 2 * vol (w.1 * w.1))
      (fun w hw t => by
        have hy : (p + t • (w.1 : A), u + t • (w.2 : A)) ∈ Controlled vol Q V V := by
          refine ⟨Q.add_mem hp (Q.smul_mem t w.1.2), V.add_mem hu (V.smul_mem t w.2.2), fun b hb' => ?_⟩
          have h1 : vol (w.1 * b) + stiff vol 1 1 w.2 b = 0 := hw ⟨b, hb'⟩
          have h2 := hc' b hb'
          rw [stiff_apply, vol_dot] at h1
          rw [vol_dot] at h2
          rw [vol_dot]
          simp only [map_add, Derivation.map_smul, map_smul, add_mul, smul_mul_assoc, smul_eq_mul]
          linear_combination h2 + t * h1
        have := hm _ hy
        show 0 ≤ t * (eps * vol (p * w.1) + bdry ((u - f) * w.2))
          + t ^ 2 * (1 / 2 * bdry (w.2 * w.2) + eps / 2 * vol (w.1 * w.1))
        have a : u + t • (w.2 : A) - f = (u - f) + t • (w.2 : A) := by abel
        simp only [controlCost, a, vol_sq_add] at this
        simp only [map_smul, smul_mul_assoc, mul_smul_comm, smul_eq_mul] at this
        linarith)
    have e : ∀ (q : Q) (v : V), eps * vol (p * q) + bdry ((u - f) * v)
        + (vol (q * l) + stiff vol 1 1 v l) = 0 := fun q v => hl (q, v)
    refine ⟨l, hp, hu, l.2, fun q hq => ?_, fun v hv' => ?_, fun b hb' => ?_⟩
    · have := e ⟨q, hq⟩ 0
      simp only [Submodule.coe_zero, mul_zero, map_zero, LinearMap.zero_apply, add_zero] at this
      rw [Optim.row0, vol_c]
      exact this
    · have := e 0 ⟨v, hv'⟩
      simp only [Submodule.coe_zero, mul_zero, zero_mul, map_zero, zero_add, stiff_apply, one_mul,
        sub_mul, map_sub] at this
      rw [Optim.row1, Optim.rhs1, mul_comm v f]
      linarith
    · have := hc' b hb'
      rw [Optim.row2]
      linarith
  · rintro ⟨l, h⟩
    exact (optim_minimises vol bdry hv hb eps he f Q V V h.memQ h.mem h.memB h.eq0 h.eq1 h.eq2).1

omit [CommRing A] [Algebra ℝ A] [Smooth A] in
/-- apps/d123/solving.py: the primal parts of the solutions are exactly the minimisers. -/
theorem nested_minimises_iff {X Y Z : Type} [AddCommGroup X] [Module ℝ X] [AddCommGroup Y] [Module ℝ Y]
    [AddCommGroup Z] [Module ℝ Z] (N : Nested X Y Z) (h3 : Energy N.e3) (h2 : Energy N.e2)
    (h1 : Energy N.e1) (hG : Inner N.mG) (V3 : Submodule ℝ X) (V2 Q2 : Submodule ℝ Y)
    (V1 Q1 : Submodule ℝ Z) [FiniteDimensional ℝ Q2] [FiniteDimensional ℝ Q1] (f : Z) (u3 : X) (u2 : Y)
    (u1 : Z) :
    Minimises (Nest N.mS N.mG N.tS N.tG V3 V2 Q2 V1 Q1 f) (nestEnergy N.e3 N.e2 N.e1) (u3, u2, u1) ↔
      ∃ p2 p1, N.Solves V3 V2 Q2 V1 Q1 f u3 u2 u1 p2 p1 := by
  constructor
  · rintro ⟨⟨m3, m2, m1, c2, c1⟩, hm⟩
    let b : (V3 × V2 × V1) →ₗ[ℝ] (Q2 × Q1) →ₗ[ℝ] ℝ :=
      LinearMap.mk₂ ℝ (fun w q => N.mS q.1 (N.tS w.1 - w.2.1) + N.mG q.2 (N.tG w.2.1 - w.2.2))
        (fun x x' y => by
          simp only [Prod.fst_add, Prod.snd_add, Submodule.coe_add, map_add, map_sub]; ring)
        (fun k x y => by
          simp only [Prod.smul_fst, Prod.smul_snd, Submodule.coe_smul, map_smul, map_sub,
            smul_eq_mul]; ring)
        (fun x y y' => by
          simp only [Prod.fst_add, Prod.snd_add, Submodule.coe_add, map_add, LinearMap.add_apply]; ring)
        (fun k x y => by
          simp only [Prod.smul_fst, Prod.smul_snd, Submodule.coe_smul, map_smul, LinearMap.smul_apply,
            smul_eq_mul]; ring)
    have eb : ∀ w q, b w q = N.mS q.1 (N.tS w.1 - w.2.1) + N.mG q.2 (N.tG w.2.1 - w.2.2) :=
      fun _ _ => rfl
    obtain ⟨⟨p2, p1⟩, hp⟩ := first_order b
      (((N.e3 u3).comp V3.subtype).coprod (((N.e2 u2).comp V2.subtype).coprod
        ((N.e1 u1).comp V1.subtype)))
      (fun w => nestEnergy N.e3 N.e2 N.e1 (w.1, w.2.1, w.2.2))
      (fun w hw t => by
        have hy : (u3 + t • (w.1 : X), u2 + t • (w.2.1 : Y), u1 + t • (w.2.2 : Z)) ∈
            Nest N.mS N.mG N.tS N.tG V3 V2 Q2 V1 Q1 f := by
          refine ⟨V3.add_mem m3 (V3.smul_mem t w.1.2), V2.add_mem m2 (V2.smul_mem t w.2.1.2),
            V1.add_mem m1 (V1.smul_mem t w.2.2.2), fun q hq => ?_, fun q hq => ?_⟩
          · have e1 := c2 q hq
            have e2 := hw (⟨q, hq⟩, 0)
            rw [eb] at e2
            simp only [Submodule.coe_zero, map_zero, LinearMap.zero_apply, add_zero, map_sub] at e1 e2
            show N.mS q (N.tS (u3 + t • (w.1 : X)) - (u2 + t • (w.2.1 : Y))) = 0
            simp only [map_add, map_sub, map_smul, smul_eq_mul]
            linear_combination e1 + t * e2
          · have e1 := c1 q hq
            have e2 := hw (0, ⟨q, hq⟩)
            rw [eb] at e2
            simp only [Submodule.coe_zero, map_zero, LinearMap.zero_apply, zero_add, map_sub] at e1 e2
            show N.mG q (N.tG (u2 + t • (w.2.1 : Y)) - (u1 + t • (w.2.2 : Z))) = N.mG q f
            simp only [map_add, map_sub, map_smul, smul_eq_mul]
            linear_combination e1 + t * e2
        have := hm _ hy
        show 0 ≤ t * (N.e3 u3 w.1 + (N.e2 u2 w.2.1 + N.e1 u1 w.2.2))
          + t ^ 2 * nestEnergy N.e3 N.e2 N.e1 ((w.1 : X), (w.2.1 : Y), (w.2.2 : Z))
        simp only [nestEnergy, map_add, map_smul, LinearMap.add_apply, LinearMap.smul_apply,
          smul_eq_mul, h3.symm (w.1 : X) u3, h2.symm (w.2.1 : Y) u2, h1.symm (w.2.2 : Z) u1] at this ⊢
        linarith)
    have e : ∀ (v3 : V3) (v2 : V2) (v1 : V1), N.e3 u3 v3 + (N.e2 u2 v2 + N.e1 u1 v1)
        + (N.mS p2 (N.tS v3 - v2) + N.mG p1 (N.tG v2 - v1)) = 0 := fun v3 v2 v1 => hp (v3, v2, v1)
    refine ⟨p2, p1, m3, m2, m1, p2.2, p1.2, fun v hv => ?_, fun v hv => ?_, fun v hv => ?_,
      fun q hq => ?_, fun q hq => ?_⟩
    · have := e ⟨v, hv⟩ 0 0
      simp only [Submodule.coe_zero, map_zero, map_sub] at this
      rw [Nested.row0]
      linarith
    · have := e 0 ⟨v, hv⟩ 0
      simp only [Submodule.coe_zero, map_zero, map_sub] at this
      rw [Nested.row1]
      linarith
    · have := e 0 0 ⟨v, hv⟩
      simp only [Submodule.coe_zero, map_zero, map_sub] at this
      rw [Nested.row2]
      linarith
    · have := c2 q hq
      rw [map_sub] at this
      exact this
    · have := c1 q hq
      rw [map_sub, hG.symm q f] at this
      exact this
  · rintro ⟨p2, p1, h⟩
    exact (nested_minimises N h3 h2 h1 hG V3 V2 Q2 V1 Q1 f h).1

omit [CommRing A] [Algebra ℝ A] [Smooth A] in
/-- apps/d123/solving.py has a solution if and only if there are functions which satisfy the
constraints. -/
theorem nested_exists_iff {X Y Z : Type} [AddCommGroup X] [Module ℝ X] [AddCommGroup Y] [Module ℝ Y]
    [AddCommGroup Z] [Module ℝ Z] (N : Nested X Y Z) (h3 : Energy N.e3) (h2 : Energy N.e2)
    (h1 : Energy N.e1) (hG : Inner N.mG) (V3 : Submodule ℝ X) (V2 Q2 : Submodule ℝ Y)
    (V1 Q1 : Submodule ℝ Z) [FiniteDimensional ℝ V3] [FiniteDimensional ℝ V2] [FiniteDimensional ℝ V1]
    [FiniteDimensional ℝ Q2] [FiniteDimensional ℝ Q1] (f : Z) :
    (∃ u3 u2 u1 p2 p1, N.Solves V3 V2 Q2 V1 Q1 f u3 u2 u1 p2 p1) ↔
      (Nest N.mS N.mG N.tS N.tG V3 V2 Q2 V1 Q1 f).Nonempty := by
  constructor
  · rintro ⟨u3, u2, u1, p2, p1, h⟩
    exact ⟨_, (nested_minimises N h3 h2 h1 hG V3 V2 Q2 V1 Q1 f h).1.1⟩
  · rintro ⟨⟨y3, y2, y1⟩, m3, m2, m1, c2, c1⟩
    let a : (V3 × V2 × V1) →ₗ[ℝ] (V3 × V2 × V1) →ₗ[ℝ] ℝ :=
      LinearMap.mk₂ ℝ (fun w v => N.e3 w.1 v.1 + N.e2 w.2.1 v.2.1 + N.e1 w.2.2 v.2.2)
        (fun x x' y => by
          simp only [Prod.fst_add, Prod.snd_add, Submodule.coe_add, map_add, LinearMap.add_apply]; ring)
        (fun k x y => by
          simp only [Prod.smul_fst, Prod.smul_snd, Submodule.coe_smul, map_smul, LinearMap.smul_apply,
            smul_eq_mul]; ring)
        (fun x y y' => by simp only [Prod.fst_add, Prod.snd_add, Submodule.coe_add, map_add]; ring)
        (fun k x y => by
          simp only [Prod.smul_fst, Prod.smul_snd, Submodule.coe_smul, map_smul, smul_eq_mul]; ring)
    let b : (V3 × V2 × V1) →ₗ[ℝ] (Q2 × Q1) →ₗ[ℝ] ℝ :=
      LinearMap.mk₂ ℝ (fun w q => N.mS q.1 (N.tS w.1 - w.2.1) + N.mG q.2 (N.tG w.2.1 - w.2.2))
        (fun x x' y => by
          simp only [Prod.fst_add, Prod.snd_add, Submodule.coe_add, map_add, map_sub]; ring)
        (fun k x y => by
          simp only [Prod.smul_fst, Prod.smul_snd, Submodule.coe_smul, map_smul, map_sub,
            smul_eq_mul]; ring)
        (fun x y y' => by
          simp only [Prod.fst_add, Prod.snd_add, Submodule.coe_add, map_add, LinearMap.add_apply]; ring)
        (fun k x y => by
          simp only [Prod.smul_fst, Prod.smul_snd, Submodule.coe_smul, map_smul, LinearMap.smul_apply,
            smul_eq_mul]; ring)
    have ea : ∀ w v, a w v = N.e3 w.1 v.1 + N.e2 w.2.1 v.2.1 + N.e1 w.2.2 v.2.2 := fun _ _ => rfl
    have eb : ∀ w q, b w q = N.mS q.1 (N.tS w.1 - w.2.1) + N.mG q.2 (N.tG w.2.1 - w.2.2) :=
      fun _ _ => rfl
    obtain ⟨⟨⟨u3, u2, u1⟩, ⟨p2, p1⟩⟩, hx, hy⟩ := exists_saddle a b
      ⟨fun w v => by rw [ea, ea, h3.symm, h2.symm, h1.symm],
        fun w => add_nonneg (add_nonneg (h3.nonneg _) (h2.nonneg _)) (h1.nonneg _)⟩
      0 (fun _ _ _ => rfl) (LinearMap.coprod 0 ((N.mG f).comp Q1.subtype))
      (⟨y3, m3⟩, ⟨y2, m2⟩, ⟨y1, m1⟩) (fun q => by
        have e1 := c2 q.1 q.1.2
        have e2 := c1 q.2 q.2.2
        rw [eb]
        show N.mS q.1 (N.tS y3 - y2) + N.mG q.2 (N.tG y2 - y1) = (0 : ℝ) + N.mG f q.2
        rw [hG.symm f]
        exact congrArg₂ (· + ·) e1 e2)
    have e : ∀ (v3 : V3) (v2 : V2) (v1 : V1), N.e3 u3 v3 + N.e2 u2 v2 + N.e1 u1 v1
        + (N.mS p2 (N.tS v3 - v2) + N.mG p1 (N.tG v2 - v1)) = 0 := fun v3 v2 v1 => hx (v3, v2, v1)
    have e' : ∀ (q2 : Q2) (q1 : Q1), N.mS q2 (N.tS u3 - u2) + N.mG q1 (N.tG u2 - u1) =
        (0 : ℝ) + N.mG f q1 := fun q2 q1 => hy (q2, q1)
    refine ⟨u3, u2, u1, p2, p1, u3.2, u2.2, u1.2, p2.2, p1.2, fun v hv => ?_, fun v hv => ?_,
      fun v hv => ?_, fun q hq => ?_, fun q hq => ?_⟩
    · have := e ⟨v, hv⟩ 0 0
      simp only [Submodule.coe_zero, map_zero, map_sub] at this
      rw [Nested.row0]
      linarith
    · have := e 0 ⟨v, hv⟩ 0
      simp only [Submodule.coe_zero, map_zero, map_sub] at this
      rw [Nested.row1]
      linarith
    · have := e 0 0 ⟨v, hv⟩
      simp only [Submodule.coe_zero, map_zero, map_sub] at this
      rw [Nested.row2]
      linarith
    · have := e' ⟨q, hq⟩ 0
      simp only [Submodule.coe_zero, map_zero, LinearMap.zero_apply, map_sub] at this
      rw [Nested.row3]
      linarith
    · have := e' 0 ⟨q, hq⟩
      simp only [Submodule.coe_zero, map_zero, LinearMap.zero_apply, map_sub] at this
      rw [Nested.row4, Nested.rhs4]
      linarith

omit [CommRing A] [Algebra ℝ A] [Smooth A] in
/-- apps/d123/solving.py always has a solution, as its multipliers on the curve are among the functions
there. -/
theorem nested_exists {X Y Z : Type} [AddCommGroup X] [Module ℝ X] [AddCommGroup Y] [Module ℝ Y]
    [AddCommGroup Z] [Module ℝ Z] (N : Nested X Y Z) (h3 : Energy N.e3) (h2 : Energy N.e2)
    (h1 : Energy N.e1) (hG : Inner N.mG) (V3 : Submodule ℝ X) (V2 Q2 : Submodule ℝ Y)
    (V1 Q1 : Submodule ℝ Z) [FiniteDimensional ℝ V3] [FiniteDimensional ℝ V2] [FiniteDimensional ℝ V1]
    [FiniteDimensional ℝ Q2] [FiniteDimensional ℝ Q1] (hQ : Q1 ≤ V1) (f : Z) :
    ∃ u3 u2 u1 p2 p1, N.Solves V3 V2 Q2 V1 Q1 f u3 u2 u1 p2 p1 := by
  obtain ⟨w, hw, -⟩ := exists_unique_of_nondegenerate (N.mG.compl₁₂ V1.subtype V1.subtype)
    (fun x hx => Subtype.ext (inner_definite hG (hx x))) ((N.mG f).comp V1.subtype)
  refine (nested_exists_iff N h3 h2 h1 hG V3 V2 Q2 V1 Q1 f).2 ⟨(0, 0, -w), V3.zero_mem, V2.zero_mem,
    V1.neg_mem w.2, fun q _ => ?_, fun q hq => ?_⟩
  · simp
  · have : N.mG w q = N.mG f q := hw ⟨q, hQ hq⟩
    show N.mG q (N.tG 0 - -(w : Z)) = N.mG q f
    rw [map_zero, zero_sub, neg_neg, hG.symm, this, hG.symm]

/-! ### The hypotheses can be met -/

-- the only constant with the boundary value 3 is the minimiser
example : letI := constants
    ∃ p : ℝ, Babuska LinearMap.id ((4 : ℝ) • LinearMap.id) ⊤ ⊤ 1 0 3 3 p := by
  letI := constants
  refine (babuska_minimises_iff LinearMap.id _ (fun f => mul_self_nonneg f) ⊤ ⊤ 1 0 3 3).1
    ⟨⟨trivial, fun _ _ => rfl⟩, fun y hy => ?_⟩
  have : (4 : ℝ) * (y * 1) = 4 * (3 * 1) := hy.2 1 trivial
  obtain rfl : y = 3 := by linarith
  exact le_rfl

example : letI := constants
    ∃ p : ℝ, Heat LinearMap.id ((4 : ℝ) • LinearMap.id) (1 / 10) ⊤ ⊤ 2 1 0 3 3 p := by
  letI := constants
  refine (heat_minimises_iff LinearMap.id _ (fun f => mul_self_nonneg f) (1 / 10) (by norm_num) ⊤ ⊤
    2 1 0 3 3).1 ⟨⟨trivial, fun _ _ => rfl⟩, fun y hy => ?_⟩
  have : (4 : ℝ) * (y * 1) = 4 * (3 * 1) := hy.2 1 trivial
  obtain rfl : y = 3 := by linarith
  exact le_rfl

-- minimisers of the problems which have one solution
example (f1 f2 g : ℝ) : letI := constants
    ∃ u1 u2 : ℝ, Minimises (Coupled ((1 / 2 : ℝ) • LinearMap.id) ⊤ ⊤ ⊤ g)
      (layerEnergy LinearMap.id LinearMap.id 2 3 f1 f2) (u1, u2) := by
  letI := constants
  obtain ⟨x, hx, -⟩ := (layer_exists_unique_iff LinearMap.id LinearMap.id ((1 / 2 : ℝ) • LinearMap.id)
    (fun f => mul_self_nonneg f) (fun f => mul_self_nonneg f) 2 3 (by norm_num) (by norm_num) ⊤ ⊤ ⊤
    definite_top definite_top f1 f2 g).2 fun q _ h _ => by
      have : (1 / 2 : ℝ) * (1 * q) = 0 := h 1 trivial
      linarith
  exact ⟨x.1, x.2.1, (layer_minimises_iff LinearMap.id LinearMap.id _ (fun f => mul_self_nonneg f)
    (fun f => mul_self_nonneg f) 2 3 (by norm_num) (by norm_num) ⊤ ⊤ ⊤ f1 f2 g _ _).2 ⟨_, hx⟩⟩

example (f : ℝ) : letI := constants
    ∃ p u : ℝ, Minimises (Controlled LinearMap.id ⊤ ⊤ ⊤)
      (controlCost LinearMap.id ((4 : ℝ) • LinearMap.id) 1 f) (p, u) := by
  letI := constants
  obtain ⟨x, hx, -⟩ := optim_exists_unique LinearMap.id _ (fun f => mul_self_nonneg f)
    (constants_nonneg 4 (by norm_num)) 1 one_pos ⊤ ⊤ definite_top definite_top f
  exact ⟨x.1, x.2.1, (optim_minimises_iff LinearMap.id _ (fun f => mul_self_nonneg f)
    (constants_nonneg 4 (by norm_num)) 1 zero_le_one ⊤ ⊤ f _ _).2 ⟨_, hx⟩⟩

-- constants have no energy
example : ∃ p2 p1, tiny.Solves ⊤ ⊤ ⊤ ⊤ ⊤ 5 (7, 7) 7 2 p2 p1 := by
  refine (nested_minimises_iff tiny
    ⟨fun u v => mul_comm (u.1 - u.2) (v.1 - v.2), fun u => mul_self_nonneg (u.1 - u.2)⟩
    ⟨fun _ _ => rfl, fun _ => le_rfl⟩ ⟨fun _ _ => rfl, fun _ => le_rfl⟩
    ⟨fun y z => mul_comm y z, fun y hy => mul_self_pos.2 hy⟩ ⊤ ⊤ ⊤ ⊤ ⊤ 5 (7, 7) 7 2).1
    ⟨⟨trivial, trivial, trivial, fun q _ => ?_, fun q _ => ?_⟩, fun y _ => ?_⟩
  · show q * (7 - 7) = (0 : ℝ)
    ring
  · show q * (7 - 2) = q * (5 : ℝ)
    ring
  · show 1 / 2 * ((7 - 7) * (7 - 7) + 0 + 0) ≤ 1 / 2 * ((y.1.1 - y.1.2) * (y.1.1 - y.1.2) + 0 + (0 : ℝ))
    have := mul_self_nonneg (y.1.1 - y.1.2)
    linarith

example (f : ℝ) : ∃ u3 u2 u1 p2 p1, tiny.Solves ⊤ ⊤ ⊤ ⊤ ⊤ f u3 u2 u1 p2 p1 :=
  nested_exists tiny
    ⟨fun u v => mul_comm (u.1 - u.2) (v.1 - v.2), fun u => mul_self_nonneg (u.1 - u.2)⟩
    ⟨fun _ _ => rfl, fun _ => le_rfl⟩ ⟨fun _ _ => rfl, fun _ => le_rfl⟩
    ⟨fun y z => mul_comm y z, fun y hy => mul_self_pos.2 hy⟩ ⊤ ⊤ ⊤ ⊤ ⊤ le_rfl f

end Verif.Multipliers
