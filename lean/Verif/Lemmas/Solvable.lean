import Verif.Spec.Solvable
import Verif.Model.Solvable
import Verif.Model.Symmetric
import Verif.Lemmas.Minimise
import Mathlib.Tactic.Linarith
import Mathlib.LinearAlgebra.Dual.Lemmas
import Mathlib.LinearAlgebra.FiniteDimensional.Lemmas
import Mathlib.LinearAlgebra.Prod

/-! # Saddle point problems in spaces of finite dimension -/

namespace Verif.Solvable
open Verif.Mms Verif.Minimise

theorem exists_unique_of_nondegenerate {W : Type} [AddCommGroup W] [Module ℝ W]
    [FiniteDimensional ℝ W] (B : W →ₗ[ℝ] W →ₗ[ℝ] ℝ) (h : ∀ x, (∀ y, B x y = 0) → x = 0)
    (F : W →ₗ[ℝ] ℝ) : ∃! x, ∀ y, B x y = F y := by
  have hi : Function.Injective B := by
    rw [← LinearMap.ker_eq_bot, LinearMap.ker_eq_bot']
    intro x hx
    exact h x fun y => by rw [hx]; rfl
  have hs : Function.Surjective B :=
    (LinearMap.injective_iff_surjective_of_finrank_eq_finrank
      (Subspace.dual_finrank_eq (K := ℝ) (V := W)).symm).1 hi
  obtain ⟨x, rfl⟩ := hs F
  exact ⟨x, fun _ => rfl, fun z hz => hi (LinearMap.ext hz)⟩

section
variable {W M : Type} [AddCommGroup W] [Module ℝ W] [AddCommGroup M] [Module ℝ M]

/-- The two equations of a saddle point problem. -/
def Saddle (a : W →ₗ[ℝ] W →ₗ[ℝ] ℝ) (b : W →ₗ[ℝ] M →ₗ[ℝ] ℝ) (F : W →ₗ[ℝ] ℝ) (G : M →ₗ[ℝ] ℝ)
    (x : W × M) : Prop := (∀ v, a x.1 v + b v x.2 = F v) ∧ ∀ q, b x.1 q = G q

theorem saddle_iff [FiniteDimensional ℝ W] [FiniteDimensional ℝ M] (a : W →ₗ[ℝ] W →ₗ[ℝ] ℝ)
    (b : W →ₗ[ℝ] M →ₗ[ℝ] ℝ) (ha : ∀ w, a w w = 0 → (∀ q, b w q = 0) → w = 0) (F : W →ₗ[ℝ] ℝ)
    (G : M →ₗ[ℝ] ℝ) : (∃! x, Saddle a b F G x) ↔ ∀ q, (∀ v, b v q = 0) → q = 0 := by
  constructor
  · rintro ⟨x, hx, hu⟩ q hq
    have := hu (x.1, x.2 + q) ⟨fun v => by rw [map_add, hq, add_zero]; exact hx.1 v, hx.2⟩
    have := congrArg Prod.snd this
    simpa using this
  · intro hb
    let B : (W × M) →ₗ[ℝ] (W × M) →ₗ[ℝ] ℝ :=
      LinearMap.mk₂ ℝ (fun x y => a x.1 y.1 + b y.1 x.2 + b x.1 y.2)
        (fun x x' y => by simp only [Prod.fst_add, Prod.snd_add, map_add, LinearMap.add_apply]; ring)
        (fun c x y => by
          simp only [Prod.smul_fst, Prod.smul_snd, map_smul, LinearMap.smul_apply, smul_eq_mul]; ring)
        (fun x y y' => by simp only [Prod.fst_add, Prod.snd_add, map_add, LinearMap.add_apply]; ring)
        (fun c x y => by
          simp only [Prod.smul_fst, Prod.smul_snd, map_smul, LinearMap.smul_apply, smul_eq_mul]; ring)
    have key : ∀ x (F : W →ₗ[ℝ] ℝ) (G : M →ₗ[ℝ] ℝ), (∀ y, B x y = F.coprod G y) ↔ Saddle a b F G x := by
      intro x F G
      constructor
      · intro h
        refine ⟨fun v => ?_, fun q => ?_⟩
        · have : a x.1 v + b v x.2 + b x.1 (0 : M) = F v + G 0 := h (v, 0)
          simpa using this
        · have : a x.1 (0 : W) + b (0 : W) x.2 + b x.1 q = F 0 + G q := h (0, q)
          simpa using this
      · rintro ⟨h, h'⟩ y
        show a x.1 y.1 + b y.1 x.2 + b x.1 y.2 = F y.1 + G y.2
        rw [h, h']
    obtain ⟨x, hx, hu⟩ := exists_unique_of_nondegenerate B (fun x hx => by
      have h : Saddle a b 0 0 x := (key x 0 0).1 fun y => by rw [hx]; simp
      have h1 : b x.1 x.2 = 0 := h.2 x.2
      have h0 : a x.1 x.1 + b x.1 x.2 = 0 := h.1 x.1
      have hw : x.1 = 0 := ha _ (by linarith) h.2
      have hq : x.2 = 0 := hb _ fun v => by
        have : a x.1 v + b v x.2 = 0 := h.1 v
        simpa [hw] using this
      exact Prod.ext hw hq) (F.coprod G)
    exact ⟨x, (key x F G).1 hx, fun y hy => hu y ((key y F G).2 hy)⟩
end

variable {A : Type} [CommRing A] [Algebra ℝ A]

/-- The integral of a product as a bilinear form. -/
def prod (vol : A →ₗ[ℝ] ℝ) : A →ₗ[ℝ] A →ₗ[ℝ] ℝ := (LinearMap.mul ℝ A).compr₂ vol

theorem prod_apply (vol : A →ₗ[ℝ] ℝ) (u v : A) : prod vol u v = vol (u * v) := rfl

theorem affine_iff {a : A →ₗ[ℝ] A →ₗ[ℝ] ℝ} {b : A →ₗ[ℝ] A →ₗ[ℝ] ℝ} (V Q : Submodule ℝ A)
    [FiniteDimensional ℝ V] [FiniteDimensional ℝ Q] (ha : ∀ v ∈ V, a v v = 0 → v = 0)
    (F G : A →ₗ[ℝ] ℝ) (d : A) (S : A → A → Prop)
    (hS : ∀ u p, S u p ↔ u - d ∈ V ∧ p ∈ Q ∧ (∀ v ∈ V, a u v + b v p = F v) ∧ ∀ q ∈ Q, b u q = G q) :
    (∃! x : A × A, S x.1 x.2) ↔ ∀ q ∈ Q, (∀ v ∈ V, b v q = 0) → q = 0 := by
  have h := saddle_iff (a.compl₁₂ V.subtype V.subtype) (b.compl₁₂ V.subtype Q.subtype)
    (fun w hw _ => Subtype.ext (ha w w.2 hw)) ((F - a d).comp V.subtype) ((G - b d).comp Q.subtype)
  have e : ∀ (w : V) (p : Q), S (w + d) p ↔ Saddle (a.compl₁₂ V.subtype V.subtype)
      (b.compl₁₂ V.subtype Q.subtype) ((F - a d).comp V.subtype) ((G - b d).comp Q.subtype) (w, p) := by
    intro w p
    rw [hS, add_sub_cancel_right]
    constructor
    · rintro ⟨_, _, h0, h1⟩
      refine ⟨fun v => ?_, fun q => ?_⟩
      · have := h0 v v.2
        show a w v + b v p = F v - a d v
        rw [map_add, LinearMap.add_apply] at this
        linarith
      · have := h1 q q.2
        show b w q = G q - b d q
        rw [map_add, LinearMap.add_apply] at this
        linarith
    · rintro ⟨h0, h1⟩
      refine ⟨w.2, p.2, fun v hv => ?_, fun q hq => ?_⟩
      · have : a w v + b v p = F v - a d v := h0 ⟨v, hv⟩
        rw [map_add, LinearMap.add_apply]
        linarith
      · have : b w q = G q - b d q := h1 ⟨q, hq⟩
        rw [map_add, LinearMap.add_apply]
        linarith
  have k : (∃! x : A × A, S x.1 x.2) ↔ ∃! x, Saddle (a.compl₁₂ V.subtype V.subtype)
      (b.compl₁₂ V.subtype Q.subtype) ((F - a d).comp V.subtype) ((G - b d).comp Q.subtype) x := by
    constructor
    · rintro ⟨⟨u, p⟩, hx, hu⟩
      have hm := (hS u p).1 hx
      refine ⟨(⟨u - d, hm.1⟩, ⟨p, hm.2.1⟩), (e _ _).1 (by rwa [sub_add_cancel]), ?_⟩
      rintro ⟨w, q⟩ hy
      have := hu (w + d, q) ((e w q).2 hy)
      rw [Prod.mk.injEq] at this
      exact Prod.ext (Subtype.ext (eq_sub_of_add_eq this.1)) (Subtype.ext this.2)
    · rintro ⟨⟨w, p⟩, hx, hu⟩
      refine ⟨(w + d, p), (e w p).2 hx, ?_⟩
      rintro ⟨u, q⟩ hy
      have hm := (hS u q).1 hy
      have := hu (⟨u - d, hm.1⟩, ⟨q, hm.2.1⟩) ((e _ _).1 (by rwa [sub_add_cancel]))
      rw [Prod.mk.injEq] at this
      exact Prod.ext (by rw [← this.1]; exact (sub_add_cancel u d).symm) (by rw [← this.2])
  rw [k, h]
  exact ⟨fun h q hq hv => congrArg Subtype.val (h ⟨q, hq⟩ fun v => hv v v.2),
    fun h q hv => Subtype.ext (h q q.2 fun v hv' => hv ⟨v, hv'⟩)⟩

variable [Smooth A]

/-- `(k grad u, grad v) + (m u, v)` -/
def stiff (vol : A →ₗ[ℝ] ℝ) (k m : ℝ) : A →ₗ[ℝ] A →ₗ[ℝ] ℝ :=
  k • ((prod vol).compl₁₂ (dx : Derivation ℝ A A).toLinearMap (dx : Derivation ℝ A A).toLinearMap
    + (prod vol).compl₁₂ (dy : Derivation ℝ A A).toLinearMap (dy : Derivation ℝ A A).toLinearMap)
    + m • prod vol

theorem stiff_apply (vol : A →ₗ[ℝ] ℝ) (k m : ℝ) (u v : A) :
    stiff vol k m u v = k * vol (dot (grad u) (grad v)) + m * vol (u * v) := by
  rw [dot, map_add]; rfl

theorem stiff_definite {vol : A →ₗ[ℝ] ℝ} (hv : SqNonneg vol) {k m : ℝ} (hk : 0 ≤ k) (hm : 0 < m) {u : A}
    (h : stiff vol k m u u = 0) : vol (u * u) = 0 := by
  rw [stiff_apply, dot, map_add] at h
  have h1 := mul_nonneg hk (add_nonneg (hv (dx u)) (hv (dy u)))
  have h2 := mul_nonneg hm.le (hv u)
  have : m * vol (u * u) = 0 := by
    change k * (vol (dx u * dx u) + vol (dy u * dy u)) + m * vol (u * u) = 0 at h
    linarith
  exact (mul_eq_zero.1 this).resolve_left hm.ne'

theorem stiff_nonneg {vol : A →ₗ[ℝ] ℝ} (hv : SqNonneg vol) {k m : ℝ} (hk : 0 ≤ k) (hm : 0 ≤ m) (u : A) :
    0 ≤ stiff vol k m u u := by
  rw [stiff_apply, dot, map_add]
  exact add_nonneg (mul_nonneg hk (add_nonneg (hv (dx u)) (hv (dy u)))) (mul_nonneg hm (hv u))

/-! ### apps/enumath -/

section Apps
open Verif.Apps Verif.Symmetric

variable {X Y : Type} [AddCommGroup X] [Module ℝ X] [AddCommGroup Y] [Module ℝ Y]

theorem inner_nonneg {m : Y →ₗ[ℝ] Y →ₗ[ℝ] ℝ} (h : Inner m) (y : Y) : 0 ≤ m y y := by
  by_cases hy : y = 0
  · rw [hy, map_zero]
  · exact (h.pos y hy).le

theorem inner_definite {m : Y →ₗ[ℝ] Y →ₗ[ℝ] ℝ} (h : Inner m) {y : Y} (hy : m y y = 0) : y = 0 := by
  by_contra hne
  exact (h.pos y hne).ne' hy

theorem notHas_zero (P : Problem X Y) (h : Sane P) (x : X × Y) (hx : notHas P x x = 0) : x = 0 := by
  obtain ⟨u3, u⟩ := x
  have hpi := Real.pi_pos
  have hk : 0 < 2 * Real.pi * P.radius * P.kG := by
    have := h.radius; have := h.kG; positivity
  have h1 : 0 < Real.pi * P.radius ^ 2 * P.k1d := by
    have := h.radius; have := h.k1d; positivity
  have e : notHas P (u3, u) (u3, u) = P.k3d * P.e3 u3 u3 + P.kbdry * P.s3 u3 u3
      + Real.pi * P.radius ^ 2 * P.k1d * P.e1 u u + P.s1 u u
      + 2 * Real.pi * P.radius * P.kG * P.m (P.avg u3 - u) (P.avg u3 - u) := by
    simp only [notHas, NotHas.row0, NotHas.row1, map_sub, LinearMap.sub_apply,
      h.m.symm (P.avg u3) u]
    ring
  rw [e] at hx
  have a1 := mul_nonneg h.k3d.le (h.e3.nonneg u3)
  have a2 := mul_nonneg h.kbdry.le (h.s3.nonneg u3)
  have a3 := mul_nonneg h1.le (h.e1.nonneg u)
  have a4 := h.s1.nonneg u
  have a5 : 0 ≤ P.m (P.avg u3 - u) (P.avg u3 - u) := inner_nonneg h.m _
  have a6 := mul_nonneg hk.le a5
  have z3 : u3 = 0 := by
    apply h.definite
    · have : P.k3d * P.e3 u3 u3 = 0 := by linarith
      exact (mul_eq_zero.1 this).resolve_left h.k3d.ne'
    · have : P.kbdry * P.s3 u3 u3 = 0 := by linarith
      exact (mul_eq_zero.1 this).resolve_left h.kbdry.ne'
  subst z3
  have z : P.avg 0 - u = 0 := by
    apply inner_definite h.m
    have : 2 * Real.pi * P.radius * P.kG * P.m (P.avg 0 - u) (P.avg 0 - u) = 0 := by linarith
    exact (mul_eq_zero.1 this).resolve_left hk.ne'
  rw [map_zero, zero_sub, neg_eq_zero] at z
  rw [z]; rfl

theorem has_diag (P : Problem X Y) (u3 : X) (u p : Y) :
    has P (u3, u, p) (u3, u, -p) = P.k3d * P.e3 u3 u3 + P.kbdry * P.s3 u3 u3
      + Real.pi * P.radius ^ 2 * P.k1d * P.e1 u u + P.s1 u u + Has.pConst P * P.m p p := by
  simp only [has, Has.row0, Has.row1, Has.row2, map_neg, LinearMap.neg_apply]
  ring

/-- The block form of the problem without a multiplier on the finite element spaces. -/
noncomputable def notHasForm (P : Problem X Y) (V3 : Submodule ℝ X) (V : Submodule ℝ Y) :
    (V3 × V) →ₗ[ℝ] (V3 × V) →ₗ[ℝ] ℝ :=
  LinearMap.mk₂ ℝ (fun x y => notHas P (x.1, x.2) (y.1, y.2))
    (fun x x' y => by
      simp only [notHas, NotHas.row0, NotHas.row1, Prod.fst_add, Prod.snd_add, Submodule.coe_add,
        map_add, LinearMap.add_apply]; ring)
    (fun c x y => by
      simp only [notHas, NotHas.row0, NotHas.row1, Prod.smul_fst, Prod.smul_snd, Submodule.coe_smul,
        map_smul, LinearMap.smul_apply, smul_eq_mul]; ring)
    (fun x y y' => by
      simp only [notHas, NotHas.row0, NotHas.row1, Prod.fst_add, Prod.snd_add, Submodule.coe_add,
        map_add, LinearMap.add_apply]; ring)
    (fun c x y => by
      simp only [notHas, NotHas.row0, NotHas.row1, Prod.smul_fst, Prod.smul_snd, Submodule.coe_smul,
        map_smul, LinearMap.smul_apply, smul_eq_mul]; ring)

/-- The block form of the problem with a multiplier on the finite element spaces. -/
noncomputable def hasForm (P : Problem X Y) (V3 : Submodule ℝ X) (V Q : Submodule ℝ Y) :
    (V3 × V × Q) →ₗ[ℝ] (V3 × V × Q) →ₗ[ℝ] ℝ :=
  LinearMap.mk₂ ℝ (fun x y => has P (x.1, x.2.1, x.2.2) (y.1, y.2.1, y.2.2))
    (fun x x' y => by
      simp only [has, Has.row0, Has.row1, Has.row2, Prod.fst_add, Prod.snd_add, Submodule.coe_add,
        map_add, LinearMap.add_apply]; ring)
    (fun c x y => by
      simp only [has, Has.row0, Has.row1, Has.row2, Prod.smul_fst, Prod.smul_snd, Submodule.coe_smul,
        map_smul, LinearMap.smul_apply, smul_eq_mul]; ring)
    (fun x y y' => by
      simp only [has, Has.row0, Has.row1, Has.row2, Prod.fst_add, Prod.snd_add, Submodule.coe_add,
        map_add, LinearMap.add_apply]; ring)
    (fun c x y => by
      simp only [has, Has.row0, Has.row1, Has.row2, Prod.smul_fst, Prod.smul_snd, Submodule.coe_smul,
        map_smul, LinearMap.smul_apply, smul_eq_mul]; ring)

/-- The load on the finite element spaces. -/
noncomputable def load (P : Problem X Y) (V3 : Submodule ℝ X) (V : Submodule ℝ Y) (f : X) (g : Y) :
    (V3 × V) →ₗ[ℝ] ℝ where
  toFun y := rhs0 P f y.1 + rhs1 P g y.2
  map_add' y y' := by
    simp only [rhs0, rhs1, Prod.fst_add, Prod.snd_add, Submodule.coe_add, map_add]; ring
  map_smul' c y := by
    simp only [rhs0, rhs1, Prod.smul_fst, Prod.smul_snd, Submodule.coe_smul, map_smul, smul_eq_mul,
      RingHom.id_apply]; ring

theorem notHas_solves_iff (P : Problem X Y) (V3 : Submodule ℝ X) (V : Submodule ℝ Y) (f : X) (g : Y)
    (x : V3 × V) : NotHas.Solves P V3 V f g x.1 x.2 ↔
      ∀ y, notHasForm P V3 V x y = load P V3 V f g y := by
  constructor
  · intro h y
    have h0 := h.eq0 y.1 y.1.2
    have h1 := h.eq1 y.2 y.2.2
    show NotHas.row0 P x.1 (P.avg x.1) x.2 y.1 + NotHas.row1 P (P.avg x.1) x.2 y.2 =
      rhs0 P f y.1 + rhs1 P g y.2
    rw [h0, h1]
  · intro h
    refine ⟨x.1.2, x.2.2, fun v hv => ?_, fun v hv => ?_⟩
    · have := h (⟨v, hv⟩, 0)
      change NotHas.row0 P x.1 (P.avg x.1) x.2 v + NotHas.row1 P (P.avg x.1) x.2 (0 : Y) =
        rhs0 P f v + rhs1 P g (0 : Y) at this
      simpa [NotHas.row1, rhs1] using this
    · have := h (0, ⟨v, hv⟩)
      change NotHas.row0 P x.1 (P.avg x.1) x.2 (0 : X) + NotHas.row1 P (P.avg x.1) x.2 v =
        rhs0 P f (0 : X) + rhs1 P g v at this
      simpa [NotHas.row0, rhs0] using this

theorem has_solves_iff (P : Problem X Y) (V3 : Submodule ℝ X) (V Q : Submodule ℝ Y) (f : X) (g : Y)
    (x : V3 × V × Q) : Has.Solves P V3 V Q f g x.1 x.2.1 x.2.2 ↔
      ∀ y, hasForm P V3 V Q x y = load P V3 V f g (y.1, y.2.1) := by
  constructor
  · intro h y
    have h0 := h.eq0 y.1 y.1.2
    have h1 := h.eq1 y.2.1 y.2.1.2
    have h2 := h.eq2 y.2.2 y.2.2.2
    show Has.row0 P x.1 x.2.2 y.1 + Has.row1 P x.2.1 x.2.2 y.2.1 + Has.row2 P x.1 x.2.1 x.2.2 y.2.2 =
      rhs0 P f y.1 + rhs1 P g y.2.1
    rw [h0, h1, h2, add_zero]
  · intro h
    refine ⟨x.1.2, x.2.1.2, x.2.2.2, fun v hv => ?_, fun v hv => ?_, fun q hq => ?_⟩
    · have := h (⟨v, hv⟩, 0, 0)
      change Has.row0 P x.1 x.2.2 v + Has.row1 P x.2.1 x.2.2 (0 : Y)
        + Has.row2 P x.1 x.2.1 x.2.2 (0 : Y) = rhs0 P f v + rhs1 P g (0 : Y) at this
      simpa [Has.row1, Has.row2, rhs1] using this
    · have := h (0, ⟨v, hv⟩, 0)
      change Has.row0 P x.1 x.2.2 (0 : X) + Has.row1 P x.2.1 x.2.2 v
        + Has.row2 P x.1 x.2.1 x.2.2 (0 : Y) = rhs0 P f (0 : X) + rhs1 P g v at this
      simpa [Has.row0, Has.row2, rhs0] using this
    · have := h (0, 0, ⟨q, hq⟩)
      change Has.row0 P x.1 x.2.2 (0 : X) + Has.row1 P x.2.1 x.2.2 (0 : Y)
        + Has.row2 P x.1 x.2.1 x.2.2 q = rhs0 P f (0 : X) + rhs1 P g (0 : Y) at this
      simpa [Has.row0, Has.row1, rhs0, rhs1] using this

theorem hasForm_nondegenerate (P : Problem X Y) (h : Sane P) (V3 : Submodule ℝ X)
    (V Q : Submodule ℝ Y) (hV : V ≤ Q) (x : V3 × V × Q) (hx : ∀ y, hasForm P V3 V Q x y = 0) :
    x = 0 := by
  obtain ⟨⟨u3, m3⟩, ⟨u, mu⟩, ⟨p, mp⟩⟩ := x
  have hpi := Real.pi_pos
  have hc : 0 < Has.pConst P := by
    have := h.radius; have := h.kG; rw [Has.pConst]; positivity
  have h1 : 0 < Real.pi * P.radius ^ 2 * P.k1d := by
    have := h.radius; have := h.k1d; positivity
  have e : has P (u3, u, p) (u3, u, -p) = 0 := hx (⟨u3, m3⟩, ⟨u, mu⟩, ⟨-p, Q.neg_mem mp⟩)
  rw [has_diag P] at e
  have a1 := mul_nonneg h.k3d.le (h.e3.nonneg u3)
  have a2 := mul_nonneg h.kbdry.le (h.s3.nonneg u3)
  have a3 := mul_nonneg h1.le (h.e1.nonneg u)
  have a4 := h.s1.nonneg u
  have a5 := mul_nonneg hc.le (inner_nonneg h.m p)
  obtain rfl : u3 = 0 := by
    apply h.definite
    · have : P.k3d * P.e3 u3 u3 = 0 := by linarith
      exact (mul_eq_zero.1 this).resolve_left h.k3d.ne'
    · have : P.kbdry * P.s3 u3 u3 = 0 := by linarith
      exact (mul_eq_zero.1 this).resolve_left h.kbdry.ne'
  obtain rfl : p = 0 := by
    apply inner_definite h.m
    have : Has.pConst P * P.m p p = 0 := by linarith
    exact (mul_eq_zero.1 this).resolve_left hc.ne'
  obtain rfl : u = 0 := by
    apply inner_definite h.m
    have : has P (0, u, 0) (0, 0, u) = 0 := hx (0, 0, ⟨u, hV mu⟩)
    simpa [has, Has.row0, Has.row1, Has.row2] using this
  rfl

end Apps

end Verif.Solvable
