import Verif.Lemmas.MmsSmooth
import Mathlib.Analysis.SpecialFunctions.Integrals.Basic
import Verif.Spec.Nonsingular
import Verif.Lemmas.Solvable
import Verif.Lemmas.Multipliers

/-! # Forms with a block structure, and the pieces of the forms of the demos -/

namespace Verif.Nonsingular
open Verif.Mms Verif.Minimise

theorem of_kernel {W : Type} [AddCommGroup W] [Module ℝ W] (S : Submodule ℝ W) [FiniteDimensional ℝ S]
    (B : W →ₗ[ℝ] W →ₗ[ℝ] ℝ) (h : ∀ x ∈ S, (∀ y ∈ S, B x y = 0) → x = 0) :
    Nonsingular S fun x y => B x y := by
  intro F
  obtain ⟨x, hx, hu⟩ := Solvable.exists_unique_of_nondegenerate (B.compl₁₂ S.subtype S.subtype)
    (fun x hx => Subtype.ext (h x x.2 fun y hy => hx ⟨y, hy⟩)) (F.comp S.subtype)
  exact ⟨x, ⟨x.2, fun y hy => hx ⟨y, hy⟩⟩, fun z hz =>
    congrArg Subtype.val (hu ⟨z, hz.1⟩ fun y => hz.2 y y.2)⟩

section
variable {X M : Type} [AddCommGroup X] [Module ℝ X] [AddCommGroup M] [Module ℝ M]

theorem finite_prod (V : Submodule ℝ X) (Q : Submodule ℝ M) [FiniteDimensional ℝ V]
    [FiniteDimensional ℝ Q] : FiniteDimensional ℝ (V.prod Q) :=
  Module.Finite.of_injective
    (((LinearMap.fst ℝ X M).restrict (p := V.prod Q) (q := V) fun _ h => h.1).prod
      ((LinearMap.snd ℝ X M).restrict (p := V.prod Q) (q := Q) fun _ h => h.2))
    fun x y h => by
      rw [LinearMap.prod_apply, LinearMap.prod_apply] at h
      have h1 := congrArg Subtype.val (congrArg Prod.fst h)
      have h2 := congrArg Subtype.val (congrArg Prod.snd h)
      exact Subtype.ext (Prod.ext h1 h2)

theorem saddle_iff (V : Submodule ℝ X) (Q : Submodule ℝ M) [FiniteDimensional ℝ V]
    [FiniteDimensional ℝ Q] (a : X →ₗ[ℝ] X →ₗ[ℝ] ℝ) (b : X →ₗ[ℝ] M →ₗ[ℝ] ℝ)
    (ha : ∀ v ∈ V, a v v = 0 → (∀ q ∈ Q, b v q = 0) → v = 0) (B : X × M → X × M → ℝ)
    (hB : ∀ x y, B x y = a x.1 y.1 + b y.1 x.2 + b x.1 y.2) :
    Nonsingular (V.prod Q) B ↔ ∀ q ∈ Q, (∀ v ∈ V, b v q = 0) → q = 0 := by
  constructor
  · intro h q hq hv
    have e := (h 0).unique (y₁ := 0) (y₂ := (0, q)) ⟨Submodule.zero_mem _, fun y _ => by
      rw [hB]; simp⟩ ⟨⟨V.zero_mem, hq⟩, fun y hy => by
      rw [hB]; simp [hv y.1 hy.1]⟩
    exact (congrArg Prod.snd e).symm
  · intro hb F
    obtain ⟨⟨w, p⟩, hx, hu⟩ := (Solvable.saddle_iff (a.compl₁₂ V.subtype V.subtype)
      (b.compl₁₂ V.subtype Q.subtype)
      (fun w hw hq => Subtype.ext (ha w w.2 hw fun q hq' => hq ⟨q, hq'⟩))
      ((F.comp (LinearMap.inl ℝ X M)).comp V.subtype)
      ((F.comp (LinearMap.inr ℝ X M)).comp Q.subtype)).2
      (fun q hq => Subtype.ext (hb q q.2 fun v hv => hq ⟨v, hv⟩))
    have eF : ∀ y : X × M, F y = F (y.1, 0) + F (0, y.2) := fun y => by
      rw [← map_add]; simp
    refine ⟨(w, p), ⟨⟨w.2, p.2⟩, fun y hy => ?_⟩, ?_⟩
    · have h0 : a w y.1 + b y.1 p = F (y.1, 0) := hx.1 ⟨y.1, hy.1⟩
      have h1 : b w y.2 = F (0, y.2) := hx.2 ⟨y.2, hy.2⟩
      rw [hB, eF, ← h0, ← h1]
    · rintro ⟨z, r⟩ ⟨hm, hz⟩
      have := hu (⟨z, hm.1⟩, ⟨r, hm.2⟩) ⟨fun v => by
        have h0 := hz (v, 0) ⟨v.2, Q.zero_mem⟩
        rw [hB] at h0
        show a z v + b v r = F ((v : X), (0 : M))
        simpa using h0, fun q => by
        have h0 := hz (0, q) ⟨V.zero_mem, q.2⟩
        rw [hB] at h0
        show b z q = F ((0 : X), (q : M))
        simpa using h0⟩
      rw [Prod.mk.injEq] at this
      rw [← this.1, ← this.2]
end

section
variable {X Y M : Type} [AddCommGroup X] [Module ℝ X] [AddCommGroup Y] [Module ℝ Y] [AddCommGroup M]
  [Module ℝ M]

/-- Saddle point systems with a penalty. -/
theorem penalized_iff (V : Submodule ℝ X) (Q : Submodule ℝ M) [FiniteDimensional ℝ V]
    [FiniteDimensional ℝ Q] (a : X →ₗ[ℝ] X →ₗ[ℝ] ℝ) (b : X →ₗ[ℝ] M →ₗ[ℝ] ℝ) (c : M →ₗ[ℝ] M →ₗ[ℝ] ℝ)
    (ha : Apps.Energy a) (hc : Apps.Energy c) (B : X × M → X × M → ℝ)
    (hB : ∀ x y, B x y = a x.1 y.1 + b y.1 x.2 + b x.1 y.2 - c x.2 y.2) :
    Nonsingular (V.prod Q) B ↔
      (∀ v ∈ V, a v v = 0 → (∀ q ∈ Q, b v q = 0) → v = 0) ∧
        ∀ q ∈ Q, c q q = 0 → (∀ v ∈ V, b v q = 0) → q = 0 := by
  constructor
  · refine fun h => ⟨fun v hv h0 hq => ?_, fun q hq h0 hv => ?_⟩
    · have e := (h 0).unique (y₁ := 0) (y₂ := (v, 0)) ⟨Submodule.zero_mem _, fun y _ => by
        rw [hB]; simp⟩ ⟨⟨hv, Q.zero_mem⟩, fun y hy => by
        rw [hB]; simp [hq y.2 hy.2, Multipliers.energy_zero ha h0]⟩
      exact (congrArg Prod.fst e).symm
    · have e := (h 0).unique (y₁ := 0) (y₂ := (0, q)) ⟨Submodule.zero_mem _, fun y _ => by
        rw [hB]; simp⟩ ⟨⟨V.zero_mem, hq⟩, fun y hy => by
        rw [hB]; simp [hv y.1 hy.1, Multipliers.energy_zero hc h0]⟩
      exact (congrArg Prod.snd e).symm
  · rintro ⟨h1, h2⟩
    have := finite_prod V Q
    let f1 := LinearMap.fst ℝ X M
    let f2 := LinearMap.snd ℝ X M
    let L : (X × M) →ₗ[ℝ] (X × M) →ₗ[ℝ] ℝ :=
      a.compl₁₂ f1 f1 + b.flip.compl₁₂ f2 f1 + b.compl₁₂ f1 f2 - c.compl₁₂ f2 f2
    have e : B = fun x y => L x y := funext fun x => funext fun y => hB x y
    rw [e]
    refine of_kernel _ L fun x hx h => ?_
    have hL : ∀ y, L x y = a x.1 y.1 + b y.1 x.2 + b x.1 y.2 - c x.2 y.2 := fun _ => rfl
    have r0 := h (x.1, -x.2) ⟨hx.1, Q.neg_mem hx.2⟩
    simp only [hL, map_neg] at r0
    have n1 := ha.nonneg x.1
    have n2 := hc.nonneg x.2
    have z1 : a x.1 x.1 = 0 := by linarith
    have z2 : c x.2 x.2 = 0 := by linarith
    refine Prod.ext (h1 _ hx.1 z1 fun q hq => ?_) (h2 _ hx.2 z2 fun v hv => ?_)
    · have := h (0, q) ⟨V.zero_mem, hq⟩
      rw [hL] at this
      simpa [Multipliers.energy_zero hc z2] using this
    · have := h (v, 0) ⟨hv, Q.zero_mem⟩
      rw [hL] at this
      simpa [Multipliers.energy_zero ha z1] using this

theorem reassoc (V : Submodule ℝ X) (U : Submodule ℝ Y) (Q : Submodule ℝ M)
    (B : X × Y × M → X × Y × M → ℝ) :
    Nonsingular (V.prod (U.prod Q)) B ↔ Nonsingular ((V.prod U).prod Q) fun x y =>
      B (x.1.1, x.1.2, x.2) (y.1.1, y.1.2, y.2) := by
  let e : ((X × Y) × M) ≃ₗ[ℝ] X × Y × M := LinearEquiv.prodAssoc ℝ X Y M
  constructor
  · intro h F
    obtain ⟨x, ⟨hx, hs⟩, hu⟩ := h (F.comp e.symm.toLinearMap)
    exact ⟨((x.1, x.2.1), x.2.2), ⟨⟨⟨hx.1, hx.2.1⟩, hx.2.2⟩, fun y hy =>
      hs (y.1.1, y.1.2, y.2) ⟨hy.1.1, hy.1.2, hy.2⟩⟩, fun z hz => by
      rw [← hu (z.1.1, z.1.2, z.2) ⟨⟨hz.1.1.1, hz.1.1.2, hz.1.2⟩, fun y hy =>
        hz.2 ((y.1, y.2.1), y.2.2) ⟨⟨hy.1, hy.2.1⟩, hy.2.2⟩⟩]⟩
  · intro h F
    obtain ⟨x, ⟨hx, hs⟩, hu⟩ := h (F.comp e.toLinearMap)
    exact ⟨(x.1.1, x.1.2, x.2), ⟨⟨hx.1.1, hx.1.2, hx.2⟩, fun y hy =>
      hs ((y.1, y.2.1), y.2.2) ⟨⟨hy.1, hy.2.1⟩, hy.2.2⟩⟩, fun z hz => by
      rw [← hu ((z.1, z.2.1), z.2.2) ⟨⟨⟨hz.1.1, hz.1.2.1⟩, hz.1.2.2⟩, fun y hy =>
        hz.2 (y.1.1, y.1.2, y.2) ⟨hy.1.1, hy.1.2, hy.2⟩⟩]⟩
end

variable {A : Type} [CommRing A] [Algebra ℝ A]

/-- Products of vectors. -/
def dotForm : Vec A →ₗ[ℝ] Vec A →ₗ[ℝ] A :=
  LinearMap.mk₂ ℝ dot (fun x x' y => by simp only [dot, Prod.fst_add, Prod.snd_add]; ring)
    (fun k x y => by simp only [dot, Prod.smul_fst, Prod.smul_snd]; simp only [Algebra.smul_def]; ring)
    (fun x y y' => by simp only [dot, Prod.fst_add, Prod.snd_add]; ring)
    (fun k x y => by simp only [dot, Prod.smul_fst, Prod.smul_snd]; simp only [Algebra.smul_def]; ring)

/-- A component of a vector times a function. -/
def fluxForm (n : Vec A) : Vec A →ₗ[ℝ] A →ₗ[ℝ] A :=
  LinearMap.mk₂ ℝ (fun v l => l * dot v n)
    (fun x x' y => by simp only [dot, Prod.fst_add, Prod.snd_add]; ring)
    (fun k x y => by simp only [dot, Prod.smul_fst, Prod.smul_snd]; simp only [Algebra.smul_def]; ring)
    (fun x y y' => by ring)
    (fun k x y => by simp only [Algebra.smul_def]; ring)

variable [Smooth A]

/-- Products of symmetric gradients. -/
noncomputable def strainForm (mu : ℝ) : Vec A →ₗ[ℝ] Vec A →ₗ[ℝ] A :=
  LinearMap.mk₂ ℝ (fun u v => c (2 * mu) * Mms.inner (sym (gradV u)) (sym (gradV v)))
    (fun x x' y => by
      simp only [Mms.inner, sym, gradV, grad, dot, Prod.fst_add, Prod.snd_add, map_add]; ring)
    (fun k x y => by
      simp only [Mms.inner, sym, gradV, grad, dot, Prod.smul_fst, Prod.smul_snd, Derivation.map_smul]; simp only [Algebra.smul_def]; ring)
    (fun x y y' => by
      simp only [Mms.inner, sym, gradV, grad, dot, Prod.fst_add, Prod.snd_add, map_add]; ring)
    (fun k x y => by
      simp only [Mms.inner, sym, gradV, grad, dot, Prod.smul_fst, Prod.smul_snd, Derivation.map_smul]; simp only [Algebra.smul_def]; ring)

/-- The divergence times a function. -/
def divForm : Vec A →ₗ[ℝ] A →ₗ[ℝ] A :=
  LinearMap.mk₂ ℝ (fun v q => - (q * div v))
    (fun x x' y => by simp only [div, Prod.fst_add, Prod.snd_add, map_add]; ring)
    (fun k x y => by
      simp only [div, Prod.smul_fst, Prod.smul_snd, Derivation.map_smul]; simp only [Algebra.smul_def]; ring)
    (fun x y y' => by ring)
    (fun k x y => by simp only [Algebra.smul_def]; ring)

theorem dot_nonneg {vol : A →ₗ[ℝ] ℝ} (h : Minimise.SqNonneg vol) (v : Vec A) : 0 ≤ vol (dot v v) := by
  rw [dot, map_add]
  exact add_nonneg (h _) (h _)

theorem prod_energy {vol : A →ₗ[ℝ] ℝ} (h : SqNonneg vol) : Apps.Energy (Solvable.prod vol) :=
  ⟨fun u v => by rw [Solvable.prod_apply, mul_comm]; rfl, h⟩

theorem Energy.comp {X Y : Type} [AddCommGroup X] [Module ℝ X] [AddCommGroup Y] [Module ℝ Y]
    {a : Y →ₗ[ℝ] Y →ₗ[ℝ] ℝ} (h : Apps.Energy a) (f : X →ₗ[ℝ] Y) : Apps.Energy (a.compl₁₂ f f) :=
  ⟨fun u v => h.symm (f u) (f v), fun u => h.nonneg (f u)⟩

theorem Energy.add {X : Type} [AddCommGroup X] [Module ℝ X] {a b : X →ₗ[ℝ] X →ₗ[ℝ] ℝ}
    (h : Apps.Energy a) (h' : Apps.Energy b) : Apps.Energy (a + b) :=
  ⟨fun u v => congrArg₂ (· + ·) (h.symm u v) (h'.symm u v), fun u => add_nonneg (h.nonneg u) (h'.nonneg u)⟩

theorem Energy.smul {X : Type} [AddCommGroup X] [Module ℝ X] {a : X →ₗ[ℝ] X →ₗ[ℝ] ℝ} {k : ℝ}
    (hk : 0 ≤ k) (h : Apps.Energy a) : Apps.Energy (k • a) :=
  ⟨fun u v => congrArg (k * ·) (h.symm u v), fun u => mul_nonneg hk (h.nonneg u)⟩

theorem Energy.zero {X : Type} [AddCommGroup X] [Module ℝ X] :
    Apps.Energy (0 : X →ₗ[ℝ] X →ₗ[ℝ] ℝ) := ⟨fun _ _ => rfl, fun _ => le_rfl⟩

theorem stiff_energy {vol : A →ₗ[ℝ] ℝ} (h : SqNonneg vol) {k m : ℝ} (hk : 0 ≤ k) (hm : 0 ≤ m) :
    Apps.Energy (Solvable.stiff vol k m) :=
  Energy.add (Energy.smul hk (Energy.add (Energy.comp (prod_energy h) _) (Energy.comp (prod_energy h) _)))
    (Energy.smul hm (prod_energy h))

/-! Velocities along `(x, 0)` and constant pressures on the unit square -/

theorem unit_vol_one : unitSquare.vol 1 = 1 := by
  show (∫ x in (0 : ℝ)..1, ∫ y in (0 : ℝ)..1, (1 : ℝ)) = 1
  simp

theorem unit_vol_sq : unitSquare.vol (X * X) = 1 / 3 := by
  show (∫ x in (0 : ℝ)..1, ∫ y in (0 : ℝ)..1, x * x) = 1 / 3
  simp only [intervalIntegral.integral_const, sub_zero, one_smul, ← pow_two, integral_pow]
  norm_num

theorem strain_X : Mms.inner (sym (gradV ((X, 0) : Vec Sm))) (sym (gradV (X, 0))) = 1 := by
  simp [Mms.inner, sym, gradV, grad, dot, dx_X, dy_X]

theorem unit_strain (u : Vec Sm) (hu : u ∈ Submodule.span ℝ {((X, 0) : Vec Sm)})
    (h : unitSquare.vol (c 2 * Mms.inner (sym (gradV u)) (sym (gradV u))) = 0) : u = 0 := by
  obtain ⟨k, rfl⟩ := Submodule.mem_span_singleton.1 hu
  have e : Mms.inner (sym (gradV (k • ((X, 0) : Vec Sm)))) (sym (gradV (k • ((X, 0) : Vec Sm)))) =
      c (k * k) := by
    simp [Mms.inner, sym, gradV, grad, dot, dx_X, dy_X, c, Algebra.smul_def]
  rw [e, vol_c, ← mul_one (c (k * k)), vol_c, unit_vol_one] at h
  have : k = 0 := by nlinarith
  rw [this, zero_smul]

theorem unit_div (p : Sm) (hp : p ∈ Submodule.span ℝ {(1 : Sm)})
    (h : unitSquare.vol (- (p * div ((X, 0) : Vec Sm))) = 0) : p = 0 := by
  obtain ⟨k, rfl⟩ := Submodule.mem_span_singleton.1 hp
  have e : div ((X, 0) : Vec Sm) = 1 := by simp [div, dx_X]
  rw [e, mul_one, map_neg, map_smul, unit_vol_one] at h
  have : k = 0 := by simpa using h
  rw [this, zero_smul]

end Verif.Nonsingular
