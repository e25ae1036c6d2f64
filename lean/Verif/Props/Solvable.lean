import Verif.Lemmas.Solvable
import Verif.Props.Minimise
import Verif.Props.Apps

/-!
# Block systems with exactly one solution

`V`, `Q`, ... are the finite element spaces, arbitrary subspaces of finite dimension here.
-/

namespace Verif.Solvable
open Verif.Mms Verif.Minimise

section Demos
variable {A : Type} [CommRing A] [Algebra ℝ A] [Smooth A]

/-- demo/poisson_babuska.py and demo/poisson_babuska_3d.py have exactly one discrete solution if and
only if no multiplier but zero is orthogonal to the traces. -/
theorem babuska_exists_unique_iff (vol bdry : A →ₗ[ℝ] ℝ) (hv : SqNonneg vol) (V Q : Submodule ℝ A)
    [FiniteDimensional ℝ V] [FiniteDimensional ℝ Q] (hV : Definite vol V) (f d g : A) :
    (∃! x : A × A, Babuska vol bdry V Q f d g x.1 x.2) ↔
      ∀ q ∈ Q, (∀ v ∈ V, bdry (v * q) = 0) → q = 0 := by
  refine affine_iff (a := stiff vol 1 1) (b := prod bdry) V Q
    (fun v hv' h => hV v hv' (stiff_definite hv zero_le_one one_pos h)) (prod vol f) (prod bdry g) d _
    fun u p => ?_
  simp only [stiff_apply, one_mul, prod_apply]
  exact ⟨fun h => ⟨h.mem, h.memQ, h.eq0, h.eq1⟩, fun h => ⟨h.1, h.2.1, h.2.2.1, h.2.2.2⟩⟩

/-- Each step of demo/time_dep.py has exactly one solution if and only if no multiplier but zero is
orthogonal to the traces. -/
theorem heat_exists_unique_iff (vol bdry : A →ₗ[ℝ] ℝ) (hv : SqNonneg vol) (dt : ℝ) (hdt : 0 < dt)
    (V Q : Submodule ℝ A) [FiniteDimensional ℝ V] [FiniteDimensional ℝ Q] (hV : Definite vol V)
    (u0 f d g : A) :
    (∃! x : A × A, Heat vol bdry dt V Q u0 f d g x.1 x.2) ↔
      ∀ q ∈ Q, (∀ v ∈ V, bdry (v * q) = 0) → q = 0 := by
  refine affine_iff (a := stiff vol 1 (1 / dt)) (b := prod bdry) V Q
    (fun v hv' h => hV v hv' (stiff_definite hv zero_le_one (one_div_pos.2 hdt) h))
    ((1 / dt) • prod vol u0 + prod vol f) (prod bdry g) d _ fun u p => ?_
  simp only [stiff_apply, one_mul, prod_apply, LinearMap.add_apply, LinearMap.smul_apply, smul_eq_mul]
  constructor
  · rintro ⟨h, h', h0, h1⟩
    refine ⟨h, h', fun v hv' => ?_, h1⟩
    have := h0 v hv'
    rw [Heat.row0, Heat.rhs0, vol_c, vol_c, mul_comm p v] at this
    exact this
  · rintro ⟨h, h', h0, h1⟩
    refine ⟨h, h', fun v hv' => ?_, h1⟩
    rw [Heat.row0, Heat.rhs0, vol_c, vol_c, mul_comm p v]
    exact h0 v hv'

/-- demo/layer_2d.py has exactly one discrete solution if and only if no multiplier but zero is
orthogonal to the restrictions from both domains. -/
theorem layer_exists_unique_iff (vol1 vol2 volO : A →ₗ[ℝ] ℝ) (hv1 : SqNonneg vol1)
    (hv2 : SqNonneg vol2) (k1 k2 : ℝ) (hk1 : 0 ≤ k1) (hk2 : 0 ≤ k2) (V1 V2 Q : Submodule ℝ A)
    [FiniteDimensional ℝ V1] [FiniteDimensional ℝ V2] [FiniteDimensional ℝ Q]
    (h1 : Definite vol1 V1) (h2 : Definite vol2 V2) (f1 f2 g : A) :
    (∃! x : A × A × A, Layer vol1 vol2 volO k1 k2 V1 V2 Q f1 f2 g x.1 x.2.1 x.2.2) ↔
      ∀ q ∈ Q, (∀ v ∈ V1, volO (v * q) = 0) → (∀ v ∈ V2, volO (v * q) = 0) → q = 0 := by
  let a : (V1 × V2) →ₗ[ℝ] (V1 × V2) →ₗ[ℝ] ℝ :=
    (stiff vol1 k1 1).compl₁₂ (V1.subtype.comp (LinearMap.fst ℝ V1 V2))
      (V1.subtype.comp (LinearMap.fst ℝ V1 V2))
    + (stiff vol2 k2 1).compl₁₂ (V2.subtype.comp (LinearMap.snd ℝ V1 V2))
      (V2.subtype.comp (LinearMap.snd ℝ V1 V2))
  let b : (V1 × V2) →ₗ[ℝ] Q →ₗ[ℝ] ℝ :=
    (prod volO).compl₁₂ (V1.subtype.comp (LinearMap.fst ℝ V1 V2)
      - V2.subtype.comp (LinearMap.snd ℝ V1 V2)) Q.subtype
  let F : (V1 × V2) →ₗ[ℝ] ℝ := ((prod vol1 f1).comp V1.subtype).coprod ((prod vol2 f2).comp V2.subtype)
  let G : Q →ₗ[ℝ] ℝ := (prod volO g).comp Q.subtype
  have ea : ∀ x y, a x y = k1 * vol1 (dot (grad (x.1 : A)) (grad (y.1 : A))) + vol1 (x.1 * y.1)
      + (k2 * vol2 (dot (grad (x.2 : A)) (grad (y.2 : A))) + vol2 (x.2 * y.2)) := fun x y => by
    have : a x y = stiff vol1 k1 1 x.1 y.1 + stiff vol2 k2 1 x.2 y.2 := rfl
    rw [this, stiff_apply, stiff_apply, one_mul, one_mul]
  have eb : ∀ x q, b x q = volO (x.1 * q) - volO (x.2 * q) := fun x q => by
    have : b x q = volO ((x.1 - x.2) * q) := rfl
    rw [this, sub_mul, map_sub]
  have h := saddle_iff a b (fun w hw _ => by
    have hw' : stiff vol1 k1 1 w.1 w.1 + stiff vol2 k2 1 w.2 w.2 = 0 := hw
    have n1 : 0 ≤ stiff vol1 k1 1 w.1 w.1 := stiff_nonneg hv1 hk1 zero_le_one _
    have n2 : 0 ≤ stiff vol2 k2 1 w.2 w.2 := stiff_nonneg hv2 hk2 zero_le_one _
    exact Prod.ext
      (Subtype.ext (h1 _ w.1.2 (stiff_definite hv1 hk1 one_pos (by linarith))))
      (Subtype.ext (h2 _ w.2.2 (stiff_definite hv2 hk2 one_pos (by linarith))))) F G
  have e : ∀ (w : V1 × V2) (p : Q), Layer vol1 vol2 volO k1 k2 V1 V2 Q f1 f2 g w.1 w.2 p ↔
      Saddle a b F G (w, p) := by
    intro w p
    constructor
    · intro h
      refine ⟨fun v => ?_, fun q => ?_⟩
      · have e0 := h.eq0 v.1 v.1.2
        have e1 := h.eq1 v.2 v.2.2
        rw [ea, eb]
        show _ = vol1 (f1 * v.1) + vol2 (f2 * v.2)
        simp only [Layer.row0, Layer.row1, Layer.rhs, vol_c] at e0 e1
        linarith
      · rw [eb]; exact h.eq2 q q.2
    · rintro ⟨h0, h1⟩
      refine ⟨w.1.2, w.2.2, p.2, fun v hv => ?_, fun v hv => ?_, fun q hq => ?_⟩
      · have := h0 (⟨v, hv⟩, 0)
        rw [ea, eb] at this
        change _ = vol1 (f1 * v) + vol2 (f2 * (0 : A)) at this
        simp only [dot, grad, Submodule.coe_zero, map_zero, mul_zero, zero_mul, add_zero, sub_zero]
          at this
        simpa only [Layer.row0, Layer.rhs, vol_c, dot, grad] using this
      · have := h0 (0, ⟨v, hv⟩)
        rw [ea, eb] at this
        change _ = vol1 (f1 * (0 : A)) + vol2 (f2 * v) at this
        simp only [dot, grad, Submodule.coe_zero, map_zero, mul_zero, zero_mul, add_zero, zero_add,
          zero_sub] at this
        simpa only [Layer.row1, Layer.rhs, vol_c, dot, grad, sub_eq_add_neg] using this
      · have := h1 ⟨q, hq⟩
        rwa [eb] at this
  have k : (∃! x : A × A × A, Layer vol1 vol2 volO k1 k2 V1 V2 Q f1 f2 g x.1 x.2.1 x.2.2) ↔
      ∃! x, Saddle a b F G x := by
    constructor
    · rintro ⟨⟨u1, u2, p⟩, hx, hu⟩
      refine ⟨((⟨u1, hx.mem1⟩, ⟨u2, hx.mem2⟩), ⟨p, hx.memQ⟩), (e _ _).1 hx, ?_⟩
      rintro ⟨⟨w1, w2⟩, q⟩ hy
      have := hu (w1, w2, q) ((e (w1, w2) q).2 hy)
      simp only [Prod.mk.injEq] at this
      exact Prod.ext (Prod.ext (Subtype.ext this.1) (Subtype.ext this.2.1)) (Subtype.ext this.2.2)
    · rintro ⟨⟨⟨w1, w2⟩, p⟩, hx, hu⟩
      refine ⟨(w1, w2, p), (e (w1, w2) p).2 hx, ?_⟩
      rintro ⟨u1, u2, q⟩ hy
      have := hu ((⟨u1, hy.mem1⟩, ⟨u2, hy.mem2⟩), ⟨q, hy.memQ⟩) ((e _ _).1 hy)
      simp only [Prod.mk.injEq] at this
      rw [← this.1.1, ← this.1.2, ← this.2]
  rw [k, h]
  constructor
  · intro h q hq hv hv'
    exact congrArg Subtype.val (h ⟨q, hq⟩ fun v => by
      rw [eb]
      show volO (v.1 * q) - volO (v.2 * q) = 0
      rw [hv v.1 v.1.2, hv' v.2 v.2.2, sub_zero])
  · intro h q hv
    refine Subtype.ext (h q q.2 (fun v hv' => ?_) fun v hv' => ?_)
    · have := hv (⟨v, hv'⟩, 0)
      rw [eb] at this
      simpa using this
    · have := hv (0, ⟨v, hv'⟩)
      rw [eb] at this
      simpa using this

/-- demo/optim_control_L2.py has exactly one discrete solution, for all spaces of controls and of
states. -/
theorem optim_exists_unique (vol bdry : A →ₗ[ℝ] ℝ) (hv : SqNonneg vol) (hb : SqNonneg bdry) (eps : ℝ)
    (he : 0 < eps) (Q V : Submodule ℝ A) [FiniteDimensional ℝ Q] [FiniteDimensional ℝ V]
    (hQ : Definite vol Q) (hV : Definite vol V) (f : A) :
    ∃! x : A × A × A, Optim vol bdry eps Q V f x.1 x.2.1 x.2.2 := by
  let a : (Q × V) →ₗ[ℝ] (Q × V) →ₗ[ℝ] ℝ :=
    (eps • prod vol).compl₁₂ (Q.subtype.comp (LinearMap.fst ℝ Q V))
      (Q.subtype.comp (LinearMap.fst ℝ Q V))
    + (prod bdry).compl₁₂ (V.subtype.comp (LinearMap.snd ℝ Q V))
      (V.subtype.comp (LinearMap.snd ℝ Q V))
  let b : (Q × V) →ₗ[ℝ] V →ₗ[ℝ] ℝ :=
    (prod vol).compl₁₂ (Q.subtype.comp (LinearMap.fst ℝ Q V)) V.subtype
    + (stiff vol 1 1).compl₁₂ (V.subtype.comp (LinearMap.snd ℝ Q V)) V.subtype
  let F : (Q × V) →ₗ[ℝ] ℝ := LinearMap.coprod 0 ((prod bdry f).comp V.subtype)
  have ea : ∀ x y, a x y = eps * vol (x.1 * y.1) + bdry (x.2 * y.2) := fun x y => rfl
  have eb' : ∀ x q, b x q = vol (x.1 * q) + stiff vol 1 1 x.2 q := fun x q => rfl
  have eb : ∀ x q, b x q = vol (x.1 * q) + (vol (dot (grad (x.2 : A)) (grad (q : A))) + vol (x.2 * q)) :=
    fun x q => by rw [eb', stiff_apply, one_mul, one_mul]
  have hs : ∀ u : V, stiff vol 1 1 u u = 0 → u = 0 := fun u hu =>
    Subtype.ext (hV _ u.2 (stiff_definite hv zero_le_one one_pos hu))
  obtain ⟨⟨⟨p, u⟩, l⟩, hx, hu⟩ := (saddle_iff a b (fun w hw hw' => by
    have e1 := mul_nonneg he.le (hv (w.1 : A))
    have e2 := hb (w.2 : A)
    rw [ea] at hw
    have : eps * vol (w.1 * w.1) = 0 := by linarith
    have z1 : w.1 = 0 := Subtype.ext (hQ _ w.1.2 ((mul_eq_zero.1 this).resolve_left he.ne'))
    have z2 := hw' w.2
    rw [eb', z1, Submodule.coe_zero, zero_mul, map_zero, zero_add] at z2
    exact Prod.ext z1 (hs _ z2)) F (0 : V →ₗ[ℝ] ℝ)).2 (fun q hq => by
    have := hq (0, q)
    rw [eb', Submodule.coe_zero, zero_mul, map_zero, zero_add] at this
    exact hs _ this)
  have e : ∀ (w : Q × V) (l : V), Optim vol bdry eps Q V f w.1 w.2 l ↔ Saddle a b F 0 (w, l) := by
    intro w l
    constructor
    · intro h
      refine ⟨fun v => ?_, fun q => ?_⟩
      · have e0 := h.eq0 v.1 v.1.2
        have e1 := h.eq1 v.2 v.2.2
        rw [ea, eb]
        show _ = (0 : ℝ) + bdry (f * v.2)
        simp only [Optim.row0, Optim.row1, Optim.rhs1, vol_c, mul_comm _ f] at e0 e1
        linarith
      · rw [eb]; exact h.eq2 q q.2
    · rintro ⟨h0, h1⟩
      refine ⟨w.1.2, w.2.2, l.2, fun v hv => ?_, fun v hv => ?_, fun q hq => ?_⟩
      · have := h0 (⟨v, hv⟩, 0)
        rw [ea, eb] at this
        change _ = (0 : ℝ) + bdry (f * (0 : A)) at this
        simp only [dot, grad, Submodule.coe_zero, map_zero, mul_zero, zero_mul, add_zero] at this
        rw [Optim.row0, vol_c]
        exact this
      · have := h0 (0, ⟨v, hv⟩)
        rw [ea, eb] at this
        change _ = (0 : ℝ) + bdry (f * v) at this
        simp only [Submodule.coe_zero, map_zero, mul_zero, zero_mul, zero_add] at this
        rw [Optim.row1, Optim.rhs1, mul_comm v f]
        exact this
      · have := h1 ⟨q, hq⟩
        rwa [eb] at this
  refine ⟨(p, u, l), (e (p, u) l).2 hx, ?_⟩
  rintro ⟨p', u', l'⟩ hy
  have := hu ((⟨p', hy.memQ⟩, ⟨u', hy.mem⟩), ⟨l', hy.memB⟩) ((e _ _).1 hy)
  simp only [Prod.mk.injEq] at this
  rw [← this.1.1, ← this.1.2, ← this.2]

end Demos

/-! ### apps/enumath -/

section Apps
open Verif.Apps
variable {X Y : Type} [AddCommGroup X] [Module ℝ X] [AddCommGroup Y] [Module ℝ Y]

/-- apps/enumath/not_has_multiplier.py has exactly one solution. -/
theorem not_has_exists_unique (P : Problem X Y) (h : Sane P) (V3 : Submodule ℝ X)
    (V : Submodule ℝ Y) [FiniteDimensional ℝ V3] [FiniteDimensional ℝ V] (f : X) (g : Y) :
    ∃! x : X × Y, NotHas.Solves P V3 V f g x.1 x.2 := by
  obtain ⟨x, hx, hu⟩ := exists_unique_of_nondegenerate (notHasForm P V3 V) (fun x hx => by
    have := notHas_zero P h (x.1, x.2) (hx x)
    exact Prod.ext (Subtype.ext (congrArg Prod.fst this)) (Subtype.ext (congrArg Prod.snd this)))
    (load P V3 V f g)
  refine ⟨(x.1, x.2), (notHas_solves_iff P V3 V f g x).2 hx, fun y hy => ?_⟩
  have := hu (⟨y.1, hy.mem3⟩, ⟨y.2, hy.mem1⟩) ((notHas_solves_iff P V3 V f g _).1 hy)
  rw [← this]

/-- apps/enumath/has_multiplier.py has exactly one solution, with no condition on how the averages
relate to the multipliers. -/
theorem has_exists_unique (P : Problem X Y) (h : Sane P) (V3 : Submodule ℝ X)
    (V Q : Submodule ℝ Y) (hV : V ≤ Q) [FiniteDimensional ℝ V3] [FiniteDimensional ℝ V]
    [FiniteDimensional ℝ Q] (f : X) (g : Y) :
    ∃! x : X × Y × Y, Has.Solves P V3 V Q f g x.1 x.2.1 x.2.2 := by
  obtain ⟨x, hx, hu⟩ := exists_unique_of_nondegenerate (hasForm P V3 V Q)
    (hasForm_nondegenerate P h V3 V Q hV)
    ((load P V3 V f g).comp (LinearMap.prodMap LinearMap.id (LinearMap.fst ℝ V Q)))
  refine ⟨(x.1, x.2.1, x.2.2), (has_solves_iff P V3 V Q f g x).2 hx, fun y hy => ?_⟩
  have := hu (⟨y.1, hy.mem3⟩, ⟨y.2.1, hy.mem1⟩, ⟨y.2.2, hy.memQ⟩)
    ((has_solves_iff P V3 V Q f g _).1 hy)
  rw [← this]

/-! ### The hypotheses can be met -/

theorem kinked_sane : Sane kinked where
  e3 := ⟨fun _ _ => rfl, fun _ => le_rfl⟩
  s3 := ⟨fun u v => mul_comm u v, fun u => mul_self_nonneg u⟩
  e1 := ⟨fun _ _ => rfl, fun _ => le_rfl⟩
  s1 := ⟨fun _ _ => rfl, fun _ => le_rfl⟩
  m := kinked_inner
  definite u _ h := mul_self_eq_zero.1 h
  radius := zero_lt_one
  k3d := zero_lt_one
  k1d := zero_lt_one
  kG := by
    have := Real.pi_pos
    show 0 < 1 / (2 * Real.pi)
    positivity
  kbdry := zero_lt_one

example (f : ℝ) (g : ℝ × ℝ) : ∃! x : ℝ × (ℝ × ℝ) × (ℝ × ℝ),
    Has.Solves kinked ⊤ axis axis f g x.1 x.2.1 x.2.2 :=
  has_exists_unique kinked kinked_sane ⊤ axis axis le_rfl f g

end Apps

theorem definite_top : Definite LinearMap.id (⊤ : Submodule ℝ ℝ) := fun _ _ h => mul_self_eq_zero.1 h

theorem constants_nonneg (k : ℝ) (hk : 0 ≤ k) : SqNonneg (k • LinearMap.id : ℝ →ₗ[ℝ] ℝ) :=
  fun f => mul_nonneg hk (mul_self_nonneg f)

-- constant functions on the unit square with constant multipliers on its boundary
example (f d g : ℝ) :
    letI := constants
    ∃! x : ℝ × ℝ, Babuska LinearMap.id ((4 : ℝ) • LinearMap.id) ⊤ ⊤ f d g x.1 x.2 := by
  letI := constants
  refine (babuska_exists_unique_iff LinearMap.id _ (fun f => mul_self_nonneg f) ⊤ ⊤ definite_top
    f d g).2 fun q _ h => ?_
  have : (4 : ℝ) * (1 * q) = 0 := h 1 trivial
  linarith

-- all values are prescribed by `DirichletBC`, nothing is left for the multiplier
example (f d g : ℝ) :
    letI := constants
    ¬ ∃! x : ℝ × ℝ, Babuska LinearMap.id ((4 : ℝ) • LinearMap.id) ⊥ ⊤ f d g x.1 x.2 := by
  letI := constants
  rw [babuska_exists_unique_iff LinearMap.id _ (fun f => mul_self_nonneg f) ⊥ ⊤
    (fun v h _ => (Submodule.mem_bot ℝ).1 h) f d g]
  intro h
  refine one_ne_zero (h (1 : ℝ) trivial fun v hv => ?_)
  rw [(Submodule.mem_bot ℝ).1 hv, zero_mul, map_zero]

example (u0 f d g : ℝ) :
    letI := constants
    ∃! x : ℝ × ℝ, Heat LinearMap.id ((4 : ℝ) • LinearMap.id) (1 / 10) ⊤ ⊤ u0 f d g x.1 x.2 := by
  letI := constants
  refine (heat_exists_unique_iff LinearMap.id _ (fun f => mul_self_nonneg f) (1 / 10) (by norm_num) ⊤ ⊤
    definite_top u0 f d g).2 fun q _ h => ?_
  have : (4 : ℝ) * (1 * q) = 0 := h 1 trivial
  linarith

example (f1 f2 g : ℝ) :
    letI := constants
    ∃! x : ℝ × ℝ × ℝ, Layer LinearMap.id LinearMap.id ((1 / 2 : ℝ) • LinearMap.id) 2 3 ⊤ ⊤ ⊤ f1 f2 g
      x.1 x.2.1 x.2.2 := by
  letI := constants
  refine (layer_exists_unique_iff LinearMap.id LinearMap.id _ (fun f => mul_self_nonneg f)
    (fun f => mul_self_nonneg f) 2 3 (by norm_num) (by norm_num) ⊤ ⊤ ⊤ definite_top definite_top
    f1 f2 g).2 fun q _ h _ => ?_
  have : (1 / 2 : ℝ) * (1 * q) = 0 := h 1 trivial
  linarith

example (f : ℝ) :
    letI := constants
    ∃! x : ℝ × ℝ × ℝ, Optim LinearMap.id ((4 : ℝ) • LinearMap.id) 1 ⊤ ⊤ f x.1 x.2.1 x.2.2 := by
  letI := constants
  exact optim_exists_unique LinearMap.id _ (fun f => mul_self_nonneg f)
    (constants_nonneg 4 (by norm_num)) 1 one_pos ⊤ ⊤ definite_top definite_top f

end Verif.Solvable
