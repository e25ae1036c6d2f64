import Verif.Lemmas.Mms
import Mathlib.MeasureTheory.Integral.IntervalIntegral.FundThmCalculus
import Mathlib.MeasureTheory.Integral.DivergenceTheorem
import Mathlib.MeasureTheory.Integral.DominatedConvergence
import Mathlib.Analysis.Calculus.FDeriv.Symmetric
import Mathlib.Analysis.Calculus.ContDiff.Operations
import Mathlib.Analysis.SpecialFunctions.Trigonometric.Deriv
import Mathlib.Analysis.SpecialFunctions.ExpDeriv

/-! # Smooth functions on the plane and integrals over rectangles -/

namespace Verif.Mms
open scoped ContDiff
open MeasureTheory

/-- Smooth functions on the plane. -/
def Sm : Subalgebra ℝ (ℝ × ℝ → ℝ) where
  carrier := {f | ContDiff ℝ ∞ f}
  mul_mem' := fun {f g} (hf : ContDiff ℝ ∞ f) (hg : ContDiff ℝ ∞ g) => hf.mul hg
  add_mem' := fun {f g} (hf : ContDiff ℝ ∞ f) (hg : ContDiff ℝ ∞ g) => hf.add hg
  algebraMap_mem' r := (contDiff_const : ContDiff ℝ ∞ fun _ : ℝ × ℝ => r)

theorem sm_smooth (f : Sm) : ContDiff ℝ ∞ f.1 := f.2

theorem sm_diff (f : Sm) (p : ℝ × ℝ) : DifferentiableAt ℝ f.1 p :=
  ((sm_smooth f).differentiable (by simp)).differentiableAt

/-- Derivative in the direction `e`. -/
noncomputable def along (e : ℝ × ℝ) : Derivation ℝ Sm Sm :=
  Derivation.mk'
    { toFun := fun f => ⟨fun p => fderiv ℝ f.1 p e,
        ((sm_smooth f).fderiv_right (m := ∞) (by simp)).clm_apply contDiff_const⟩
      map_add' := fun f g => by
        ext p
        show fderiv ℝ (f.1 + g.1) p e = _
        rw [fderiv_add ((sm_diff f) p) ((sm_diff g) p)]; rfl
      map_smul' := fun r f => by
        ext p
        show fderiv ℝ (r • f.1) p e = _
        rw [fderiv_const_smul ((sm_diff f) p)]; rfl }
    (fun f g => by
      ext p
      show fderiv ℝ (f.1 * g.1) p e = f.1 p * fderiv ℝ g.1 p e + g.1 p * fderiv ℝ f.1 p e
      rw [fderiv_mul ((sm_diff f) p) ((sm_diff g) p)]; rfl)

theorem along_apply (e : ℝ × ℝ) (f : Sm) (p : ℝ × ℝ) : (along e f).1 p = fderiv ℝ f.1 p e := rfl

theorem along_comm (e d : ℝ × ℝ) (f : Sm) : along e (along d f) = along d (along e f) := by
  have key : ∀ (e d : ℝ × ℝ) (p : ℝ × ℝ),
      (along e (along d f)).1 p = fderiv ℝ (fderiv ℝ f.1) p e d := by
    intro e d p
    have h : DifferentiableAt ℝ (fderiv ℝ f.1) p :=
      (((sm_smooth f).fderiv_right (m := ∞) (by simp)).differentiable (by simp)).differentiableAt
    show fderiv ℝ (fun q => fderiv ℝ f.1 q d) p e = _
    rw [fderiv_clm_apply h (differentiableAt_const _)]
    simp
  ext p
  show (along e (along d f)).1 p = (along d (along e f)).1 p
  rw [key, key]
  exact ((sm_smooth f).contDiffAt.isSymmSndFDerivAt (by
    simp only [minSmoothness_of_isRCLikeNormedField]; exact WithTop.coe_le_coe.2 (le_top : (2 : ℕ∞) ≤ ⊤))) e d

noncomputable instance : Smooth Sm where
  dx := along (1, 0)
  dy := along (0, 1)
  comm f := along_comm _ _ f

theorem sm_cont (f : Sm) : Continuous f.1 := (sm_smooth f).continuous

/-- Integral over a vertical segment. -/
noncomputable def vert (x a b : ℝ) : Sm →ₗ[ℝ] ℝ where
  toFun f := ∫ y in a..b, f.1 (x, y)
  map_add' f g := intervalIntegral.integral_add
    (((sm_cont f).comp (by fun_prop)).intervalIntegrable _ _)
    (((sm_cont g).comp (by fun_prop)).intervalIntegrable _ _)
  map_smul' r f := intervalIntegral.integral_smul r _

/-- Integral over a horizontal segment. -/
noncomputable def horz (y a b : ℝ) : Sm →ₗ[ℝ] ℝ where
  toFun f := ∫ x in a..b, f.1 (x, y)
  map_add' f g := intervalIntegral.integral_add
    (((sm_cont f).comp (by fun_prop)).intervalIntegrable _ _)
    (((sm_cont g).comp (by fun_prop)).intervalIntegrable _ _)
  map_smul' r f := intervalIntegral.integral_smul r _

theorem sm_cont_inner (f : Sm) (a b : ℝ) : Continuous fun x => ∫ y in a..b, f.1 (x, y) :=
  intervalIntegral.continuous_parametric_intervalIntegral_of_continuous' (f := fun x y => f.1 (x, y))
    ((sm_cont f).comp (by fun_prop)) a b

/-- Integral over a rectangle. -/
noncomputable def area (a b a' b' : ℝ) : Sm →ₗ[ℝ] ℝ where
  toFun f := ∫ x in a..b, ∫ y in a'..b', f.1 (x, y)
  map_add' f g := by
    rw [← intervalIntegral.integral_add (((sm_cont_inner f) _ _).intervalIntegrable _ _)
      (((sm_cont_inner g) _ _).intervalIntegrable _ _)]
    congr 1; ext x
    exact (vert x a' b').map_add f g
  map_smul' r f := by
    rw [RingHom.id_apply, ← intervalIntegral.integral_smul]
    congr 1; ext x
    exact (vert x a' b').map_smul r f

/-- The divergence theorem on a rectangle. -/
theorem area_div (a b a' b' : ℝ) (F : Vec Sm) :
    area a b a' b' (div F) =
      vert a a' b' (dot F (cvec (outward 1))) + vert b a' b' (dot F (cvec (outward 2)))
        + horz a' a b (dot F (cvec (outward 3))) + horz b' a b (dot F (cvec (outward 4))) := by
  have h := integral2_divergence_prod_of_hasFDerivAt F.1.1 F.2.1 (fderiv ℝ F.1.1) (fderiv ℝ F.2.1)
    a a' b b' (sm_cont F.1).continuousOn (sm_cont F.2).continuousOn
    (fun p _ => ((sm_diff F.1) p).hasFDerivAt) (fun p _ => ((sm_diff F.2) p).hasFDerivAt)
    (((sm_cont (along (1, 0) F.1 + along (0, 1) F.2)).continuousOn).integrableOn_compact
      (isCompact_uIcc.prod isCompact_uIcc))
  rw [dot_out1, dot_out2, dot_out3, dot_out4, map_neg, map_neg]
  have e : area a b a' b' (div F) = _ := h
  rw [e]
  show _ = -(∫ y in a'..b', F.1.1 (a, y)) + (∫ y in a'..b', F.1.1 (b, y)) +
    -(∫ x in a..b, F.2.1 (x, a')) + ∫ x in a..b, F.2.1 (x, b')
  ring

/-- The unit square of the demos. -/
noncomputable def unitSquare : Square Sm where
  vol := area 0 1 0 1
  side
    | 1 => vert 0 0 1
    | 2 => vert 1 0 1
    | 3 => horz 0 0 1
    | 4 => horz 1 0 1
    | _ => 0
  green F := area_div 0 1 0 1 F

/-- The square `[0.25, 0.75]^2` in the unit square. -/
noncomputable def immersed : Immersed Sm where
  outer := area 0 1 0 1 - area (1/4) (3/4) (1/4) (3/4)
  inner := area (1/4) (3/4) (1/4) (3/4)
  side
    | 1 => vert (1/4) (1/4) (3/4)
    | 2 => vert (3/4) (1/4) (3/4)
    | 3 => horz (1/4) (1/4) (3/4)
    | 4 => horz (3/4) (1/4) (3/4)
    | 5 => vert 0 0 1
    | 6 => vert 1 0 1
    | 7 => horz 0 0 1
    | 8 => horz 1 0 1
    | _ => 0
  greenInner F := area_div _ _ _ _ F
  greenOuter F := by
    rw [LinearMap.sub_apply, area_div, area_div]; rfl

/-- Value at a point. -/
def evalAt (p : ℝ × ℝ) : Sm →ₐ[ℝ] ℝ := (Pi.evalAlgHom ℝ (fun _ => ℝ) p).comp Sm.val

theorem vert_dy (x a b : ℝ) (f : Sm) : vert x a b (dy f) = f.1 (x, b) - f.1 (x, a) := by
  have hd : ∀ y, HasDerivAt (fun y => f.1 (x, y)) ((dy f).1 (x, y)) y := by
    intro y
    have h1 := ((sm_diff f) (x, y)).hasFDerivAt
    have h2 : HasDerivAt (fun y : ℝ => (x, y)) (0, 1) y :=
      (hasDerivAt_const y x).prodMk (hasDerivAt_id y)
    exact h1.comp_hasDerivAt y h2
  exact intervalIntegral.integral_eq_sub_of_hasDerivAt (fun y _ => hd y)
    (((sm_cont (dy f)).comp (by fun_prop)).intervalIntegrable _ _)

/-- The unit square cut at `x = 0.5`. -/
noncomputable def halved : Halved Sm where
  left := area 0 (1/2) 0 1
  right := area (1/2) 1 0 1
  side
    | 1 => vert 0 0 1
    | 2 => vert 1 0 1
    | 3 => horz 0 0 (1/2)
    | 4 => horz 0 (1/2) 1
    | 5 => horz 1 0 (1/2)
    | 6 => horz 1 (1/2) 1
    | 7 => vert (1/2) 0 1
    | _ => 0
  atEnd
    | 0 => evalAt (1/2, 0)
    | 1 => evalAt (1/2, 1)
  greenLeft F := area_div _ _ _ _ F
  greenRight F := area_div _ _ _ _ F
  along f := vert_dy _ _ _ f

/-- A function which is zero on the segment vanishes there. -/
theorem vert_vanishes {x a b : ℝ} {f : Sm} (h : ∀ y, f.1 (x, y) = 0) (w : Sm) :
    vert x a b (w * f) = 0 := by
  show ∫ y in a..b, w.1 (x, y) * f.1 (x, y) = 0
  simp [h]

theorem horz_vanishes {y a b : ℝ} {f : Sm} (h : ∀ x, f.1 (x, y) = 0) (w : Sm) :
    horz y a b (w * f) = 0 := by
  show ∫ x in a..b, w.1 (x, y) * f.1 (x, y) = 0
  simp [h]

/-- The smooth function `g ∘ w`. -/
def comp (g : ℝ → ℝ) (hg : ContDiff ℝ ∞ g) (w : Sm) : Sm := ⟨g ∘ w.1, hg.comp (sm_smooth w)⟩

theorem along_comp (g : ℝ → ℝ) (hg : ContDiff ℝ ∞ g) (w : Sm) (e p : ℝ × ℝ) :
    (along e (comp g hg w)).1 p = deriv g (w.1 p) * (along e w).1 p := by
  have h1 : HasDerivAt g (deriv g (w.1 p)) (w.1 p) :=
    (hg.differentiable (by simp)).differentiableAt.hasDerivAt
  show fderiv ℝ (g ∘ w.1) p e = _
  rw [(h1.comp_hasFDerivAt p ((sm_diff w) p).hasFDerivAt).fderiv]
  rfl

/-- The coordinates -/
def X : Sm := ⟨Prod.fst, (contDiff_fst : ContDiff ℝ ∞ (Prod.fst : ℝ × ℝ → ℝ))⟩
def Y : Sm := ⟨Prod.snd, (contDiff_snd : ContDiff ℝ ∞ (Prod.snd : ℝ × ℝ → ℝ))⟩

theorem dx_X : dx X = 1 := by
  ext p
  show fderiv ℝ (Prod.fst : ℝ × ℝ → ℝ) p (1, 0) = 1
  rw [fderiv_fst]; rfl

theorem dy_X : dy X = 0 := by
  ext p
  show fderiv ℝ (Prod.fst : ℝ × ℝ → ℝ) p (0, 1) = 0
  rw [fderiv_fst]; rfl

theorem dx_Y : dx Y = 0 := by
  ext p
  show fderiv ℝ (Prod.snd : ℝ × ℝ → ℝ) p (1, 0) = 0
  rw [fderiv_snd]; rfl

theorem dy_Y : dy Y = 1 := by
  ext p
  show fderiv ℝ (Prod.snd : ℝ × ℝ → ℝ) p (0, 1) = 1
  rw [fderiv_snd]; rfl

/-- `sin(w)` -/
noncomputable def sinS (w : Sm) : Sm := comp Real.sin Real.contDiff_sin w
/-- `cos(w)` -/
noncomputable def cosS (w : Sm) : Sm := comp Real.cos Real.contDiff_cos w

theorem along_sinS (e : ℝ × ℝ) (w : Sm) : along e (sinS w) = cosS w * along e w := by
  ext p
  show (along e (comp Real.sin Real.contDiff_sin w)).1 p = _
  rw [along_comp, Real.deriv_sin]; rfl

theorem along_cosS (e : ℝ × ℝ) (w : Sm) : along e (cosS w) = - (sinS w * along e w) := by
  ext p
  show (along e (comp Real.cos Real.contDiff_cos w)).1 p = _
  rw [along_comp, Real.deriv_cos]
  show - Real.sin (w.1 p) * (along e w).1 p = - (Real.sin (w.1 p) * (along e w).1 p)
  ring

theorem dx_sinS (w : Sm) : dx (sinS w) = cosS w * dx w := along_sinS _ w
theorem dy_sinS (w : Sm) : dy (sinS w) = cosS w * dy w := along_sinS _ w
theorem dx_cosS (w : Sm) : dx (cosS w) = - (sinS w * dx w) := along_cosS _ w
theorem dy_cosS (w : Sm) : dy (cosS w) = - (sinS w * dy w) := along_cosS _ w

end Verif.Mms
