import Verif.Model.Apps
import Mathlib.Tactic.LinearCombination
import Mathlib.Tactic.FieldSimp
import Mathlib.Tactic.Linarith

/-!
# The coupled problems of apps/

`V3`, `V`, `Q`, ... are the finite element spaces, arbitrary subspaces here.
-/

namespace Verif.Apps
open Verif.Minimise

variable {X Y Z : Type} [AddCommGroup X] [Module ℝ X] [AddCommGroup Y] [Module ℝ Y]
  [AddCommGroup Z] [Module ℝ Z]

/-! ### apps/enumath -/

/-- With a multiplier, the problem is the one without where the average of the unknown (but not that
of the test function) is projected to the space of the multiplier, and the multiplier is the flux. -/
theorem has_multiplier_iff (P : Problem X Y) (hm : Inner P.m) (hr : 0 < P.radius) (hG : 0 < P.kG)
    (V3 : Submodule ℝ X) (V Q : Submodule ℝ Y) (hV : V ≤ Q) (f : X) (g : Y) (u3 : X) (u p w : Y)
    (hw : IsProj P.m Q (P.avg u3) w) :
    Has.Solves P V3 V Q f g u3 u p ↔ NotHas.SolvesWith P V3 V f g w u3 u ∧
      p = (2 * Real.pi * P.radius * P.kG) • (u - w) := by
  have hk : 2 * Real.pi * P.radius * P.kG ≠ 0 := by have := Real.pi_pos; positivity
  have e0 : ∀ v, Has.row0 P u3 ((2 * Real.pi * P.radius * P.kG) • (u - w)) v =
      NotHas.row0 P u3 w u v := fun v => by
    simp only [Has.row0, NotHas.row0, map_smul, map_sub, LinearMap.smul_apply, LinearMap.sub_apply,
      smul_eq_mul]
    ring
  have e1 : ∀ v, Has.row1 P u ((2 * Real.pi * P.radius * P.kG) • (u - w)) v =
      NotHas.row1 P w u v := fun v => by
    simp only [Has.row1, NotHas.row1, map_smul, map_sub, LinearMap.smul_apply, LinearMap.sub_apply,
      smul_eq_mul, hm.symm v w]
    ring
  constructor
  · intro h
    have hp : p = (2 * Real.pi * P.radius * P.kG) • (u - w) := by
      by_contra hne
      have hd := hm.pos _ (sub_ne_zero.2 hne)
      have hq : p - (2 * Real.pi * P.radius * P.kG) • (u - w) ∈ Q :=
        Q.sub_mem h.memQ (Q.smul_mem _ (Q.sub_mem (hV h.mem1) hw.1))
      generalize hy : p - (2 * Real.pi * P.radius * P.kG) • (u - w) = y at *
      have h2 := h.eq2 _ hq
      have hwq := hw.2 _ hq
      rw [Has.row2, Has.pConst, hm.symm y (P.avg u3), ← hwq, hm.symm y u] at h2
      have hyy : P.m y y = P.m p y - 2 * Real.pi * P.radius * P.kG * (P.m u y - P.m w y) := by
        nth_rw 1 [← hy]
        simp only [map_smul, map_sub, LinearMap.smul_apply, LinearMap.sub_apply, smul_eq_mul]
      have : P.m p y = 2 * Real.pi * P.radius * P.kG * (P.m u y - P.m w y) := by
        field_simp at h2
        linarith
      linarith
    subst hp
    exact ⟨⟨h.mem3, h.mem1, fun v hv => (e0 v).symm.trans (h.eq0 v hv),
      fun v hv => (e1 v).symm.trans (h.eq1 v hv)⟩, rfl⟩
  · rintro ⟨h, rfl⟩
    refine ⟨h.mem3, h.mem1, Q.smul_mem _ (Q.sub_mem (hV h.mem1) hw.1),
      fun v hv => (e0 v).trans (h.eq0 v hv), fun v hv => (e1 v).trans (h.eq1 v hv), fun q hq => ?_⟩
    have hwq := hw.2 _ hq
    rw [Has.row2, Has.pConst, hm.symm q (P.avg u3), ← hwq, hm.symm q u]
    simp only [map_smul, map_sub, LinearMap.smul_apply, LinearMap.sub_apply, smul_eq_mul]
    field_simp
    ring

/-- If the averages of the functions in the volume are in the space of the multiplier, then
apps/enumath/has_multiplier.py and apps/enumath/not_has_multiplier.py have the same solutions. -/
theorem multiplier_eliminated_partial (P : Problem X Y) (hm : Inner P.m) (hr : 0 < P.radius)
    (hG : 0 < P.kG) (V3 : Submodule ℝ X) (V Q : Submodule ℝ Y) (hV : V ≤ Q)
    (hQ : ∀ v ∈ V3, P.avg v ∈ Q) (f : X) (g : Y) (u3 : X) (u : Y) :
    NotHas.Solves P V3 V f g u3 u ↔ ∃ p, Has.Solves P V3 V Q f g u3 u p := by
  constructor
  · intro h
    exact ⟨_, (has_multiplier_iff P hm hr hG V3 V Q hV f g u3 u _ _
      ⟨hQ _ h.mem3, fun _ _ => rfl⟩).2 ⟨h, rfl⟩⟩
  · rintro ⟨p, h⟩
    exact ((has_multiplier_iff P hm hr hG V3 V Q hV f g u3 u p _
      ⟨hQ _ h.mem3, fun _ _ => rfl⟩).1 h).1

/-- A function in the volume whose average is not in the space `V = Q` of functions on the curve. -/
noncomputable def kinked : Problem ℝ (ℝ × ℝ) where
  e3 := 0
  s3 := LinearMap.mul ℝ ℝ
  e1 := 0
  s1 := 0
  m := (LinearMap.mul ℝ ℝ).compl₁₂ (LinearMap.fst ℝ ℝ ℝ) (LinearMap.fst ℝ ℝ ℝ)
    + (LinearMap.mul ℝ ℝ).compl₁₂ (LinearMap.snd ℝ ℝ ℝ) (LinearMap.snd ℝ ℝ ℝ)
  avg := LinearMap.prod LinearMap.id LinearMap.id
  radius := 1
  k3d := 1
  k1d := 1
  kG := 1 / (2 * Real.pi)
  kbdry := 1

theorem kinked_m (y z : ℝ × ℝ) : kinked.m y z = y.1 * z.1 + y.2 * z.2 := rfl

theorem kinked_inner : Inner kinked.m where
  symm y z := by rw [kinked_m, kinked_m]; ring
  pos y hy := by
    rw [kinked_m]
    rcases y with ⟨a, b⟩
    have : a ≠ 0 ∨ b ≠ 0 := by
      by_contra h
      push Not at h
      exact hy (Prod.ext h.1 h.2)
    rcases this with h | h
    · have := mul_self_pos.2 h
      have := mul_self_nonneg b
      show 0 < a * a + b * b
      linarith
    · have := mul_self_pos.2 h
      have := mul_self_nonneg a
      show 0 < a * a + b * b
      linarith

theorem kinked_const : 2 * Real.pi * kinked.radius * kinked.kG = 1 := by
  have := Real.pi_ne_zero
  show 2 * Real.pi * 1 * (1 / (2 * Real.pi)) = 1
  field_simp

/-- The functions on the curve. -/
def axis : Submodule ℝ (ℝ × ℝ) := LinearMap.ker (LinearMap.snd ℝ ℝ ℝ)

/-- The two programs have in general different solutions, each unique: averages are discontinuous
piecewise linear, the multipliers continuous. -/
theorem multiplier_changes_solution :
    Inner kinked.m ∧ 0 < kinked.radius ∧ 0 < kinked.kG ∧
      (∀ u3 u, NotHas.Solves kinked ⊤ axis 1 0 u3 u ↔ u3 = 1 / 2 ∧ u = (1 / 2, 0)) ∧
      ∀ u3 u p, Has.Solves kinked ⊤ axis axis 1 0 u3 u p ↔ u3 = 1 ∧ u = (1, 0) ∧ p = 0 := by
  have hG : 0 < kinked.kG := by
    have := Real.pi_pos
    show 0 < 1 / (2 * Real.pi)
    positivity
  have r0 : ∀ (u3 : ℝ) (a u : ℝ × ℝ) (v : ℝ), NotHas.row0 kinked u3 a u v =
      (u3 + (a.1 + a.2) - (u.1 + u.2)) * v := fun u3 a u v => by
    rw [NotHas.row0, kinked_const, kinked_m, kinked_m]
    show 1 * 0 + 1 * (u3 * v) + 1 * (a.1 * v + a.2 * v) - 1 * (u.1 * v + u.2 * v) = _
    ring
  have r1 : ∀ a u v : ℝ × ℝ, NotHas.row1 kinked a u v =
      (u.1 - a.1) * v.1 + (u.2 - a.2) * v.2 := fun a u v => by
    rw [NotHas.row1, kinked_const, kinked_m, kinked_m]
    show Real.pi * 1 ^ 2 * 1 * 0 + 0 + 1 * (u.1 * v.1 + u.2 * v.2) - 1 * (v.1 * a.1 + v.2 * a.2) = _
    ring
  have s0 : ∀ v : ℝ, rhs0 kinked 1 v = v := fun v => by
    show 1 * (1 * v) = v
    ring
  have s1 : ∀ v : ℝ × ℝ, rhs1 kinked 0 v = 0 := fun v => by
    rw [rhs1, map_zero, LinearMap.zero_apply, mul_zero]
  have ax : ∀ y : ℝ × ℝ, y ∈ axis ↔ y.2 = 0 := fun y => Iff.rfl
  have key : ∀ (u3 : ℝ) (a u : ℝ × ℝ), NotHas.SolvesWith kinked ⊤ axis 1 0 a u3 u ↔
      u.2 = 0 ∧ u3 + (a.1 + a.2) - (u.1 + u.2) = 1 ∧ u.1 = a.1 := fun u3 a u => by
    constructor
    · intro h
      refine ⟨(ax u).1 h.mem1, ?_, ?_⟩
      · have := h.eq0 1 trivial
        rw [r0, s0] at this
        linarith
      · have := h.eq1 (1, 0) rfl
        rw [r1, s1] at this
        norm_num at this
        linarith
    · rintro ⟨h, h', h''⟩
      refine ⟨trivial, (ax u).2 h, fun v _ => ?_, fun v hv => ?_⟩
      · rw [r0, s0, h', one_mul]
      · rw [r1, s1, h'', (ax v).1 hv]; ring
  refine ⟨kinked_inner, zero_lt_one, hG, fun u3 u => ?_, fun u3 u p => ?_⟩
  · rw [NotHas.Solves, key]
    show u.2 = 0 ∧ u3 + (u3 + u3) - (u.1 + u.2) = 1 ∧ u.1 = u3 ↔ _
    rw [Prod.ext_iff]
    constructor
    · rintro ⟨h, h', h''⟩
      exact ⟨by linarith, show u.1 = 1 / 2 by linarith, h⟩
    · rintro ⟨rfl, h : u.1 = 1 / 2, h' : u.2 = 0⟩
      exact ⟨h', by linarith, h⟩
  · rw [has_multiplier_iff kinked kinked_inner zero_lt_one hG ⊤ axis axis le_rfl 1 0 u3 u p (u3, 0)
      ⟨rfl, fun q hq => by
        rw [kinked_m, kinked_m, (ax q).1 hq, mul_zero, mul_zero]; rfl⟩, key, kinked_const, one_smul]
    show (u.2 = 0 ∧ u3 + (u3 + 0) - (u.1 + u.2) = 1 ∧ u.1 = u3) ∧ _ ↔ _
    constructor
    · rintro ⟨⟨h, h', h''⟩, rfl⟩
      have e3 : u3 = 1 := by linarith
      subst e3
      obtain rfl : u = (1, 0) := Prod.ext h'' h
      exact ⟨rfl, rfl, sub_self _⟩
    · rintro ⟨rfl, rfl, rfl⟩
      norm_num

/-! ### apps/d123 -/

/-- A solution of the block system of apps/d123/solving.py minimises the energy in its header (with
squares) subject to the constraints there. -/
theorem nested_minimises (N : Nested X Y Z) (h3 : Energy N.e3) (h2 : Energy N.e2) (h1 : Energy N.e1)
    (hG : Inner N.mG) (V3 : Submodule ℝ X) (V2 Q2 : Submodule ℝ Y)
    (V1 Q1 : Submodule ℝ Z) (f : Z) {u3 : X} {u2 p2 : Y} {u1 p1 : Z}
    (h : N.Solves V3 V2 Q2 V1 Q1 f u3 u2 u1 p2 p1) :
    Minimises (Nest N.mS N.mG N.tS N.tG V3 V2 Q2 V1 Q1 f) (nestEnergy N.e3 N.e2 N.e1) (u3, u2, u1) ∧
      ∀ y ∈ Nest N.mS N.mG N.tS N.tG V3 V2 Q2 V1 Q1 f, nestEnergy N.e3 N.e2 N.e1 y =
        nestEnergy N.e3 N.e2 N.e1 (u3, u2, u1) + nestEnergy N.e3 N.e2 N.e1 (y - (u3, u2, u1)) := by
  have hx : (u3, u2, u1) ∈ Nest N.mS N.mG N.tS N.tG V3 V2 Q2 V1 Q1 f :=
    ⟨h.mem3, h.mem2, h.mem1, fun q hq => by
      rw [map_sub]; exact h.eq3 q hq, fun q hq => by
      rw [map_sub, hG.symm q f]; exact h.eq4 q hq⟩
  have gap : ∀ y ∈ Nest N.mS N.mG N.tS N.tG V3 V2 Q2 V1 Q1 f, nestEnergy N.e3 N.e2 N.e1 y =
      nestEnergy N.e3 N.e2 N.e1 (u3, u2, u1) + nestEnergy N.e3 N.e2 N.e1 (y - (u3, u2, u1)) := by
    rintro ⟨y3, y2, y1⟩ ⟨m3, m2, m1, c2, c1⟩
    obtain ⟨w3, rfl⟩ : ∃ w, y3 = u3 + w := ⟨y3 - u3, by abel⟩
    obtain ⟨w2, rfl⟩ : ∃ w, y2 = u2 + w := ⟨y2 - u2, by abel⟩
    obtain ⟨w1, rfl⟩ : ∃ w, y1 = u1 + w := ⟨y1 - u1, by abel⟩
    have k3 : w3 ∈ V3 := by have := V3.sub_mem m3 h.mem3; rwa [add_sub_cancel_left] at this
    have k2 : w2 ∈ V2 := by have := V2.sub_mem m2 h.mem2; rwa [add_sub_cancel_left] at this
    have k1 : w1 ∈ V1 := by have := V1.sub_mem m1 h.mem1; rwa [add_sub_cancel_left] at this
    have r0 := h.eq0 _ k3
    have r1 := h.eq1 _ k2
    have r2 := h.eq2 _ k1
    have d2 := c2 _ h.memS
    have d1 := c1 _ h.memG
    have d2' := hx.2.2.2.1 _ h.memS
    have d1' := hx.2.2.2.2 _ h.memG
    simp only [Nested.row0, Nested.row1, Nested.row2, map_add, map_sub] at r0 r1 r2 d2 d1 d2' d1'
    simp only [nestEnergy, Prod.mk_sub_mk, add_sub_cancel_left, map_add, LinearMap.add_apply,
      h3.symm w3 u3, h2.symm w2 u2, h1.symm w1 u1]
    linarith
  refine ⟨⟨hx, fun y hy => ?_⟩, gap⟩
  rw [gap y hy]
  have := h3.nonneg (y - (u3, u2, u1)).1
  have := h2.nonneg (y - (u3, u2, u1)).2.1
  have := h1.nonneg (y - (u3, u2, u1)).2.2
  simp only [nestEnergy]
  linarith

/-- The block system of apps/d123/solving.py never has exactly one solution: nothing is prescribed
on the boundary, so the same constant can be added to the three functions. -/
theorem nested_not_unique (N : Nested X Y Z) (V3 : Submodule ℝ X) (V2 Q2 : Submodule ℝ Y)
    (V1 Q1 : Submodule ℝ Z) (f : Z) (one : X) (hne : one ≠ 0) (m3 : one ∈ V3) (m2 : N.tS one ∈ V2)
    (m1 : N.tG (N.tS one) ∈ V1) (g3 : ∀ v, N.e3 one v = 0) (g2 : ∀ v, N.e2 (N.tS one) v = 0)
    (g1 : ∀ v, N.e1 (N.tG (N.tS one)) v = 0) {u3 : X} {u2 p2 : Y} {u1 p1 : Z}
    (h : N.Solves V3 V2 Q2 V1 Q1 f u3 u2 u1 p2 p1) :
    N.Solves V3 V2 Q2 V1 Q1 f (u3 + one) (u2 + N.tS one) (u1 + N.tG (N.tS one)) p2 p1 ∧
      u3 + one ≠ u3 := by
  refine ⟨⟨V3.add_mem h.mem3 m3, V2.add_mem h.mem2 m2, V1.add_mem h.mem1 m1, h.memS, h.memG,
    fun v hv => ?_, fun v hv => ?_, fun v hv => ?_, fun q hq => ?_, fun q hq => ?_⟩, by simpa⟩
  · rw [← h.eq0 v hv, Nested.row0, Nested.row0, map_add, LinearMap.add_apply, g3, add_zero]
  · rw [← h.eq1 v hv, Nested.row1, Nested.row1, map_add, LinearMap.add_apply, g2, add_zero]
  · rw [← h.eq2 v hv, Nested.row2, Nested.row2, map_add, LinearMap.add_apply, g1, add_zero]
  · rw [← h.eq3 q hq, Nested.row3, Nested.row3, map_add, map_add, map_add]; ring
  · rw [← h.eq4 q hq, Nested.row4, Nested.row4, map_add, map_add, map_add]; ring

/-! ### The hypotheses can be met -/

-- averages in the space of the multiplier
example : ∀ v ∈ (⊤ : Submodule ℝ ℝ), kinked.avg v ∈ (⊤ : Submodule ℝ (ℝ × ℝ)) := fun _ _ => trivial

example (u3 : ℝ) (u : ℝ × ℝ) (f : ℝ) (g : ℝ × ℝ) :
    NotHas.Solves kinked ⊤ axis f g u3 u ↔ ∃ p, Has.Solves kinked ⊤ axis ⊤ f g u3 u p :=
  multiplier_eliminated_partial kinked kinked_inner zero_lt_one (by
    have := Real.pi_pos
    show 0 < 1 / (2 * Real.pi)
    positivity) ⊤ axis ⊤ le_top (fun _ _ => trivial) f g u3 u

/-- Functions given by two values in the volume, one of them on the surface and the curve. -/
def tiny : Nested (ℝ × ℝ) ℝ ℝ where
  e3 := (LinearMap.mul ℝ ℝ).compl₁₂ (LinearMap.fst ℝ ℝ ℝ - LinearMap.snd ℝ ℝ ℝ)
    (LinearMap.fst ℝ ℝ ℝ - LinearMap.snd ℝ ℝ ℝ)
  e2 := 0
  e1 := 0
  mS := LinearMap.mul ℝ ℝ
  mG := LinearMap.mul ℝ ℝ
  tS := LinearMap.fst ℝ ℝ ℝ
  tG := LinearMap.id

-- a solution with a jump on the curve
theorem tiny_solves : tiny.Solves ⊤ ⊤ ⊤ ⊤ ⊤ 5 (2, 2) 2 (-3) 0 0 where
  mem3 := trivial
  mem2 := trivial
  mem1 := trivial
  memS := trivial
  memG := trivial
  eq0 v _ := by
    show (2 - 2) * (v.1 - v.2) + 0 * v.1 = (0 : ℝ)
    ring
  eq1 v _ := by
    show 0 - 0 * v + 0 * v = (0 : ℝ)
    ring
  eq2 v _ := by
    show 0 - 0 * v = (0 : ℝ)
    ring
  eq3 q _ := by
    show q * 2 - q * 2 = (0 : ℝ)
    ring
  eq4 q _ := by
    show q * 2 - q * (-3) = (5 : ℝ) * q
    ring

example : Energy tiny.e3 ∧ Energy tiny.e2 ∧ Inner tiny.mG ∧
    (∀ v, tiny.e3 (1, 1) v = 0) ∧ tiny.Solves ⊤ ⊤ ⊤ ⊤ ⊤ 5 (3, 3) 3 (-2) 0 0 := by
  have g : ∀ v, tiny.e3 (1, 1) v = 0 := fun v => by
    show (1 - 1) * (v.1 - v.2) = (0 : ℝ)
    ring
  refine ⟨⟨fun u v => mul_comm (u.1 - u.2) (v.1 - v.2), fun u => mul_self_nonneg (u.1 - u.2)⟩,
    ⟨fun _ _ => rfl, fun _ => le_rfl⟩, ⟨fun y z => mul_comm y z, fun y hy => mul_self_pos.2 hy⟩, g, ?_⟩
  have := (nested_not_unique tiny ⊤ ⊤ ⊤ ⊤ ⊤ 5 (1, 1) (by simp) trivial trivial trivial g
    (fun _ => rfl) (fun _ => rfl) tiny_solves).1
  convert! this using 1
  · norm_num
  · show (3 : ℝ) = 2 + 1
    norm_num
  · show (-2 : ℝ) = -3 + 1
    norm_num

end Verif.Apps
