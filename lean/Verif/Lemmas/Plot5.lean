import Verif.Lemmas.Plot4
import Verif.Props.Shape
/-! Lemmas about the rings of circles and of squares. -/
namespace Verif.Plot
open Verif Verif.Shape Verif.Shape.V3
open Verif.BlockOps (pyMap pyGet pyMap_ok pyGet_ok pyMap_eq_ok)

theorem forall₂_left {α β : Type} {R : α → β → Prop} {l : List α} {m : List β} (h : List.Forall₂ R l m) :
    ∀ a ∈ l, ∃ b, R a b := by
  induction h with
  | nil => simp
  | cons h _ ih =>
    intro a ha
    rcases List.mem_cons.1 ha with rfl | ha
    · exact ⟨_, h⟩
    · exact ih a ha

/-- A point of the circle with centre `x`. -/
noncomputable def onFrame (a b x : V3) (R t : ℝ) : V3 := x + R • (Real.cos (Real.pi * t) • a + Real.sin (Real.pi * t) • b)

/-- The circles with the same normal have the same directions. -/
theorem circle_frame {n : V3} (hn : norm n ≠ 0) (hv : NotNearlyVertical n) :
    ∃ a b : V3, dot a a = 1 ∧ dot b b = 1 ∧ dot a b = 0 ∧ dot n a = 0 ∧ dot n b = 0 ∧
      ∀ (radius : V3 → ℝ) (xq wq : List ℝ) (x0 : V3), xq ≠ [] →
        ring (circleQuadrature radius xq wq) x0 n = .ok (xq.map (onFrame a b x0 (radius x0))) := by
  set r := rotRows (rotAxis (unit n)) (dot ez (unit n)) √(1 - dot ez (unit n) ^ 2) with hr
  have hu := unit_dot hn
  have hiso := rot_isometry (axis_unit (unit n)) (sc_one hu)
  rw [← hr] at hiso
  have ha := image_facts (x0 := ⟨0, 0, 0⟩) hn 1 (by norm_num) (⟨1, 0, 0⟩ : V3) rfl
  have hb := image_facts (x0 := ⟨0, 0, 0⟩) hn 1 (by norm_num) (⟨0, 1, 0⟩ : V3) rfl
  have e : ∀ y : V3, (⟨0, 0, 0⟩ : V3) + (1 : ℝ) • y - (⟨0, 0, 0⟩ : V3) = y := by
    intro y; ext <;> simp
  simp only [e, ← hr] at ha hb
  refine ⟨rotApply r ⟨1, 0, 0⟩, rotApply r ⟨0, 1, 0⟩, by rw [hiso]; simp [dot], by rw [hiso]; simp [dot],
    by rw [hiso]; simp [dot], by rw [dot_symm]; exact ha.2.2 hv, by rw [dot_symm]; exact hb.2.2 hv,
    fun radius xq wq x0 hx => ?_⟩
  rw [ring, circleQuadrature, mapPts_ok (fun x _ => mapFromReference_ok (radius x0) x hn)]
  simp only [py_bind_ok, List.map_map, ← hr]
  rw [rowStack, if_neg (by simpa using hx)]
  congr 1
  refine List.map_congr_left (fun t _ => ?_)
  simp only [Function.comp, onFrame]
  congr 2
  ext <;> simp [rotApply, dot] <;> ring

theorem onFrame_dots {a b x : V3} {R t : ℝ} (ha : dot a a = 1) (hb : dot b b = 1) (hab : dot a b = 0) :
    dot (onFrame a b x R t - x) a = R * Real.cos (Real.pi * t) ∧ dot (onFrame a b x R t - x) b = R * Real.sin (Real.pi * t) := by
  have e : onFrame a b x R t - x = R • (Real.cos (Real.pi * t) • a + Real.sin (Real.pi * t) • b) := by
    ext <;> simp [onFrame]
  have s : ∀ u v w : V3, dot (u + v) w = dot u w + dot v w := fun u v w => by
    simp only [dot, add_x, add_y, add_z]; ring
  rw [e]
  constructor
  · rw [dot_smul_left, s, dot_smul_left, dot_smul_left, ha, dot_symm b a, hab]; ring
  · rw [dot_smul_left, s, dot_smul_left, dot_smul_left, hb, hab]; ring

theorem direction_unit {a b : V3} {t : ℝ} (ha : dot a a = 1) (hb : dot b b = 1) (hab : dot a b = 0) :
    norm (Real.cos t • a + Real.sin t • b) = 1 := by
  refine norm_eq_of_sq (by norm_num) ?_
  have : dot (Real.cos t • a + Real.sin t • b) (Real.cos t • a + Real.sin t • b) =
      Real.cos t ^ 2 * dot a a + Real.sin t ^ 2 * dot b b + 2 * Real.cos t * Real.sin t * dot a b := by
    simp only [dot, add_x, add_y, add_z, smul_x, smul_y, smul_z]; ring
  rw [this, ha, hb, hab]
  linear_combination Real.cos_sq_add_sin_sq t

theorem direction_normal {a b n : V3} {t : ℝ} (ha : dot n a = 0) (hb : dot n b = 0) :
    dot (Real.cos t • a + Real.sin t • b) n = 0 := by
  have : dot (Real.cos t • a + Real.sin t • b) n = Real.cos t * dot n a + Real.sin t * dot n b := by
    simp only [dot, add_x, add_y, add_z, smul_x, smul_y, smul_z]; ring
  rw [this, ha, hb]; ring

/-- Points of the circle in the order of increasing parameters. -/
theorem frame_outline {a b n x : V3} {R : ℝ} {xq : List ℝ} (ha : dot a a = 1) (hb : dot b b = 1) (hab : dot a b = 0)
    (hna : dot n a = 0) (hnb : dot n b = 0) (hR : 0 < R) (hin : ∀ t ∈ xq, -1 ≤ t ∧ t ≤ 1)
    (hs : xq.Pairwise (· ≤ ·)) : Outline n (xq.map (onFrame a b x R)) := by
  have hpi := Real.pi_pos
  have hg : ∀ i, (hi : i < xq.length) → xq.getD i 0 = xq[i] := fun i hi => by
    rw [List.getD_eq_getElem?_getD, List.getElem?_eq_getElem hi, Option.getD_some]
  refine outline_of_angles (o := x) (rho := fun _ => R) (theta := fun i => Real.pi * xq.getD i 0) (a := 0) (b := 0) (R := R)
    ha hb hab hna hnb (by have := pow_pos hR 2; linarith) (fun _ _ => hR.le) ?_ ?_ ?_ ?_
  · intro i p hp
    rw [List.getElem?_map] at hp
    cases hx : xq[i]? with
    | none => rw [hx] at hp; simp at hp
    | some t =>
      rw [hx, Option.map_some, Option.some.injEq] at hp
      rw [← hp, List.getD_eq_getElem?_getD, hx, Option.getD_some]
      exact onFrame_dots ha hb hab
  · intro p hp
    obtain ⟨t, _, rfl⟩ := List.mem_map.1 hp
    rw [(onFrame_dots ha hb hab).1, (onFrame_dots ha hb hab).2]
    linear_combination R ^ 2 * Real.cos_sq_add_sin_sq (Real.pi * t)
  · intro i j hij hj
    rw [List.length_map] at hj
    rw [hg i (by omega), hg j hj]
    rcases Nat.lt_or_ge i j with h | h
    · exact mul_le_mul_of_nonneg_left (List.pairwise_iff_getElem.1 hs i j (by omega) hj h) hpi.le
    · have : i = j := by omega
      subst this; exact le_refl _
  · intro i j hi hj
    rw [List.length_map] at hi hj
    rw [hg i hi, hg j hj]
    have h1 := (hin _ (List.getElem_mem hi)).1
    have h2 := (hin _ (List.getElem_mem hj)).2
    nlinarith

/-- Different parameters inside of the interval give different points. -/
theorem onFrame_injective {a b x : V3} {R s t : ℝ} (ha : dot a a = 1) (hb : dot b b = 1) (hab : dot a b = 0)
    (hR : 0 < R) (hs : -1 < s ∧ s < 1) (ht : -1 < t ∧ t < 1) (h : onFrame a b x R s = onFrame a b x R t) : s = t := by
  have hpi := Real.pi_pos
  have h1 := (onFrame_dots (x := x) (R := R) (t := s) ha hb hab)
  have h2 := (onFrame_dots (x := x) (R := R) (t := t) ha hb hab)
  rw [h] at h1
  have hc : Real.cos (Real.pi * s) = Real.cos (Real.pi * t) := mul_left_cancel₀ hR.ne' (h1.1.symm.trans h2.1)
  have hsn : Real.sin (Real.pi * s) = Real.sin (Real.pi * t) := mul_left_cancel₀ hR.ne' (h1.2.symm.trans h2.2)
  have hd : Real.cos (Real.pi * s - Real.pi * t) = 1 := by
    rw [Real.cos_sub, hc, hsn]; linear_combination Real.cos_sq_add_sin_sq (Real.pi * t)
  have hz := (Real.cos_eq_one_iff_of_lt_of_lt (x := Real.pi * s - Real.pi * t) (by nlinarith) (by nlinarith)).1 hd
  have : Real.pi * (s - t) = 0 := by linarith
  have := (mul_eq_zero.1 this).resolve_left hpi.ne'
  linarith

/-- The points of `SquareRim` at a node, one on each side. -/
noncomputable def sides (x0 w w' : V3) (x : ℝ) : List V3 :=
  [(0.5 * (1 - x)) • (x0 + w) + (0.5 * (1 + x)) • (x0 + w'),
   (0.5 * (1 - x)) • (x0 + w') + (0.5 * (1 + x)) • (x0 - w),
   (0.5 * (1 - x)) • (x0 - w) + (0.5 * (1 + x)) • (x0 - w'),
   (0.5 * (1 - x)) • (x0 - w') + (0.5 * (1 + x)) • (x0 + w)]

theorem rim_points {P : V3 → V3} {xq wq : List ℝ} (hin : ∀ t ∈ xq, -1 ≤ t ∧ t ≤ 1) {x0 n : V3}
    (hn : norm n ≠ 0) (hp : dot (P x0 - x0) n = 0) (hne : xq ≠ []) :
    ring (rimQuadrature P xq wq) x0 n = .ok (xq.map (sides x0 (P x0 - x0) (cross (unit n) (P x0 - x0)))).flatten := by
  set m := unit n with hm
  set w := P x0 - x0 with hw
  have hmm : dot m m = 1 := unit_dot hn
  have hwm : dot w m = 0 := by rw [hm, dot_unit, hp, zero_div]
  have hmw : dot m w = 0 := by rw [Shape.dot_comm, hwm]
  have hP : P x0 = x0 + w := by ext <;> simp [hw]
  have hcorners : rimCorners x0 n (P x0) = .ok [x0 + w, x0 + cross m w, x0 - w, x0 - cross m w] := by
    rw [rimCorners, if_neg hn]
    have hd : decide (|dot (P x0 - x0) ((norm n)⁻¹ • n)| < 1e-13) = true := decide_eq_true (by
      change |dot w m| < _
      rw [hwm]; norm_num)
    simp only [hd, pyAssert_true, py_bind_ok]
    change Except.ok [P x0, rotated x0 m w (Real.pi / 2), x0 - w, rotated x0 m w (3 * Real.pi / 2)] = _
    rw [rotated_quarter, rotated_three_quarters, hmw, hP]
    congr 2
    · congr 1
      · ext <;> simp
      · congr 2
        ext <;> simp
  have hmap : ∀ x : ℝ, (-1 ≤ x ∧ x ≤ 1) →
      rimMap [x0 + w, x0 + cross m w, x0 - w, x0 - cross m w] x = .ok (sides x0 w (cross m w) x) := by
    intro x hx
    have : decide (|x| < 1 + 1e-13) = true := by
      have a1 : |x| ≤ 1 := abs_le.2 hx
      exact decide_eq_true (by linarith [show (0:ℝ) < 1e-13 by norm_num])
    rw [rimMap, this, pyAssert_true, py_bind_ok]
    rfl
  rw [ring, rimQuadrature, hcorners]
  simp only [py_bind_ok]
  rw [hmap (-1) (by norm_num)]
  simp only [sides, py_bind_ok]
  rw [mapPts_ok (fun x hx => hmap x (hin x hx)), py_bind_ok, py_bind_ok, rowStack, if_neg]
  cases xq with
  | nil => exact absurd rfl hne
  | cons t xq => simp [sides]

end Verif.Plot
