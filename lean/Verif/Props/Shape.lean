import Verif.Lemmas.Shape
/-!
# C36, C37: geometry of the averaging shapes

For all centres, normals, radii, corners and quadrature rules.
-/
namespace Verif.Shape
open Verif V3

/-! ## Constructors -/

theorem radius_number_positive {r : ℝ} {f : V3 → ℝ} (h : initRadius (.number r) = .ok f) :
    0 < r ∧ ∀ x, f x = r := by
  by_cases hr : 0 < r
  · simp only [initRadius, gt_iff_lt, hr, decide_true, pyAssert_true, py_bind_ok] at h
    exact ⟨hr, fun x => by rw [← Except.ok.inj h]⟩
  · simp [initRadius, hr] at h

/-! ## Circle -/

/-- `Circle.quadrature`: as many points as weights, the weights sum to the length of the circle, the
    points have distance exactly `R` from the centre and at most `R * 1e-13` from the plane. -/
theorem circle_quadrature_partial {radius : V3 → ℝ} {xq wq : List ℝ} (hg : GaussRule xq wq) {x0 n : V3}
    (hn : norm n ≠ 0) (hR : 0 ≤ radius x0) :
    ∃ pts ws, circleQuadrature radius xq wq x0 n = .ok (pts, ws) ∧ pts.length = ws.length ∧
      ws.sum = 2 * Real.pi * radius x0 ∧
      ∀ p ∈ pts, norm (p - x0) = radius x0 ∧ planeDist x0 n p ≤ radius x0 * 1e-13 := by
  refine ⟨_, _, by rw [circleQuadrature, mapPts_ok (fun x _ => mapFromReference_ok (radius x0) x hn)]; rfl,
    by simp [hg.len], ?_, fun p hp => ?_⟩
  · simp only [mul_assoc]
    rw [List.sum_map_mul_right, List.map_id', hg.sum]
    ring
  · simp only [List.map_map, List.mem_map, Function.comp_def] at hp
    obtain ⟨t, _, rfl⟩ := hp
    have h1 : norm (⟨Real.cos (Real.pi * t), Real.sin (Real.pi * t), 0⟩ : V3) = 1 := by
      refine norm_eq_of_sq (by norm_num) ?_
      simp only [dot]
      nlinarith [Real.sin_sq_add_cos_sq (Real.pi * t)]
    have := image_facts (x0 := x0) hn (radius x0) hR
      (⟨Real.cos (Real.pi * t), Real.sin (Real.pi * t), 0⟩ : V3) rfl
    simp only [h1, mul_one] at this
    exact ⟨this.1, this.2.1⟩

/-- Unless the normal is nearly (but not exactly) vertical, all the points are on the circle. -/
theorem circle_points_on_circle {radius : V3 → ℝ} {xq wq : List ℝ} {x0 n : V3}
    (hn : norm n ≠ 0) (hv : NotNearlyVertical n) (hR : 0 ≤ radius x0) {pts : List V3} {ws : List ℝ}
    (h : circleQuadrature radius xq wq x0 n = .ok (pts, ws)) :
    ∀ p ∈ pts, OnCircle x0 n (radius x0) p := by
  rw [circleQuadrature, mapPts_ok (fun x _ => mapFromReference_ok (radius x0) x hn)] at h
  simp only [py_bind_ok, Except.ok.injEq, Prod.mk.injEq] at h
  intro p hp
  rw [← h.1] at hp
  simp only [List.map_map, List.mem_map, Function.comp_def] at hp
  obtain ⟨t, _, rfl⟩ := hp
  have h1 : norm (⟨Real.cos (Real.pi * t), Real.sin (Real.pi * t), 0⟩ : V3) = 1 := by
    refine norm_eq_of_sq (by norm_num) ?_
    simp only [dot]
    nlinarith [Real.sin_sq_add_cos_sq (Real.pi * t)]
  have := image_facts (x0 := x0) hn (radius x0) hR
    (⟨Real.cos (Real.pi * t), Real.sin (Real.pi * t), 0⟩ : V3) rfl
  simp only [h1, mul_one] at this
  exact ⟨this.1, this.2.2 hv⟩

/-- The rule is the Gauss rule for the parametrisation `t ↦ x0 + R (cos(πt) a + sin(πt) b)` of the circle
    by `[-1, 1]`, for two orthonormal vectors orthogonal to the normal: for every function its integral
    by the rule is the Gauss integral of `f(γ(t)) |γ'(t)|`. -/
theorem circle_quadrature_parametrised {radius : V3 → ℝ} {xq wq : List ℝ} {x0 n : V3}
    (hn : norm n ≠ 0) (hv : NotNearlyVertical n) :
    ∃ a b : V3, norm a = 1 ∧ norm b = 1 ∧ dot a b = 0 ∧ dot a n = 0 ∧ dot b n = 0 ∧
      circleQuadrature radius xq wq x0 n = .ok
        (xq.map (fun t => x0 + radius x0 • (Real.cos (Real.pi * t) • a + Real.sin (Real.pi * t) • b)),
         wq.map (fun w => w * (Real.pi * radius x0))) := by
  set r := rotRows (rotAxis (unit n)) (dot ez (unit n)) √(1 - dot ez (unit n) ^ 2) with hr
  have hu := unit_dot hn
  have hiso := rot_isometry (axis_unit (unit n)) (sc_one hu)
  rw [← hr] at hiso
  have ha := image_facts (x0 := ⟨0, 0, 0⟩) hn 1 (by norm_num) (⟨1, 0, 0⟩ : V3) rfl
  have hb := image_facts (x0 := ⟨0, 0, 0⟩) hn 1 (by norm_num) (⟨0, 1, 0⟩ : V3) rfl
  have e : ∀ y : V3, (⟨0, 0, 0⟩ : V3) + (1 : ℝ) • y - (⟨0, 0, 0⟩ : V3) = y := by
    intro y; ext <;> simp
  simp only [e, ← hr] at ha hb
  refine ⟨rotApply r ⟨1, 0, 0⟩, rotApply r ⟨0, 1, 0⟩, ?_, ?_, ?_, ha.2.2 hv, hb.2.2 hv, ?_⟩
  · rw [ha.1, norm_eq_of_sq (r := 1) (by norm_num) (by simp [dot])]; norm_num
  · rw [hb.1, norm_eq_of_sq (r := 1) (by norm_num) (by simp [dot])]; norm_num
  · rw [hiso]; simp [dot]
  · rw [circleQuadrature, mapPts_ok (fun x _ => mapFromReference_ok (radius x0) x hn)]
    simp only [py_bind_ok, List.map_map, ← hr]
    congr 2
    · refine List.map_congr_left (fun t _ => ?_)
      simp only [Function.comp]
      congr 2
      ext <;> simp [rotApply, dot] <;> ring
    · refine List.map_congr_left (fun w _ => by ring)

/-- A zero normal is refused. -/
theorem circle_zero_normal {radius : V3 → ℝ} {t : ℝ} {xq wq : List ℝ} {x0 n : V3} (hn : norm n = 0) :
    circleQuadrature radius (t :: xq) wq x0 n = .error .assertion := by
  rw [circleQuadrature, List.map_cons, mapPts, mapFromReference_zero _ _ hn]
  rfl

theorem mem_zip_map {α β : Type} {f : α → β} {l : List α} {q : α × β} (h : q ∈ l.zip (l.map f)) :
    q.1 ∈ l ∧ q.2 = f q.1 := by
  induction l with
  | nil => simp at h
  | cons a l ih =>
    rw [List.map_cons, List.zip_cons_cons, List.mem_cons] at h
    rcases h with rfl | h
    · simp
    · exact ⟨List.mem_cons_of_mem _ (ih h).1, (ih h).2⟩

/-- `Circle.quadrature_normal`: unit vectors pointing from the centre to the points. -/
theorem circle_quadrature_normal {radius : V3 → ℝ} {xq wq : List ℝ} {x0 n : V3}
    (hn : norm n ≠ 0) (hv : NotNearlyVertical n) (hR : 0 < radius x0) :
    ∃ pts ws ns, circleQuadrature radius xq wq x0 n = .ok (pts, ws) ∧
      circleQuadratureNormal radius xq wq x0 n = .ok ((pts, ws), ns) ∧ ns.length = pts.length ∧
      ∀ q ∈ pts.zip ns, norm q.2 = 1 ∧ dot q.2 n = 0 ∧ q.1 = x0 + radius x0 • q.2 := by
  obtain ⟨a, b, -, -, -, -, -, h⟩ := circle_quadrature_parametrised (radius := radius) (xq := xq) (wq := wq)
    (x0 := x0) hn hv
  refine ⟨_, _, _, h, by rw [circleQuadratureNormal, h]; rfl, by simp, fun q hq => ?_⟩
  obtain ⟨hmem, hq2⟩ := mem_zip_map hq
  obtain ⟨hc1, hc2⟩ := circle_points_on_circle hn hv hR.le h q.1 hmem
  rw [hq2, hc1]
  refine ⟨?_, ?_, ?_⟩
  · rw [norm_smul, hc1, abs_of_pos (inv_pos.2 hR)]
    field_simp
  · have : dot ((radius x0)⁻¹ • (q.1 - x0)) n = (radius x0)⁻¹ * dot (q.1 - x0) n := by
      unfold dot; simp only [smul_x, smul_y, smul_z]; ring
    rw [this, hc2, mul_zero]
  · ext <;> simp only [add_x, add_y, add_z, smul_x, smul_y, smul_z, sub_x, sub_y, sub_z] <;> field_simp <;> ring

/-! ## Disk -/

/-- `Disk.quadrature`: the weights sum to `R²` times the sum of the weights on the unit disk, points keep
    their relative distance from the centre, and are in the plane up to the tolerance. -/
theorem disk_quadrature_at {radius : V3 → ℝ} {xq : List (ℝ × ℝ)} {wq : List ℝ} (hl : xq.length = wq.length)
    {x0 n : V3} (hn : norm n ≠ 0) (hR : 0 ≤ radius x0) :
    ∃ pts ws, diskQuadratureAt radius xq wq x0 n = .ok (pts, ws) ∧ pts.length = ws.length ∧
      ws.sum = wq.sum * radius x0 ^ 2 ∧
      ∀ q ∈ xq.zip pts, norm (q.2 - x0) = radius x0 * √(q.1.1 ^ 2 + q.1.2 ^ 2) ∧
        planeDist x0 n q.2 ≤ radius x0 * √(q.1.1 ^ 2 + q.1.2 ^ 2) * 1e-13 ∧
        (NotNearlyVertical n → dot (q.2 - x0) n = 0) := by
  refine ⟨_, _, by rw [diskQuadratureAt, mapPts_ok (fun x _ => mapFromReference_ok (radius x0) x hn)]; rfl,
    by simp [hl], ?_, fun q hq => ?_⟩
  · rw [List.sum_map_mul_right, List.map_id']
  · rw [List.map_map] at hq
    obtain ⟨_, hq2⟩ := mem_zip_map hq
    rw [hq2]
    have := image_facts (x0 := x0) hn (radius x0) hR (⟨q.1.1, q.1.2, 0⟩ : V3) rfl
    have h1 : norm (⟨q.1.1, q.1.2, 0⟩ : V3) = √(q.1.1 ^ 2 + q.1.2 ^ 2) := by
      rw [V3.norm]; congr 1; simp only [dot]; ring
    simp only [h1] at this
    exact this

/-- For a rule with nodes in the unit disk and weights summing to π: all the points are in the disk with
    centre `x0` and radius `R`, and the weights sum to its area. -/
theorem disk_points_in_disk {radius : V3 → ℝ} {xq : List (ℝ × ℝ)} {wq : List ℝ} (hl : xq.length = wq.length)
    (hin : ∀ t ∈ xq, t.1 ^ 2 + t.2 ^ 2 ≤ 1) (hs : wq.sum = Real.pi)
    {x0 n : V3} (hn : norm n ≠ 0) (hv : NotNearlyVertical n) (hR : 0 ≤ radius x0) :
    ∃ pts ws, diskQuadratureAt radius xq wq x0 n = .ok (pts, ws) ∧
      ws.sum = Real.pi * radius x0 ^ 2 ∧ ∀ p ∈ pts, norm (p - x0) ≤ radius x0 ∧ dot (p - x0) n = 0 := by
  obtain ⟨pts, ws, h, hlen, hsum, hp⟩ := disk_quadrature_at hl (radius := radius) (x0 := x0) hn hR
  refine ⟨pts, ws, h, by rw [hsum, hs], fun p hpm => ?_⟩
  have hlp : pts.length = xq.length := by
    rw [hlen]
    rw [diskQuadratureAt, mapPts_ok (fun x _ => mapFromReference_ok (radius x0) x hn)] at h
    simp only [py_bind_ok, Except.ok.injEq, Prod.mk.injEq] at h
    rw [← h.2]; simp [hl]
  obtain ⟨i, hi, rfl⟩ := List.getElem_of_mem hpm
  have hmem : ((xq[i]'(by omega)), pts[i]) ∈ xq.zip pts := by
    rw [show (xq[i]'(by omega), pts[i]) = (xq.zip pts)[i]'(by simp; omega) by simp]
    exact List.getElem_mem _
  obtain ⟨h1, _, h3⟩ := hp _ hmem
  refine ⟨?_, h3 hv⟩
  rw [h1]
  have : √((xq[i]'(by omega)).1 ^ 2 + (xq[i]'(by omega)).2 ^ 2) ≤ 1 := by
    rw [show (1 : ℝ) = √1 by simp]
    exact Real.sqrt_le_sqrt (hin _ (List.getElem_mem _))
  calc radius x0 * √((xq[i]'(by omega)).1 ^ 2 + (xq[i]'(by omega)).2 ^ 2) ≤ radius x0 * 1 :=
        mul_le_mul_of_nonneg_left this hR
    _ = radius x0 := mul_one _

/-! ## The hypotheses are met; nearly vertical normals -/

theorem gauss_two : GaussRule [-√(1/3), √(1/3)] [1, 1] := by
  have h0 : 0 ≤ √(1/3 : ℝ) := Real.sqrt_nonneg _
  have h1 : √(1/3 : ℝ) ≤ 1 := by
    rw [show (1 : ℝ) = √1 by simp]
    exact Real.sqrt_le_sqrt (by norm_num)
  refine ⟨rfl, fun t ht => ?_, by norm_num⟩
  simp only [List.mem_cons, List.not_mem_nil, or_false] at ht
  rcases ht with rfl | rfl <;> constructor <;> linarith

theorem norm_two : norm (⟨2, 0, 0⟩ : V3) = 2 := norm_eq_of_sq (by norm_num) (by simp only [dot]; norm_num)

/-- Normal in the direction of x, radius 3, two points. -/
example : ∃ pts ws, circleQuadrature (fun _ => 3) [-√(1/3), √(1/3)] [1, 1] ⟨1, 2, 3⟩ ⟨2, 0, 0⟩ = .ok (pts, ws) ∧
    pts.length = 2 ∧ ws.sum = 2 * Real.pi * 3 ∧ ∀ p ∈ pts, OnCircle ⟨1, 2, 3⟩ ⟨2, 0, 0⟩ 3 p := by
  obtain ⟨pts, ws, h, hl, hs, _⟩ := circle_quadrature_partial (radius := fun _ => 3) gauss_two (x0 := ⟨1, 2, 3⟩)
    (n := ⟨2, 0, 0⟩) (by rw [norm_two]; norm_num) (by norm_num)
  refine ⟨pts, ws, h, ?_, hs, circle_points_on_circle (by rw [norm_two]; norm_num) ?_ (by norm_num) h⟩
  · rw [circleQuadrature, mapPts_ok (fun x _ => mapFromReference_ok _ x (by rw [norm_two]; norm_num))] at h
    simp only [py_bind_ok, Except.ok.injEq, Prod.mk.injEq] at h
    rw [← h.1]; rfl
  · right
    have : norm (cross ez (unit ⟨2, 0, 0⟩)) = 1 := by
      refine norm_eq_of_sq (by norm_num) ?_
      rw [cross_ez]
      simp only [unit, norm_two, smul_x, smul_y]
      norm_num
    rw [this]; norm_num

/-- A nearly vertical normal for which a point is not in the plane. -/
theorem circle_not_in_plane : ∃ pts ws,
    circleQuadrature (fun _ => 1) [0] [2] ⟨0, 0, 0⟩ ⟨1, 0, 10 ^ 14⟩ = .ok (pts, ws) ∧
    ∃ p ∈ pts, dot (p - ⟨0, 0, 0⟩) ⟨1, 0, 10 ^ 14⟩ ≠ 0 := by
  set n : V3 := ⟨1, 0, 10 ^ 14⟩ with hn
  have hpos : 0 < norm n := Real.sqrt_pos.2 (by simp only [hn, dot]; norm_num)
  have hgt : 10 ^ 14 ≤ norm n := by
    refine Real.le_sqrt_of_sq_le ?_
    simp only [hn, dot]; norm_num
  have hcr : norm (cross ez (unit n)) < 1e-13 := by
    have h1 : norm (cross ez (unit n)) = (norm n)⁻¹ := by
      refine norm_eq_of_sq (inv_nonneg.2 hpos.le) ?_
      rw [cross_ez]
      simp only [unit, smul_x, smul_y, hn]
      ring
    rw [h1]
    calc (norm n)⁻¹ ≤ (10 ^ 14)⁻¹ := inv_anti₀ (by norm_num) hgt
      _ < 1e-13 := by norm_num
  refine ⟨_, _, by rw [circleQuadrature, mapPts_ok (fun x _ => mapFromReference_ok _ x hpos.ne')]; rfl,
    _, by simp; rfl, ?_⟩
  have haxis : rotAxis (unit n) = ez := by unfold rotAxis; rw [if_pos hcr]
  rw [haxis, rotApply_eq]
  have hc : dot ez (unit n) = 10 ^ 14 / norm n := by
    rw [dot_unit]; simp [dot, ez, hn]
  simp only [dot, cross, ez, add_x, add_y, add_z, sub_x, sub_y, sub_z, smul_x, smul_y, smul_z, Real.cos_zero,
    Real.sin_zero, mul_zero, hn] at hc ⊢
  simp only [← hn] at hc ⊢
  have : 0 < (unit n).z := by
    have : (unit n).z = 10 ^ 14 / norm n := by linarith
    rw [this]; positivity
  simp only [hn] at this ⊢
  ring_nf
  ring_nf at this
  exact this.ne'

/-! ## Square -/

theorem rotated_quarter (x0 n vec : V3) :
    rotated x0 n vec (Real.pi / 2) = x0 + cross n vec + dot n vec • n := by
  ext <;> simp [rotated]

theorem rotated_three_quarters (x0 n vec : V3) :
    rotated x0 n vec (3 * Real.pi / 2) = x0 - cross n vec + dot n vec • n := by
  have h : 3 * Real.pi / 2 = Real.pi / 2 + Real.pi := by ring
  have hc : Real.cos (3 * Real.pi / 2) = 0 := by rw [h, Real.cos_add_pi, Real.cos_pi_div_two, neg_zero]
  have hs : Real.sin (3 * Real.pi / 2) = -1 := by rw [h, Real.sin_add_pi, Real.sin_pi_div_two]
  ext <;> simp [rotated, hc, hs] <;> ring

theorem dot_comm (a b : V3) : dot a b = dot b a := by unfold dot; ring

theorem cross_orth {m w : V3} (hm : dot m m = 1) (hw : dot w m = 0) :
    dot (cross m w) (cross m w) = dot w w ∧ dot w (cross m w) = 0 ∧ dot (cross m w) m = 0 := by
  refine ⟨?_, ?_, ?_⟩
  · have : dot (cross m w) (cross m w) = dot m m * dot w w - dot w m ^ 2 := by
      unfold dot cross; ring
    rw [this, hm, hw]; ring
  · unfold dot cross; ring
  · unfold dot cross; ring

theorem prod2_sum (c : ℝ) (ws : List ℝ) :
    ((prod2 (ws.map (fun w => w * c))).map (fun w => w.1 * w.2)).sum = (ws.sum * c) ^ 2 := by
  have key : ∀ (xs ys : List ℝ), ((xs.flatMap (fun a => ys.map (fun b => (a, b)))).map
      (fun w => w.1 * w.2)).sum = xs.sum * ys.sum := by
    intro xs ys
    induction xs with
    | nil => simp
    | cons x xs ih =>
      rw [List.flatMap_cons, List.map_append, List.sum_append, ih, List.map_map, List.sum_cons, add_mul]
      congr 1
      simp only [Function.comp_def]
      rw [List.sum_map_mul_left, List.map_id']
  rw [prod2, key, List.sum_map_mul_right, List.map_id']
  ring

/-- The centre of the square which is integrated over: the projection of `x0` to the plane of the
    corner, which is `x0` if the corner is in the plane of `x0`. -/
noncomputable def centre (x0 n P : V3) : V3 := x0 + dot (P - x0) (unit n) • unit n

theorem centre_eq {x0 n P : V3} (h : dot (P - x0) n = 0) : centre x0 n P = x0 := by
  rw [centre, dot_unit, h]
  ext <;> simp

theorem centre_close {x0 n P : V3} (hn : norm n ≠ 0) : norm (centre x0 n P - x0) = |dot (P - x0) (unit n)| := by
  have : centre x0 n P - x0 = dot (P - x0) (unit n) • unit n := by ext <;> simp [centre]
  rw [this, norm_smul, norm_unit hn, mul_one]

/-- `Square.quadrature` for a corner in the plane up to the tolerance: the points are in the square with
    corner `P` and centre `centre x0 n P`, the weights sum to its area `2 |P - c|²`. -/
theorem square_quadrature {P : V3 → V3} {xq wq : List ℝ} (hg : GaussRule xq wq) {x0 n : V3}
    (hn : norm n ≠ 0) (hp : |dot (P x0 - x0) (unit n)| < 1e-13) :
    ∃ pts ws, squareQuadrature P xq wq x0 n = .ok (pts, ws) ∧ pts.length = ws.length ∧
      ws.sum = 2 * norm (P x0 - centre x0 n (P x0)) ^ 2 ∧
      ∀ q ∈ pts, InSquare (centre x0 n (P x0)) (unit n) (P x0) q := by
  set m := unit n with hm
  set c := centre x0 n (P x0) with hc
  set w := P x0 - c with hw
  have hmm : dot m m = 1 := unit_dot hn
  have hvec : P x0 - x0 = w + dot (P x0 - x0) m • m := by
    ext <;> simp [hw, hc, centre, ← hm] <;> ring
  have hwm : dot w m = 0 := by
    have e : dot w m = dot (P x0 - x0) m - dot (P x0 - x0) m * dot m m := by
      simp only [hw, hc, centre, ← hm]
      unfold dot; simp only [add_x, add_y, add_z, sub_x, sub_y, sub_z, smul_x, smul_y, smul_z]; ring
    rw [e, hmm]; ring
  obtain ⟨h1, h2, h3⟩ := cross_orth hmm hwm
  have hedges : squareEdges x0 n (P x0) = .ok (cross m w - w, (⟨0, 0, 0⟩ : V3) - cross m w - w) := by
    rw [squareEdges, if_neg hn]
    have hd : decide (|dot (P x0 - x0) ((norm n)⁻¹ • n)| < 1e-13) = true := decide_eq_true hp
    simp only [hd, pyAssert_true, py_bind_ok]
    change Except.ok (rotated x0 m (P x0 - x0) (Real.pi / 2) - P x0,
      rotated x0 m (P x0 - x0) (3 * Real.pi / 2) - P x0) = _
    rw [rotated_quarter, rotated_three_quarters]
    have hP : P x0 = x0 + (w + dot (P x0 - x0) m • m) := by rw [← hvec]; ext <;> simp
    have hcm : cross m (P x0 - x0) = cross m w := by
      rw [hvec]
      ext <;> simp [cross] <;> ring
    rw [hcm, dot_comm m (P x0 - x0)]
    congr 2
    · ext <;> simp [hw, hc, centre, ← hm] <;> ring
    · ext <;> simp [hw, hc, centre, ← hm] <;> ring
  have hmap : ∀ x : ℝ × ℝ, (-1 ≤ x.1 ∧ x.1 ≤ 1) → (-1 ≤ x.2 ∧ x.2 ≤ 1) →
      squareMap (P x0) (cross m w - w) ((⟨0, 0, 0⟩ : V3) - cross m w - w) x =
        .ok (P x0 + (0.5 * (1 + x.1)) • (cross m w - w) +
          (0.5 * (1 + x.2)) • ((⟨0, 0, 0⟩ : V3) - cross m w - w)) := by
    intro x hx hy
    have : decide (|x.1| < 1 + 1e-13 ∧ |x.2| < 1 + 1e-13) = true := by
      have a1 : |x.1| ≤ 1 := abs_le.2 hx
      have a2 : |x.2| ≤ 1 := abs_le.2 hy
      exact decide_eq_true ⟨by linarith [show (0:ℝ) < 1e-13 by norm_num], by
        linarith [show (0:ℝ) < 1e-13 by norm_num]⟩
    rw [squareMap, this, pyAssert_true, py_bind_ok]
  have hprod : ∀ x ∈ prod2 xq, (-1 ≤ x.1 ∧ x.1 ≤ 1) ∧ (-1 ≤ x.2 ∧ x.2 ≤ 1) := by
    intro x hx
    simp only [prod2, List.mem_flatMap, List.mem_map] at hx
    obtain ⟨a, ha, b, hb, rfl⟩ := hx
    exact ⟨hg.mem a ha, hg.mem b hb⟩
  refine ⟨(prod2 xq).map (fun x => P x0 + (0.5 * (1 + x.1)) • (cross m w - w) +
          (0.5 * (1 + x.2)) • ((⟨0, 0, 0⟩ : V3) - cross m w - w)),
    (prod2 (wq.map (fun a => a * norm w * (√2 / 2)))).map (fun a => a.1 * a.2), ?_, ?_, ?_, fun q hq => ?_⟩
  · rw [squareQuadrature, hedges]
    simp only [py_bind_ok]
    rw [hmap (-1, -1) (by norm_num) (by norm_num), py_bind_ok, hmap (-1, 1) (by norm_num) (by norm_num),
      py_bind_ok, mapPts_ok (fun x hx => hmap x (hprod x hx).1 (hprod x hx).2), py_bind_ok]
    congr 4
    refine List.map_congr_left (fun a _ => ?_)
    have hnorm : norm (P x0 + (0.5 * (1 + -1) : ℝ) • (cross m w - w) +
        (0.5 * (1 + 1) : ℝ) • ((⟨0, 0, 0⟩ : V3) - cross m w - w) - (P x0 + (0.5 * (1 + -1) : ℝ) • (cross m w - w) +
        (0.5 * (1 + -1) : ℝ) • ((⟨0, 0, 0⟩ : V3) - cross m w - w))) = √2 * norm w := by
      refine norm_eq_of_sq (mul_nonneg (Real.sqrt_nonneg 2) (norm_nonneg w)) ?_
      rw [mul_pow, Real.sq_sqrt (by norm_num), norm_sq]
      have : ∀ a b : V3, dot (P x0 + (0.5 * (1 + -1) : ℝ) • a +
        (0.5 * (1 + 1) : ℝ) • ((⟨0, 0, 0⟩ : V3) - b - w) - (P x0 + (0.5 * (1 + -1) : ℝ) • a +
        (0.5 * (1 + -1) : ℝ) • ((⟨0, 0, 0⟩ : V3) - b - w))) (P x0 + (0.5 * (1 + -1) : ℝ) • a +
        (0.5 * (1 + 1) : ℝ) • ((⟨0, 0, 0⟩ : V3) - b - w) - (P x0 + (0.5 * (1 + -1) : ℝ) • a +
        (0.5 * (1 + -1) : ℝ) • ((⟨0, 0, 0⟩ : V3) - b - w))) = dot b b + 2 * dot w b + dot w w := by
        intro a b
        unfold dot; simp only [add_x, add_y, add_z, sub_x, sub_y, sub_z, smul_x, smul_y, smul_z]; ring
      rw [this, h1, h2]; ring
    rw [hnorm]
    ring
  · have hl : ∀ (α : Type) (l : List α), (prod2 l).length = l.length * l.length := by
      intro α l
      simp [prod2]
    rw [List.length_map, List.length_map, hl, hl, List.length_map, hg.len]
  · have := prod2_sum (norm w * (√2 / 2)) wq
    simp only [← mul_assoc] at this
    rw [this, hg.sum, ]
    have hs2 : √(2 : ℝ) ^ 2 = 2 := Real.sq_sqrt (by norm_num)
    calc (2 * norm w * (√2 / 2)) ^ 2 = norm w ^ 2 * √2 ^ 2 := by ring
      _ = 2 * norm w ^ 2 := by rw [hs2]; ring
  · obtain ⟨x, hx, rfl⟩ := List.mem_map.1 hq
    obtain ⟨hx1, hx2⟩ := hprod x hx
    refine ⟨1 - 0.5 * (1 + x.1) - 0.5 * (1 + x.2), 0.5 * (1 + x.1) - 0.5 * (1 + x.2), ?_, ?_⟩
    · have e1 : 1 - 0.5 * (1 + x.1) - 0.5 * (1 + x.2) = -(x.1 + x.2) / 2 := by ring
      have e2 : 0.5 * (1 + x.1) - 0.5 * (1 + x.2) = (x.1 - x.2) / 2 := by ring
      rw [e1, e2]
      rcases abs_cases (-(x.1 + x.2) / 2) with h | h <;> rcases abs_cases ((x.1 - x.2) / 2) with h' | h' <;>
        linarith
    · have hP : P x0 = c + w := by ext <;> simp [hw]
      rw [← hw]
      rw [hP]
      ext <;> simp <;> ring

/-- The corner in the plane of the centre: the square is the one with centre `x0`. -/
theorem square_quadrature_exact {P : V3 → V3} {xq wq : List ℝ} (hg : GaussRule xq wq) {x0 n : V3}
    (hn : norm n ≠ 0) (hp : dot (P x0 - x0) n = 0) :
    ∃ pts ws, squareQuadrature P xq wq x0 n = .ok (pts, ws) ∧ pts.length = ws.length ∧
      ws.sum = 2 * norm (P x0 - x0) ^ 2 ∧ ∀ q ∈ pts, InSquare x0 (unit n) (P x0) q := by
  have := square_quadrature (P := P) hg (x0 := x0) hn (by rw [dot_unit, hp]; norm_num)
  rwa [centre_eq hp] at this

/-- A corner which is not in the plane is refused. -/
theorem square_checks_plane {P : V3 → V3} {xq wq : List ℝ} {x0 n : V3}
    (hp : norm n = 0 ∨ 1e-13 ≤ |dot (P x0 - x0) (unit n)|) :
    squareQuadrature P xq wq x0 n = .error .assertion ∧ rimQuadrature P xq wq x0 n = .error .assertion := by
  by_cases hn : norm n = 0
  · rw [squareQuadrature, squareEdges, if_pos hn, rimQuadrature, rimCorners, if_pos hn]
    exact ⟨rfl, rfl⟩
  · have hp' := hp.resolve_left hn
    have hd : decide (|dot (P x0 - x0) ((norm n)⁻¹ • n)| < 1e-13) = false := decide_eq_false (not_lt.2 hp')
    rw [squareQuadrature, squareEdges, if_neg hn, rimQuadrature, rimCorners, if_neg hn]
    simp only [hd, pyAssert_false, py_bind_error, and_self]

/-- `SquareRim.quadrature`, for a corner in the plane: the points are on the boundary of the square with
    centre `x0` and corner `P`, the weights sum to the perimeter. -/
theorem rim_quadrature_partial {P : V3 → V3} {xq wq : List ℝ} (hg : GaussRule xq wq) {x0 n : V3}
    (hn : norm n ≠ 0) (hp : dot (P x0 - x0) n = 0) :
    ∃ pts ws, rimQuadrature P xq wq x0 n = .ok (pts, ws) ∧ pts.length = ws.length ∧
      ws.sum = 4 * (√2 * norm (P x0 - x0)) ∧ ∀ q ∈ pts, OnSquare x0 (unit n) (P x0) q := by
  set m := unit n with hm
  set w := P x0 - x0 with hw
  have hmm : dot m m = 1 := unit_dot hn
  have hwm : dot w m = 0 := by rw [hm, dot_unit, hp, zero_div]
  obtain ⟨h1, h2, h3⟩ := cross_orth hmm hwm
  have hmw : dot m w = 0 := by rw [dot_comm, hwm]
  have hcorners : rimCorners x0 n (P x0) = .ok [P x0, x0 + cross m w, x0 - w, x0 - cross m w] := by
    rw [rimCorners, if_neg hn]
    have hd : decide (|dot (P x0 - x0) ((norm n)⁻¹ • n)| < 1e-13) = true := decide_eq_true (by
      change |dot w m| < _
      rw [hwm]; norm_num)
    simp only [hd, pyAssert_true, py_bind_ok]
    change Except.ok [P x0, rotated x0 m w (Real.pi / 2), x0 - w, rotated x0 m w (3 * Real.pi / 2)] = _
    rw [rotated_quarter, rotated_three_quarters, hmw]
    congr 2
    · congr 1
      · ext <;> simp
      · congr 2
        ext <;> simp
  have hmap : ∀ x : ℝ, (-1 ≤ x ∧ x ≤ 1) →
      rimMap [P x0, x0 + cross m w, x0 - w, x0 - cross m w] x = .ok
        [(0.5 * (1 - x)) • P x0 + (0.5 * (1 + x)) • (x0 + cross m w),
         (0.5 * (1 - x)) • (x0 + cross m w) + (0.5 * (1 + x)) • (x0 - w),
         (0.5 * (1 - x)) • (x0 - w) + (0.5 * (1 + x)) • (x0 - cross m w),
         (0.5 * (1 - x)) • (x0 - cross m w) + (0.5 * (1 + x)) • P x0] := by
    intro x hx
    have : decide (|x| < 1 + 1e-13) = true := by
      have a1 : |x| ≤ 1 := abs_le.2 hx
      exact decide_eq_true (by linarith [show (0:ℝ) < 1e-13 by norm_num])
    rw [rimMap, this, pyAssert_true, py_bind_ok]
    rfl
  have hP : P x0 = x0 + w := by ext <;> simp [hw]
  refine ⟨_, _, by
    rw [rimQuadrature, hcorners]
    simp only [py_bind_ok]
    rw [hmap (-1) (by norm_num)]
    simp only [py_bind_ok]
    rw [mapPts_ok (fun x hx => hmap x (hg.mem x hx)), py_bind_ok], ?_, ?_, fun q hq => ?_⟩
  · have hl : ∀ l : List ℝ, (l.flatMap (List.replicate 4)).length = 4 * l.length := by
      intro l
      induction l with
      | nil => rfl
      | cons a l ih => rw [List.flatMap_cons, List.length_append, ih, List.length_replicate, List.length_cons]; ring
    have hl' : ∀ l : List ℝ, ((l.map (fun x => [(0.5 * (1 - x)) • P x0 + (0.5 * (1 + x)) • (x0 + cross m w),
         (0.5 * (1 - x)) • (x0 + cross m w) + (0.5 * (1 + x)) • (x0 - w),
         (0.5 * (1 - x)) • (x0 - w) + (0.5 * (1 + x)) • (x0 - cross m w),
         (0.5 * (1 - x)) • (x0 - cross m w) + (0.5 * (1 + x)) • P x0])).flatten).length = 4 * l.length := by
      intro l
      induction l with
      | nil => rfl
      | cons a l ih =>
        rw [List.map_cons, List.flatten_cons, List.length_append, ih, List.length_cons]
        simp only [List.length_cons, List.length_nil]
        ring
    rw [hl, hl', hg.len, List.length_map]
  · have hsum : ∀ l : List ℝ, (l.flatMap (List.replicate 4)).sum = 4 * l.sum := by
      intro l
      induction l with
      | nil => simp
      | cons a l ih => rw [List.flatMap_cons, List.sum_append, ih, List.sum_cons]; simp; ring
    rw [hsum, List.sum_map_mul_right, List.map_id', hg.sum]
    have hnorm : norm ((0.5 * (1 - -1) : ℝ) • (x0 + cross m w) + (0.5 * (1 + -1) : ℝ) • (x0 - w) -
        ((0.5 * (1 - -1) : ℝ) • P x0 + (0.5 * (1 + -1) : ℝ) • (x0 + cross m w))) = √2 * norm w := by
      refine norm_eq_of_sq (mul_nonneg (Real.sqrt_nonneg 2) (norm_nonneg w)) ?_
      rw [mul_pow, Real.sq_sqrt (by norm_num), norm_sq, hP]
      have : ∀ b : V3, dot ((0.5 * (1 - -1) : ℝ) • (x0 + b) + (0.5 * (1 + -1) : ℝ) • (x0 - w) -
        ((0.5 * (1 - -1) : ℝ) • (x0 + w) + (0.5 * (1 + -1) : ℝ) • (x0 + b)))
        ((0.5 * (1 - -1) : ℝ) • (x0 + b) + (0.5 * (1 + -1) : ℝ) • (x0 - w) -
        ((0.5 * (1 - -1) : ℝ) • (x0 + w) + (0.5 * (1 + -1) : ℝ) • (x0 + b))) =
          dot b b - 2 * dot w b + dot w w := by
        intro b
        unfold dot; simp only [add_x, add_y, add_z, sub_x, sub_y, sub_z, smul_x, smul_y, smul_z]; ring
      rw [this, h1, h2]; ring
    rw [hnorm]
    ring
  · simp only [List.mem_flatten, List.mem_map] at hq
    obtain ⟨l, ⟨x, hx, rfl⟩, hq⟩ := hq
    obtain ⟨hx1, hx2⟩ := hg.mem x hx
    have ha : |0.5 * (1 - x)| = 0.5 * (1 - x) := abs_of_nonneg (by linarith)
    have hb : |0.5 * (1 + x)| = 0.5 * (1 + x) := abs_of_nonneg (by linarith)
    simp only [List.mem_cons, List.not_mem_nil, or_false] at hq
    rcases hq with rfl | rfl | rfl | rfl
    · refine ⟨0.5 * (1 - x), 0.5 * (1 + x), by rw [ha, hb]; ring, ?_⟩
      rw [← hw, hP]; ext <;> simp <;> ring
    · refine ⟨-(0.5 * (1 + x)), 0.5 * (1 - x), by rw [abs_neg, ha, hb]; ring, ?_⟩
      rw [← hw]; ext <;> simp <;> ring
    · refine ⟨-(0.5 * (1 - x)), -(0.5 * (1 + x)), by rw [abs_neg, abs_neg, ha, hb]; ring, ?_⟩
      rw [← hw]; ext <;> simp <;> ring
    · refine ⟨0.5 * (1 + x), -(0.5 * (1 - x)), by rw [abs_neg, ha, hb]; ring, ?_⟩
      rw [← hw, hP]; ext <;> simp <;> ring

/-- The unit square in the plane `z = 5`, 2 x 2 points; its area is 1. -/
example : ∃ pts ws, squareQuadrature (fun x => x - ⟨1 / 2, 1 / 2, 0⟩) [-√(1/3), √(1/3)] [1, 1] ⟨0, 0, 5⟩
    ⟨0, 0, 7⟩ = .ok (pts, ws) ∧ ws.sum = 1 := by
  have hn : norm (⟨0, 0, 7⟩ : V3) = 7 := norm_eq_of_sq (by norm_num) (by simp only [dot]; norm_num)
  obtain ⟨pts, ws, h, _, hs, _⟩ := square_quadrature_exact (P := fun x => x - ⟨1 / 2, 1 / 2, 0⟩) gauss_two
    (x0 := ⟨0, 0, 5⟩) (n := ⟨0, 0, 7⟩) (by rw [hn]; norm_num) (by simp [dot])
  refine ⟨pts, ws, h, ?_⟩
  rw [hs, norm_sq]
  simp [dot]
  norm_num

/-- Its perimeter is 4. -/
example : ∃ pts ws, rimQuadrature (fun x => x - ⟨1 / 2, 1 / 2, 0⟩) [-√(1/3), √(1/3)] [1, 1] ⟨0, 0, 5⟩
    ⟨0, 0, 7⟩ = .ok (pts, ws) ∧ ws.sum = 4 := by
  have hn : norm (⟨0, 0, 7⟩ : V3) = 7 := norm_eq_of_sq (by norm_num) (by simp only [dot]; norm_num)
  obtain ⟨pts, ws, h, _, hs, _⟩ := rim_quadrature_partial (P := fun x => x - ⟨1 / 2, 1 / 2, 0⟩) gauss_two
    (x0 := ⟨0, 0, 5⟩) (n := ⟨0, 0, 7⟩) (by rw [hn]; norm_num) (by simp [dot])
  refine ⟨pts, ws, h, ?_⟩
  rw [hs]
  have : √2 * norm ((⟨0, 0, 5⟩ : V3) - ⟨1 / 2, 1 / 2, 0⟩ - ⟨0, 0, 5⟩) = 1 := by
    rw [V3.norm, ← Real.sqrt_mul (by norm_num)]
    rw [show (2 : ℝ) * dot ((⟨0, 0, 5⟩ : V3) - ⟨1 / 2, 1 / 2, 0⟩ - ⟨0, 0, 5⟩)
      ((⟨0, 0, 5⟩ : V3) - ⟨1 / 2, 1 / 2, 0⟩ - ⟨0, 0, 5⟩) = 1 by simp [dot]; norm_num]
    simp
  rw [this]; norm_num

end Verif.Shape
