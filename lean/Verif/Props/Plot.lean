import Verif.Lemmas.Plot5
/-!
# Drawings of averaging surfaces

`vtk_tube_render`, `vtk_tube`, `radial_order_points` and `vtk_plot_data`.
-/
namespace Verif.Plot
open Verif Verif.Shape Verif.Shape.V3
open Verif.BlockOps (pyMap pyMap_ok pyMap_eq_ok)

/-! ## Tubes -/

/-- `vtk_tube_render(tubes)` returns iff the two rings of each tube have as many points; else it raises `ValueError`. -/
theorem tube_render_returns_iff {P : Type} (tubes : List (List P × List P)) :
    ((∃ d, tubeRender tubes = .ok d) ↔ ∀ t ∈ tubes, t.1.length = t.2.length) ∧
      ((∃ t ∈ tubes, t.1.length ≠ t.2.length) → tubeRender tubes = .error .valueError) :=
  ⟨⟨fun ⟨_, h⟩ => (tubeLoop_draws tubes [] h).1, tubeLoop_returns tubes 0⟩, tubeLoop_error tubes 0⟩

/-- The drawing has the points of all rings, and as cells the quads between the rings of each tube. -/
theorem tube_render_draws {P : Type} {tubes : List (List P × List P)} {d : Drawing P} (h : tubeRender tubes = .ok d) :
    d.points = tubes.flatMap (fun t => t.1 ++ t.2) ∧ corners d = tubes.flatMap (fun t => quadsBetween t.1 t.2) :=
  (tubeLoop_draws tubes [] h).2

/-- Two tubes with rings of three points. -/
example : ∃ d, tubeRender [(["a", "b", "c"], ["d", "e", "f"]), (["g", "h", "i"], ["j", "k", "l"])] = .ok d ∧
    d.cells = [[3, 4, 1, 0], [4, 5, 2, 1], [5, 3, 0, 2], [9, 10, 7, 6], [10, 11, 8, 7], [11, 9, 6, 8]] :=
  ⟨_, rfl, rfl⟩

/-- The ring of a `Circle` with increasing nodes is the boundary of the convex hull of its points. -/
theorem circle_ring_outline {radius : V3 → ℝ} {xq wq : List ℝ} {x n : V3} (hn : norm n ≠ 0) (hv : NotNearlyVertical n)
    (hR : 0 < radius x) (hne : xq ≠ []) (hin : ∀ t ∈ xq, -1 ≤ t ∧ t ≤ 1) (hs : xq.Pairwise (· ≤ ·)) :
    ∃ pts, ring (circleQuadrature radius xq wq) x n = .ok pts ∧ pts.length = xq.length ∧ Outline n pts := by
  obtain ⟨a, b, ha, hb, hab, hna, hnb, hring⟩ := circle_frame hn hv
  exact ⟨_, hring radius xq wq x hne, by simp, frame_outline ha hb hab hna hnb hR hin hs⟩

/-- `vtk_tube` of averages over circles: for each cell of the line as many quads as nodes, all of them pieces of the
    surface of the frustum around the cell. -/
theorem vtk_tube_circle {radius : V3 → ℝ} {xq wq : List ℝ} {cells : List (V3 × V3)} {path : String}
    (hpath : path ≠ "") (hne : xq ≠ [])
    (hc : ∀ c ∈ cells, norm (c.2 - c.1) ≠ 0 ∧ NotNearlyVertical (c.2 - c.1)) :
    ∃ d quads, vtkTube (.ok ()) (circleQuadrature radius xq wq) cells path ".vtk" = .ok (d, path) ∧
      corners d = List.flatten quads ∧
      List.Forall₂ (fun c qs => qs.length = xq.length ∧ ∀ q ∈ qs, Piece c.1 c.2 (radius c.1) (radius c.2) q) cells quads := by
  classical
  have key : ∀ c ∈ cells, ∃ rings : List V3 × List V3, cellRings (circleQuadrature radius xq wq) c = .ok rings ∧
      rings.1.length = rings.2.length ∧ (quadsBetween rings.1 rings.2).length = xq.length ∧
      ∀ q ∈ quadsBetween rings.1 rings.2, Piece c.1 c.2 (radius c.1) (radius c.2) q := by
    intro c hcc
    obtain ⟨hn, hv⟩ := hc c hcc
    obtain ⟨a, b, ha, hb, hab, hna, hnb, hring⟩ := circle_frame hn hv
    refine ⟨(xq.map (onFrame a b c.1 (radius c.1)), xq.map (onFrame a b c.2 (radius c.2))), ?_, by simp,
      by simp [quadsBetween], ?_⟩
    · simp only [cellRings]
      rw [hring _ _ _ _ hne, py_bind_ok, hring _ _ _ _ hne, py_bind_ok]
    · intro q hq
      simp only [quadsBetween, List.length_map, List.mem_map, List.mem_range] at hq
      obtain ⟨j, hj, rfl⟩ := hq
      have hm := Nat.mod_lt (j + 1) (by omega : 0 < xq.length)
      simp only [List.getElem?_map, List.getElem?_eq_getElem hj, List.getElem?_eq_getElem hm, Option.map_some]
      exact ⟨_, _, direction_unit ha hb hab, direction_unit ha hb hab, direction_normal hna hnb,
        direction_normal hna hnb, rfl⟩
  choose! f hf using key
  have hmap : pyMap (cellRings (circleQuadrature radius xq wq)) cells = .ok (cells.map f) :=
    pyMap_ok (fun c hcc => (hf c hcc).1)
  obtain ⟨d, hd⟩ := (tube_render_returns_iff (cells.map f)).1.2 (by
    intro t ht
    obtain ⟨c, hcc, rfl⟩ := List.mem_map.1 ht
    exact (hf c hcc).2.1)
  refine ⟨d, cells.map (fun c => quadsBetween (f c).1 (f c).2), ?_, ?_, ?_⟩
  · unfold vtkTube
    rw [show (path != "") = true by simpa using hpath, pyAssert_true, py_bind_ok]
    simp only [BEq.rfl, pyAssert_true, py_bind_ok, tubeRings, hmap, hd]
  · rw [(tube_render_draws hd).2, List.flatMap_def, List.map_map]; rfl
  · rw [List.forall₂_map_right_iff, List.forall₂_same]
    exact fun c hcc => (hf c hcc).2.2

/-- The ring of a `SquareRim` with at least two nodes inside of the interval, the second after the first, is not the
    boundary of the convex hull: it jumps from side to side and leaves points on both sides of its lines. -/
theorem rim_ring_not_outline {P : V3 → V3} {s t : ℝ} {xq wq : List ℝ} {x n : V3} (hn : norm n ≠ 0)
    (hp : dot (P x - x) n = 0) (hP : P x ≠ x) (hs : -1 < s) (hst : s < t)
    (hin : ∀ r ∈ s :: t :: xq, -1 ≤ r ∧ r ≤ 1) :
    ∃ pts, ring (rimQuadrature P (s :: t :: xq) wq) x n = .ok pts ∧ ¬ Outline n pts := by
  refine ⟨_, rim_points hin hn hp (by simp), ?_⟩
  rintro ⟨m, hm, h⟩
  set w := P x - x with hw
  set w' := cross (unit n) w with hw'
  set p := (0.5 * (1 - s)) • (x + w) + (0.5 * (1 + s)) • (x + w') with hpd
  set q := (0.5 * (1 - s)) • (x + w') + (0.5 * (1 + s)) • (x - w) with hqd
  have hlen : 2 ≤ (((s :: t :: xq).map (sides x w w')).flatten).length := by simp [sides]
  have hpq : [some p, some q] ∈ polygon ((s :: t :: xq).map (sides x w w')).flatten := by
    rw [polygon, List.mem_map]
    refine ⟨0, List.mem_range.2 (by omega), ?_⟩
    rw [Nat.mod_eq_of_lt (by omega)]
    simp [sides, hpd, hqd]
  have h1 := h p q hpq ((0.5 * (1 - t)) • (x + w) + (0.5 * (1 + t)) • (x + w')) (by simp [sides])
  have h2 := h p q hpq ((0.5 * (1 - s)) • (x - w) + (0.5 * (1 + s)) • (x - w')) (by simp [sides])
  have e1 : ∀ m, dot (cross (q - p) ((0.5 * (1 - t)) • (x + w) + (0.5 * (1 + t)) • (x + w') - p)) m =
      (0.5 * (s - t) * (1 + s)) * dot (cross w w') m := by
    intro m
    simp only [hpd, hqd, dot, cross, sub_x, sub_y, sub_z, add_x, add_y, add_z, smul_x, smul_y, smul_z]; ring
  have e2 : ∀ m, dot (cross (q - p) ((0.5 * (1 - s)) • (x - w) + (0.5 * (1 + s)) • (x - w') - p)) m =
      (1 + s ^ 2) * dot (cross w w') m := by
    intro m
    simp only [hpd, hqd, dot, cross, sub_x, sub_y, sub_z, add_x, add_y, add_z, smul_x, smul_y, smul_z]; ring
  rw [e1] at h1
  rw [e2] at h2
  have hww : 0 < dot w w := by
    rcases (dot_self_nonneg w).lt_or_eq with h | h
    · exact h
    · exfalso
      apply hP
      have := dot_zero_self h.symm
      have a1 := congrArg V3.x this; have a2 := congrArg V3.y this; have a3 := congrArg V3.z this
      simp only [hw, sub_x, sub_y, sub_z] at a1 a2 a3
      ext <;> linarith
  have hnn : 0 < norm n := lt_of_le_of_ne (Shape.norm_nonneg n) (Ne.symm hn)
  have hwu : dot w (unit n) = 0 := by rw [dot_unit, hp, zero_div]
  have hc : ∀ y, dot (cross w w') y = dot w w * dot (unit n) y := by
    intro y
    have : dot (cross w w') y = dot w w * dot (unit n) y - dot w (unit n) * dot w y := by
      simp only [hw', dot, cross]; ring
    rw [this, hwu]; ring
  have hne : dot (unit n) m ≠ 0 := by
    have hun : dot (unit n) n = norm n := by
      rw [unit, dot_smul_left, ← norm_sq]; field_simp
    rcases hm with rfl | rfl
    · rw [hun]; exact hn
    · rw [dot_smul_right, hun]; intro h; apply hn; linarith
  rw [hc] at h1 h2
  have h3 : 0 ≤ dot (unit n) m := by
    by_contra hlt
    push Not at hlt
    have : (1 + s ^ 2) * (dot w w * dot (unit n) m) < 0 :=
      mul_neg_of_pos_of_neg (by positivity) (mul_neg_of_pos_of_neg hww hlt)
    linarith
  have h4 : 0 < dot w w * dot (unit n) m := mul_pos hww (lt_of_le_of_ne h3 (Ne.symm hne))
  have h5 : 0.5 * (s - t) * (1 + s) < 0 := mul_neg_of_neg_of_pos (by linarith) (by linarith)
  have := mul_neg_of_neg_of_pos h5 h4
  linarith

/-! ## Lines -/

/-- `radial_order_points(points)` returns iff there are at least four points, the first three are not on a line and all are
    in their plane up to 1e-10; else an assertion fails.  The result has the same points. -/
theorem radial_order_returns_iff {eigh : Eigh} {argsort : List ℝ → List Nat} (he : EighSpec eigh) (ha : ArgsortSpec argsort)
    (v0 v1 v2 : V3) (rest : List V3) :
    ((∃ qs, radialOrder eigh argsort (v0 :: v1 :: v2 :: rest) = .ok qs) ↔
      rest ≠ [] ∧ norm (cross (v1 - v0) (v2 - v0)) ≠ 0 ∧ ∀ p ∈ v0 :: v1 :: v2 :: rest,
        |dot (p - mean (v0 :: v1 :: v2 :: rest)) (unit (cross (v1 - v0) (v2 - v0)))| < 1e-10) ∧
    (∀ qs, radialOrder eigh argsort (v0 :: v1 :: v2 :: rest) = .ok qs → qs.Perm (v0 :: v1 :: v2 :: rest)) ∧
    (∀ e, radialOrder eigh argsort (v0 :: v1 :: v2 :: rest) = .error e → e = .assertion) := by
  set points := v0 :: v1 :: v2 :: rest with hpts
  set k := cross (v1 - v0) (v2 - v0) with hk
  by_cases hr : rest = []
  · have : radialOrder eigh argsort points = .error .assertion := by
      simp only [radialOrder, hpts, hr, List.length_cons, List.length_nil]
      simp
    rw [this]
    simp [hr]
  have hlen : decide (3 < points.length) = true := decide_eq_true (by
    have := List.length_pos_of_ne_nil hr
    simp only [hpts, List.length_cons]; omega)
  by_cases h0 : norm k = 0
  · have : radialOrder eigh argsort points = .error .assertion := by
      rw [radialOrder, hlen, pyAssert_true, py_bind_ok]
      simp only [hpts]
      rw [if_pos h0]
    rw [this]
    simp [h0]
  have hred : radialOrder eigh argsort points = orderWith eigh argsort points (unit k) := by
    rw [radialOrder, hlen, pyAssert_true, py_bind_ok]
    simp only [hpts]
    rw [if_neg h0]
    rfl
  by_cases hp : ∀ p ∈ points, |dot (p - mean points) (unit k)| < 1e-10
  · obtain ⟨t0, t1, qs, -, -, -, -, -, hq, hperm, -⟩ := orderWith_ok he ha (unit_dot h0) hp
    rw [hred, hq]
    refine ⟨⟨fun _ => ⟨hr, h0, hp⟩, fun _ => ⟨_, rfl⟩⟩, fun qs' h => ?_, fun e h => by simp at h⟩
    rw [Except.ok.injEq] at h
    exact h ▸ hperm
  · have : orderWith eigh argsort points (unit k) = .error .assertion := by
      unfold orderWith
      simp only
      rw [show (points.all fun p => decide (|dot (p - mean points) (unit k)| < 1e-10)) = false by
        rw [Bool.eq_false_iff, Ne, List.all_eq_true]
        intro h
        exact hp (fun p hpm => of_decide_eq_true (h p hpm)), pyAssert_false, py_bind_error]
    rw [hred, this]
    simp [hp]

/-- With fewer than four points the assertion fails as well. -/
theorem radial_order_few {eigh : Eigh} {argsort : List ℝ → List Nat} {points : List V3} (h : points.length ≤ 3) :
    radialOrder eigh argsort points = .error .assertion := by
  unfold radialOrder
  rw [show decide (3 < points.length) = false from decide_eq_false (by omega), pyAssert_false, py_bind_error]

/-- Four or more points of a circle, the first three different: if the line through the origin along the normal passes
    inside of the circle then the points are put in the order of the boundary of their convex hull. -/
theorem radial_order_outline {eigh : Eigh} {argsort : List ℝ → List Nat} (he : EighSpec eigh) (ha : ArgsortSpec argsort)
    {v0 v1 v2 n c : V3} {R : ℝ} {rest : List V3} (hn : norm n ≠ 0) (hrest : rest ≠ [])
    (hc : ∀ q ∈ v0 :: v1 :: v2 :: rest, OnCircle c n R q) (d01 : v0 ≠ v1) (d02 : v0 ≠ v2) (d12 : v1 ≠ v2)
    (hax : AxisMeets n c R) :
    ∃ qs, radialOrder eigh argsort (v0 :: v1 :: v2 :: rest) = .ok qs ∧ qs.Perm (v0 :: v1 :: v2 :: rest) ∧ Outline n qs := by
  have hnn : dot n n ≠ 0 := by
    rw [← norm_sq]; exact pow_ne_zero 2 hn
  obtain ⟨h0, h1, h2, h3⟩ := circle_checks hnn hc d01 d02 d12
  set k := cross (v1 - v0) (v2 - v0) with hk
  have hp : ∀ p ∈ v0 :: v1 :: v2 :: rest, |dot (p - mean (v0 :: v1 :: v2 :: rest)) (unit k)| < 1e-10 := by
    intro p hp
    rw [dot_unit, h3 p hp]; norm_num
  obtain ⟨t0, t1, qs, u0, u1, o01, m0, m1, hq, hperm, hsort⟩ := orderWith_ok he ha (unit_dot h0) hp
  have hlen : decide (3 < (v0 :: v1 :: v2 :: rest).length) = true := decide_eq_true (by
    have := List.length_pos_of_ne_nil hrest
    simp only [List.length_cons]; omega)
  have par : ∀ t, dot (unit k) t = 0 → dot n t = 0 := by
    intro t ht
    rw [dot_symm, dot_unit] at ht
    rw [dot_symm]
    exact h2 t ((div_eq_zero_iff.1 ht).resolve_right h0)
  have hR : 0 ≤ R := by
    rw [← (hc v0 (by simp)).1]; exact Shape.norm_nonneg _
  refine ⟨qs, ?_, hperm, sorted_outline (m := n) u0 u1 o01 (par _ m0) (par _ m1) hnn
    (fun q hq => hc q (hperm.mem_iff.1 hq)) hR hax hsort⟩
  rw [radialOrder, hlen, pyAssert_true, py_bind_ok]
  change (if norm k = 0 then _ else orderWith eigh argsort _ (unit k)) = _
  rw [if_neg h0, hq]

/-- `vtk_plot_data(surfaces)` returns iff `radial_order_points` returns for all surfaces; it draws the closed polygons
    through the ordered points. -/
theorem plot_data_draws {eigh : Eigh} {argsort : List ℝ → List Nat} (ha : ArgsortSpec argsort) (surfaces : List (List V3)) :
    ((∃ d, plotData eigh argsort surfaces = .ok d) ↔ ∀ s ∈ surfaces, ∃ qs, radialOrder eigh argsort s = .ok qs) ∧
    ∀ d, plotData eigh argsort surfaces = .ok d → ∃ rings,
      List.Forall₂ (fun s qs => radialOrder eigh argsort s = .ok qs) surfaces rings ∧ d.points = List.flatten rings ∧
        corners d = rings.flatMap polygon := by
  have hlen : ∀ {s qs}, radialOrder eigh argsort s = .ok qs → 2 ≤ qs.length := by
    intro s qs h
    have h3 : 3 < s.length := by
      by_contra hc
      rw [radial_order_few (by omega)] at h
      simp at h
    unfold radialOrder at h
    rw [decide_eq_true h3, pyAssert_true, py_bind_ok] at h
    match s, h3, h with
    | v0 :: v1 :: v2 :: rest, h3, h =>
      simp only at h
      split at h
      · simp at h
      · unfold orderWith at h
        obtain ⟨_, _, h⟩ := py_bind_eq_ok.1 h
        obtain ⟨_, _, h⟩ := py_bind_eq_ok.1 h
        have hl := (pyMap_eq_ok.1 h).length_eq
        have hp : ∀ as : List ℝ, (argsort as).length = as.length := fun as => by
          have := (ha as).1.length_eq
          rwa [List.length_range] at this
        rw [hp, List.length_map] at hl
        omega
  have key : ∀ rings, List.Forall₂ (fun s qs => radialOrder eigh argsort s = .ok qs) surfaces rings →
      ∃ lines, plotData eigh argsort surfaces = .ok ⟨rings.flatten, lines⟩ ∧
        corners ⟨rings.flatten, lines⟩ = rings.flatMap polygon := by
    intro rings hf
    have h2 : ∀ r ∈ rings, 2 ≤ r.length := by
      intro r hr
      induction hf with
      | nil => simp at hr
      | cons h _ ih =>
        rcases List.mem_cons.1 hr with rfl | hr
        · exact hlen h
        · exact ih hr
    obtain ⟨lines, hl, hd⟩ := lineLoop_draws rings [] none h2
    refine ⟨lines, ?_, hd⟩
    unfold plotData
    rw [pyMap_eq_ok.2 hf, py_bind_ok]
    simp only
    rw [show (0 : Nat) = ([] : List V3).length from rfl, hl, py_bind_ok]
  refine ⟨⟨fun ⟨d, h⟩ s hs => ?_, fun h => ?_⟩, fun d h => ?_⟩
  · unfold plotData at h
    obtain ⟨rings, hr, -⟩ := py_bind_eq_ok.1 h
    exact forall₂_left (pyMap_eq_ok.1 hr) s hs
  · choose! f hf using h
    obtain ⟨lines, hl, -⟩ := key (surfaces.map f) (by
      rw [List.forall₂_map_right_iff, List.forall₂_same]; exact hf)
    exact ⟨_, hl⟩
  · have h' := h
    unfold plotData at h'
    obtain ⟨rings, hr, -⟩ := py_bind_eq_ok.1 h'
    have hf := pyMap_eq_ok.1 hr
    obtain ⟨lines, hl, hd⟩ := key rings hf
    rw [hl, Except.ok.injEq] at h
    subst h
    exact ⟨rings, hf, rfl, hd⟩

/-- Averages over circles with four or more increasing nodes inside of the interval, drawn with lines
    (`vtk_plot_data(render_avg_surface(Pi))`): where the line through the origin along the cell passes inside of all
    circles, each of them is drawn as the boundary of the convex hull of its points. -/
theorem plot_circles {eigh : Eigh} {argsort : List ℝ → List Nat} (he : EighSpec eigh) (ha : ArgsortSpec argsort)
    {radius : V3 → ℝ} {xq wq : List ℝ} {cells : List ((V3 × V3) × List V3)} (h4 : 4 ≤ xq.length)
    (hin : ∀ t ∈ xq, -1 < t ∧ t < 1) (hs : xq.Pairwise (· < ·))
    (hc : ∀ c ∈ cells, norm (c.1.2 - c.1.1) ≠ 0 ∧ NotNearlyVertical (c.1.2 - c.1.1) ∧
      ∀ x ∈ c.2, 0 < radius x ∧ AxisMeets (c.1.2 - c.1.1) x (radius x)) :
    ∃ surfaces d, avgSurfaces (.ok ()) (circleQuadrature radius xq wq) cells = .ok surfaces ∧
      plotData eigh argsort surfaces = .ok d ∧ ∃ rings, corners d = List.flatMap polygon rings ∧
      List.Forall₂ (fun (cx : V3 × V3) qs => qs.length = xq.length ∧ Outline cx.1 qs ∧
        ∀ q ∈ qs, OnCircle cx.2 cx.1 (radius cx.2) q)
        (cells.flatMap (fun c => c.2.map (fun x => (c.1.2 - c.1.1, x)))) rings := by
  classical
  obtain ⟨a, b, c, e, rest, rfl⟩ : ∃ a b c e rest, xq = a :: b :: c :: e :: rest := by
    match xq, h4 with
    | a :: b :: c :: e :: rest, _ => exact ⟨a, b, c, e, rest, rfl⟩
  set xq := a :: b :: c :: e :: rest with hxq
  have hne : xq ≠ [] := by simp [hxq]
  -- a single circle
  have one : ∀ n x, norm n ≠ 0 → NotNearlyVertical n → 0 < radius x → AxisMeets n x (radius x) →
      ∃ pts qs, ring (circleQuadrature radius xq wq) x n = .ok pts ∧ radialOrder eigh argsort pts = .ok qs ∧
        qs.length = xq.length ∧ Outline n qs ∧ ∀ q ∈ qs, OnCircle x n (radius x) q := by
    intro n x hn hv hR hax
    obtain ⟨ta, tb, ua, ub, oab, na, nb, hring⟩ := circle_frame hn hv
    have hon : ∀ q ∈ xq.map (onFrame ta tb x (radius x)), OnCircle x n (radius x) q := by
      intro q hq
      obtain ⟨t, _, rfl⟩ := List.mem_map.1 hq
      have e1 : onFrame ta tb x (radius x) t - x =
          radius x • (Real.cos (Real.pi * t) • ta + Real.sin (Real.pi * t) • tb) := by
        ext <;> simp [onFrame]
      refine ⟨?_, ?_⟩
      · rw [e1, Shape.norm_smul, direction_unit ua ub oab, abs_of_pos hR, mul_one]
      · rw [e1, dot_smul_left, direction_normal na nb, mul_zero]
    have hdiff : ∀ s ∈ xq, ∀ t ∈ xq, s < t → onFrame ta tb x (radius x) s ≠ onFrame ta tb x (radius x) t := by
      intro s hs t ht hst h
      exact absurd (onFrame_injective ua ub oab hR (hin s hs) (hin t ht) h) hst.ne
    have hp := hs
    simp only [hxq, List.pairwise_cons, List.mem_cons] at hp
    obtain ⟨qs, hq, hperm, hout⟩ := radial_order_outline he ha
      (v0 := onFrame ta tb x (radius x) a) (v1 := onFrame ta tb x (radius x) b) (v2 := onFrame ta tb x (radius x) c)
      (rest := (e :: rest).map (onFrame ta tb x (radius x))) hn (by simp) (c := x) (R := radius x) hon
      (hdiff a (by simp [hxq]) b (by simp [hxq]) (hp.1 b (by simp)))
      (hdiff a (by simp [hxq]) c (by simp [hxq]) (hp.1 c (by simp)))
      (hdiff b (by simp [hxq]) c (by simp [hxq]) (hp.2.1 c (by simp))) hax
    refine ⟨_, qs, hring radius xq wq x hne, hq, ?_, hout, fun q hqm => hon q (hperm.mem_iff.1 hqm)⟩
    rw [hperm.length_eq]; simp [hxq]
  choose! f g hf using one
  have hcell : ∀ c ∈ cells, cellSurfaces (circleQuadrature radius xq wq) c =
      .ok (c.2.map (fun x => f (c.1.2 - c.1.1) x)) := fun c hcc =>
    pyMap_ok (fun x hx => (hf _ x (hc c hcc).1 (hc c hcc).2.1 ((hc c hcc).2.2 x hx).1 ((hc c hcc).2.2 x hx).2).1)
  have hsurf : avgSurfaces (.ok ()) (circleQuadrature radius xq wq) cells =
      .ok ((cells.flatMap (fun c => c.2.map (fun x => (c.1.2 - c.1.1, x)))).map (fun cx => f cx.1 cx.2)) := by
    rw [avgSurfaces, py_bind_ok, pyMap_ok hcell, py_bind_ok, List.map_flatMap, List.flatMap_def]
    simp only [List.map_map]
    rfl
  have hall : ∀ cx ∈ cells.flatMap (fun c => c.2.map (fun x => (c.1.2 - c.1.1, x))),
      radialOrder eigh argsort (f cx.1 cx.2) = .ok (g cx.1 cx.2) ∧ (g cx.1 cx.2).length = xq.length ∧
        Outline cx.1 (g cx.1 cx.2) ∧ ∀ q ∈ g cx.1 cx.2, OnCircle cx.2 cx.1 (radius cx.2) q := by
    intro cx hcx
    rw [List.mem_flatMap] at hcx
    obtain ⟨c, hcc, hcx⟩ := hcx
    obtain ⟨x, hx, rfl⟩ := List.mem_map.1 hcx
    exact (hf _ x (hc c hcc).1 (hc c hcc).2.1 ((hc c hcc).2.2 x hx).1 ((hc c hcc).2.2 x hx).2).2
  obtain ⟨hret, hdraw⟩ := plot_data_draws (eigh := eigh) ha
    ((cells.flatMap (fun c => c.2.map (fun x => (c.1.2 - c.1.1, x)))).map (fun cx => f cx.1 cx.2))
  obtain ⟨d, hd⟩ := hret.2 (by
    intro s hs
    obtain ⟨cx, hcx, rfl⟩ := List.mem_map.1 hs
    exact ⟨_, (hall cx hcx).1⟩)
  obtain ⟨rings, hr, -, hcor⟩ := hdraw d hd
  refine ⟨_, d, hsurf, hd, rings, hcor, ?_⟩
  rw [List.forall₂_map_left_iff] at hr
  clear hd hcor hdraw hret hsurf
  generalize cells.flatMap (fun c => c.2.map (fun x => (c.1.2 - c.1.1, x))) = l at hr hall
  induction hr with
  | nil => exact .nil
  | cons h _ ih =>
    have hx := hall _ (List.mem_cons_self ..)
    rw [hx.1, Except.ok.injEq] at h
    subst h
    exact .cons hx.2 (ih (fun cx hcx => hall cx (List.mem_cons_of_mem _ hcx)))

end Verif.Plot
