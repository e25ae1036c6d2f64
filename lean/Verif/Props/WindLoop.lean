import Verif.Lemmas.WindLoop
import Verif.Props.Tangent
/-!
# C111: winding numbers of loops
-/
namespace Verif.Tangent
open Verif Matrix

/-- C111.  The winding number is an integer. -/
theorem winding_integer {G : Curve 2} {H : Course} (hH : CourseOf G H) {c : Fin 2 → ℝ}
    (hc : ∀ e ∈ G.cells, ¬ OnSegment c (G.pos e.1) (G.pos e.2)) : ∃ k : ℤ, winding G H c = k := by
  have h0 : ((H.map (fun e => angle c (G.pos e.1) (G.pos e.2))).sum : Real.Angle) = ((0 : ℝ) : Real.Angle) := by
    have h1 : ∀ l : Course, (((l.map (fun e => angle c (G.pos e.1) (G.pos e.2))).sum : ℝ) : Real.Angle) =
        (l.map (fun e => ((angle c (G.pos e.1) (G.pos e.2) : ℝ) : Real.Angle))).sum := by
      intro l
      induction l with
      | nil => simp
      | cons e l ih => simp only [List.map_cons, List.sum_cons, Real.Angle.coe_add, ih]
    rw [h1, List.map_congr_left (fun e he => angle_coe (course_off hH hc he)),
      course_cancels hH.closed (fun v => ((asComplex (G.pos v - c)).arg : Real.Angle)), Real.Angle.coe_zero]
  obtain ⟨k, hk⟩ := Real.Angle.angle_eq_iff_two_pi_dvd_sub.1 h0
  refine ⟨k, ?_⟩
  have hpi := Real.pi_pos
  unfold winding
  rw [div_eq_iff (by positivity)]
  linarith

/-- C111.  It is zero outside of the convex hull of the loop. -/
theorem winding_outside {G : Curve 2} (hG : G.Ok) {H : Course} (hH : CourseOf G H) {c : Fin 2 → ℝ} (hc : OutsideHull G.X c) :
    winding G H c = 0 := by
  obtain ⟨u, hu⟩ := hc
  have hv : ∀ e ∈ H, G.pos e.1 ∈ G.X ∧ G.pos e.2 ∈ G.X := by
    intro e he
    have hlt : e.1 < G.X.length ∧ e.2 < G.X.length := by
      rcases course_mem hH he with h | h
      · exact hG.lt _ h
      · exact (hG.lt _ h).symm
    exact ⟨List.mem_of_getElem? (pos_eq hlt.1), List.mem_of_getElem? (pos_eq hlt.2)⟩
  unfold winding
  rw [List.map_congr_left (fun e he => angle_half (hu _ (hv e he).1) (hu _ (hv e he).2)),
    course_cancels hH.closed (fun v => (asComplex (G.pos v - c) * (⟨- u 0, u 1⟩ : ℂ)).arg), zero_div]

/-- C111.  It is positive at points which are on the left of all cells. -/
theorem winding_left {G : Curve 2} {H : Course} (hH : CourseOf G H) (hne : G.cells ≠ []) {c : Fin 2 → ℝ}
    (hc : ∀ e ∈ H, LeftOf c (G.pos e.1) (G.pos e.2)) : 1 ≤ winding G H c := by
  have hoff : ∀ e ∈ G.cells, ¬ OnSegment c (G.pos e.1) (G.pos e.2) := by
    intro e he
    obtain ⟨i, hi, rfl⟩ := List.getElem_of_mem he
    have hl := hH.same.length_eq
    have h := (List.forall₂_iff_get.1 hH.same).2 i hi (by omega)
    simp only [List.get_eq_getElem] at h
    have hm := hc _ (List.getElem_mem (show i < H.length by omega))
    rcases h with h | h
    · rw [h] at hm
      exact left_off hm
    · rw [h] at hm
      exact off_swap (left_off hm)
  obtain ⟨k, hk⟩ := winding_integer hH hoff
  have hHne : H ≠ [] := by
    rintro rfl
    exact hne (List.length_eq_zero_iff.1 hH.same.length_eq)
  have hpos : 0 < (H.map (fun e => angle c (G.pos e.1) (G.pos e.2))).sum := by
    apply List.sum_pos
    · intro x hx
      obtain ⟨e, he, rfl⟩ := List.mem_map.1 hx
      exact (angle_left (hc e he)).1
    · simpa using hHne
  have hw : 0 < winding G H c := div_pos hpos (by have := Real.pi_pos; positivity)
  rw [hk] at hw ⊢
  exact_mod_cast hw

/-- C111.  `wind_number` is the sum of the angles at which one sees the cells, in the direction in which they are numbered. -/
theorem wind_number_angles {G : Curve 2} (hG : G.Ok) (hl : Loop G) (dfs : Nat → List (Nat × Nat)) {c : Fin 2 → ℝ}
    (hc : ∀ e ∈ G.cells, ¬ OnSegment c (G.pos e.1) (G.pos e.2)) :
    windNumber G dfs exactly c = .ok ((G.cells.map (fun e => angle c (G.pos e.1) (G.pos e.2))).sum / (2 * Real.pi)) := by
  unfold windNumber
  rw [loop_tangents (loop_no_terminal hl) dfs, isLoop_iff.2 hl]
  simp only [pyAssert_true, py_bind_ok]
  congr 1
  have hcell : ∀ e ∈ G.cells, cellIntegral G exactly c e (direction G e.1 e.2) = angle c (G.pos e.1) (G.pos e.2) / (2 * Real.pi) := by
    intro e he
    have hne : G.pos e.2 - G.pos e.1 ≠ 0 := by
      intro h
      apply hG.ne e he
      rw [pos_eq (hG.lt e he).1, pos_eq (hG.lt e he).2, sub_eq_zero.1 h]
    have hn : norm (G.pos e.2 - G.pos e.1) ≠ 0 := (Real.sqrt_pos.2 (dot_self_pos hne)).ne'
    rw [← integral_angle (hc e he)]
    unfold cellIntegral exactly direction
    rw [← intervalIntegral.integral_const_mul]
    congr 1
    funext s
    unfold integrand
    rw [smul_dotProduct, smul_dotProduct]
    simp only [rotate, dotProduct, Fin.sum_univ_two, smul_eq_mul, Pi.smul_apply]
    simp
    field_simp
    congr 1
    ring
  have hz : ∀ l : List (Nat × Nat), (∀ e ∈ l, e ∈ G.cells) →
      (List.zipWith (cellIntegral G exactly c) l (l.map (fun e => direction G e.1 e.2))).sum =
        (l.map (fun e => angle c (G.pos e.1) (G.pos e.2))).sum / (2 * Real.pi) := by
    intro l
    induction l with
    | nil => simp
    | cons e l ih =>
      intro h
      simp only [List.map_cons, List.zipWith_cons_cons, List.sum_cons]
      rw [ih (fun e he => h e (List.mem_cons_of_mem _ he)), hcell e (h e List.mem_cons_self)]
      ring
  exact hz G.cells (fun e h => h)

/-- C111.  `wind_number` differs from the winding number by the angles of the cells which are numbered against the
    directions. -/
theorem wind_number_course {G : Curve 2} (hG : G.Ok) (hl : Loop G) (dfs : Nat → List (Nat × Nat)) {H : Course} (hH : CourseOf G H)
    {c : Fin 2 → ℝ} (hc : ∀ e ∈ G.cells, ¬ OnSegment c (G.pos e.1) (G.pos e.2)) :
    windNumber G dfs exactly c =
      .ok (winding G H c - ((against G H).map (fun e => angle c (G.pos e.1) (G.pos e.2))).sum / Real.pi) := by
  rw [wind_number_angles hG hl dfs hc, sum_against hH.same hc]
  unfold winding against
  congr 1
  have hpi := Real.pi_pos
  field_simp

/-- C111.  It is negative at points which are on the right of all cells. -/
theorem winding_right {G : Curve 2} {H : Course} (hH : CourseOf G H) (hne : G.cells ≠ []) {c : Fin 2 → ℝ}
    (hc : ∀ e ∈ H, LeftOf c (G.pos e.2) (G.pos e.1)) : winding G H c ≤ -1 := by
  have hK : CourseOf G (H.map Prod.swap) := by
    refine ⟨?_, fun v => ?_⟩
    · refine List.forall₂_map_right_iff.2 (hH.same.imp ?_)
      rintro e h (rfl | rfl)
      · exact .inr rfl
      · exact .inl (Prod.swap_swap e)
    · have := hH.closed v
      simpa [List.map_map, Function.comp_def] using this.symm
  have h1 := winding_left hK hne (c := c) (by
    intro e he
    obtain ⟨h, hh, rfl⟩ := List.mem_map.1 he
    exact hc h hh)
  have h2 : winding G (H.map Prod.swap) c = - winding G H c := by
    unfold winding
    rw [List.map_map, ← neg_div, List.sum_neg, List.map_map]
    congr 2
    refine List.map_congr_left (fun e he => ?_)
    simp only [Function.comp, Prod.fst_swap, Prod.snd_swap]
    rw [angle_swap (left_off (hc e he)), neg_neg]
  linarith

/-- C111.  For loops numbered along: `wind_number` is the winding number up to the angle of the last cell. -/
theorem wind_number_numbered {G : Curve 2} (hG : G.Ok) (hl : Loop G) (hn : Numbered G) (dfs : Nat → List (Nat × Nat))
    {c : Fin 2 → ℝ} (hc : ∀ e ∈ G.cells, ¬ OnSegment c (G.pos e.1) (G.pos e.2)) :
    windNumber G dfs exactly c = .ok (winding G (along G) c - angle c (G.pos (G.X.length - 1)) (G.pos 0) / Real.pi) := by
  rw [wind_number_course hG hl dfs (numbered_course hn) hc, against_along hn]
  simp

/-- C111 is false of `encloses_points`: if the vertices are numbered along the loop, then points outside of the convex hull
    of the loop are taken to be enclosed if they see the last cell from its right at an angle larger than `tol` half turns. -/
theorem encloses_outside {G : Curve 2} (hG : G.Ok) (hl : Loop G) (hn : Numbered G) (dfs : Nat → List (Nat × Nat))
    {c : Fin 2 → ℝ} (hc : OutsideHull G.X c) (tol : ℝ) :
    ∃ b, enclosesPoint G dfs exactly tol c = .ok b ∧
      (b = true ↔ tol * Real.pi < angle c (G.pos 0) (G.pos (G.X.length - 1))) := by
  have hoff := outside_off hG hc
  have hlast := hoff (0, G.X.length - 1) (hn.cells.mem_iff.2 (by simp))
  refine ⟨_, by unfold enclosesPoint; rw [wind_number_numbered hG hl hn dfs hoff]; rfl, ?_⟩
  rw [winding_outside hG (numbered_course hn) hc, angle_swap hlast, decide_eq_true_iff]
  have hpi := Real.pi_pos
  rw [gt_iff_lt, zero_sub, neg_div, neg_neg, lt_div_iff₀ hpi]

/-- C111.  Points on the left of all cells are found unless they see the last cell at an angle of nearly half a turn. -/
theorem encloses_left {G : Curve 2} (hG : G.Ok) (hl : Loop G) (hn : Numbered G) (dfs : Nat → List (Nat × Nat))
    {c : Fin 2 → ℝ} (hc : ∀ e ∈ along G, LeftOf c (G.pos e.1) (G.pos e.2)) {tol : ℝ}
    (ht : angle c (G.pos (G.X.length - 1)) (G.pos 0) < (1 - tol) * Real.pi) :
    enclosesPoint G dfs exactly tol c = .ok true := by
  have hoff := left_all_off (numbered_course hn) hc
  have hw := winding_left (numbered_course hn) (numbered_ne hn) hc
  unfold enclosesPoint
  rw [wind_number_numbered hG hl hn dfs hoff]
  simp only [py_bind_ok]
  rw [decide_eq_true]
  have hpi := Real.pi_pos
  have := (div_lt_iff₀ hpi).2 ht
  linarith

/-- C111 is false of `encloses_points`: if all cells have the point on the right, that is, if the vertices are numbered
    clockwise, then no such point is found. -/
theorem encloses_right {G : Curve 2} (hG : G.Ok) (hl : Loop G) (hn : Numbered G) (dfs : Nat → List (Nat × Nat))
    {c : Fin 2 → ℝ} (hc : ∀ e ∈ along G, LeftOf c (G.pos e.2) (G.pos e.1)) {tol : ℝ} (ht : 0 ≤ tol) :
    enclosesPoint G dfs exactly tol c = .ok false := by
  have hoff := right_all_off (numbered_course hn) hc
  have hw := winding_right (numbered_course hn) (numbered_ne hn) hc
  have hlast := angle_left (hc _ (last_along hn))
  dsimp only at hlast
  unfold enclosesPoint
  rw [wind_number_numbered hG hl hn dfs hoff]
  simp only [py_bind_ok]
  rw [decide_eq_false]
  have hpi := Real.pi_pos
  rw [angle_swap (left_off (hc _ (last_along hn)))]
  have := (div_lt_one hpi).2 hlast.2
  rw [neg_div]
  push Not
  linarith

/-! ## The triangle, also numbered clockwise -/

theorem triangle_numbered : Numbered triangle := ⟨by simp [triangle], by
  show [(0, 1), (0, 2), (1, 2)].Perm [(0, 2), (0, 1), (1, 2)]
  decide⟩

theorem ok_of {x y z : Fin 2 → ℝ} (h1 : x ≠ y) (h2 : x ≠ z) (h3 : y ≠ z) : (⟨[x, y, z], [(0, 1), (0, 2), (1, 2)]⟩ : Curve 2).Ok := by
  refine ⟨?_, ?_, ?_⟩
  · intro c hc
    simp at hc
    rcases hc with rfl | rfl | rfl <;> simp
  · intro c hc h
    simp at hc
    rcases hc with rfl | rfl | rfl <;> simp at h
    exacts [h1 h, h2 h, h3 h]
  · have hs : ∀ i j : Nat, i < 3 → j < 3 → ∀ c c', [(0, 1), (0, 2), (1, 2)][i]? = some c → [(0, 1), (0, 2), (1, 2)][j]? = some c' →
        (c = c' ∨ c = c'.swap) → i = j := by
      intro i j hi hj c c' h1 h2
      have : i = 0 ∨ i = 1 ∨ i = 2 := by omega
      have : j = 0 ∨ j = 1 ∨ j = 2 := by omega
      rcases ‹i = 0 ∨ _› with rfl | rfl | rfl <;> rcases ‹j = 0 ∨ _› with rfl | rfl | rfl <;>
        (simp at h1 h2; subst h1; subst h2; simp)
    intro i j a b h1 h2
    have l1 := joins_lt h1
    have l2 := joins_lt h2
    rcases h1 with h1 | h1 <;> rcases h2 with h2 | h2 <;> exact hs i j l1 l2 _ _ h1 h2 (by simp)

theorem triangle_ok : triangle.Ok := by
  refine ok_of ?_ ?_ ?_ <;> intro h
  · have := congrFun h 0; simp at this
  · have := congrFun h 1; simp at this
  · have := congrFun h 0; simp at this

/-- The triangle numbered clockwise. -/
def clockwise : Curve 2 := ⟨[![0, 0], ![0, 1], ![1, 0]], [(0, 1), (0, 2), (1, 2)]⟩

theorem clockwise_loop : Loop clockwise := isLoop_iff.1 (by decide +kernel)

theorem clockwise_ok : clockwise.Ok := by
  refine ok_of ?_ ?_ ?_ <;> intro h
  · have := congrFun h 1; simp at this
  · have := congrFun h 0; simp at this
  · have := congrFun h 0; simp at this

theorem clockwise_numbered : Numbered clockwise := ⟨by simp [clockwise], by
  show [(0, 1), (0, 2), (1, 2)].Perm [(0, 2), (0, 1), (1, 2)]
  decide⟩

theorem triangle_left : ∀ e ∈ along triangle, LeftOf ![1 / 2, 1 / 4] (triangle.pos e.1) (triangle.pos e.2) := by
  intro e he
  have : e = (0, 1) ∨ e = (2, 0) ∨ e = (1, 2) := by simpa [along, triangle] using he
  rcases this with rfl | rfl | rfl <;> simp [LeftOf, triangle, Curve.pos] <;> norm_num

theorem clockwise_right : ∀ e ∈ along clockwise, LeftOf ![1 / 2, 1 / 4] (clockwise.pos e.2) (clockwise.pos e.1) := by
  intro e he
  have : e = (0, 1) ∨ e = (2, 0) ∨ e = (1, 2) := by simpa [along, clockwise] using he
  rcases this with rfl | rfl | rfl <;> simp [LeftOf, clockwise, Curve.pos] <;> norm_num

example : 1 ≤ winding triangle (along triangle) ![1 / 2, 1 / 4] :=
  winding_left (numbered_course triangle_numbered) (by simp [triangle]) triangle_left

example : ∃ k : ℤ, winding triangle (along triangle) ![1 / 2, 1 / 4] = k :=
  winding_integer (numbered_course triangle_numbered) (left_all_off (numbered_course triangle_numbered) triangle_left)

example : winding clockwise (along clockwise) ![1 / 2, 1 / 4] ≤ -1 :=
  winding_right (numbered_course clockwise_numbered) (by simp [clockwise]) clockwise_right

example (dfs : Nat → List (Nat × Nat)) : enclosesPoint triangle dfs exactly (1 / 100) ![1 / 2, 1 / 4] = .ok true := by
  refine encloses_left triangle_ok triangle_loop triangle_numbered dfs triangle_left ?_
  have h : angle ![1 / 2, 1 / 4] (triangle.pos 2) (triangle.pos 0) < Real.pi / 2 := by
    refine lt_of_le_of_lt (le_abs_self _) (Complex.abs_arg_lt_pi_div_two_iff.2 (.inl ?_))
    simp [asComplex, triangle, Curve.pos, Complex.div_re, Complex.normSq_apply]
    norm_num
  have hpi := Real.pi_pos
  show angle ![1 / 2, 1 / 4] (triangle.pos 2) (triangle.pos 0) < _
  linarith

example (dfs : Nat → List (Nat × Nat)) : enclosesPoint clockwise dfs exactly (1 / 100) ![1 / 2, 1 / 4] = .ok false :=
  encloses_right clockwise_ok clockwise_loop clockwise_numbered dfs clockwise_right (by norm_num)

theorem beyond_outside : OutsideHull triangle.X ![-(1 / 2), 1 / 2] := by
  refine ⟨![-1, 0], ?_⟩
  intro p hp
  simp [triangle] at hp
  rcases hp with rfl | rfl | rfl <;> simp [dotProduct, Fin.sum_univ_two] <;> norm_num

example : winding triangle (along triangle) ![-(1 / 2), 1 / 2] = 0 :=
  winding_outside triangle_ok (numbered_course triangle_numbered) beyond_outside

/-- A point outside of the triangle which is taken to be enclosed. -/
example (dfs : Nat → List (Nat × Nat)) : enclosesPoint triangle dfs exactly (1 / 100) ![-(1 / 2), 1 / 2] = .ok true := by
  obtain ⟨b, h1, h2⟩ := encloses_outside triangle_ok triangle_loop triangle_numbered dfs beyond_outside (1 / 100)
  rw [h1, h2.2]
  have h : angle ![-(1 / 2), 1 / 2] (triangle.pos 0) (triangle.pos 2) = Real.pi / 2 := by
    unfold angle
    rw [show asComplex (triangle.pos 2 - ![-(1 / 2), 1 / 2]) / asComplex (triangle.pos 0 - ![-(1 / 2), 1 / 2]) = Complex.I from by
      apply Complex.ext <;>
        simp [asComplex, triangle, Curve.pos, Complex.div_re, Complex.div_im, Complex.normSq_apply] <;> norm_num]
    exact Complex.arg_I
  have hpi := Real.pi_pos
  show 1 / 100 * Real.pi < angle ![-(1 / 2), 1 / 2] (triangle.pos 0) (triangle.pos 2)
  linarith

example (dfs : Nat → List (Nat × Nat)) : ∃ w, windNumber triangle dfs exactly ![1 / 2, 1 / 4] = .ok w :=
  ⟨_, wind_number_angles triangle_ok triangle_loop dfs (left_all_off (numbered_course triangle_numbered) triangle_left)⟩

end Verif.Tangent
