import Verif.Props.Shape
/-!
# C99: squares and their rims for every corner which is accepted
-/
namespace Verif.Shape
open Verif V3

/-- **C99**, `SquareRim.quadrature` for a corner in the plane up to the tolerance: the weights sum to the perimeter of
the square with corner `P` and centre `c`, the projection of `x0` to the plane of the corner; every point is
a point of the boundary of this square moved against the normal by at most twice the distance of the corner from
the plane of `x0`. -/
theorem rim_quadrature_any {P : V3 → V3} {xq wq : List ℝ} (hg : GaussRule xq wq) {x0 n : V3}
    (hn : norm n ≠ 0) (hp : |dot (P x0 - x0) (unit n)| < 1e-13) :
    ∃ pts ws, rimQuadrature P xq wq x0 n = .ok (pts, ws) ∧ pts.length = ws.length ∧
      ws.sum = 4 * (√2 * norm (P x0 - centre x0 n (P x0))) ∧
      ∀ q ∈ pts, ∃ q', OnSquare (centre x0 n (P x0)) (unit n) (P x0) q' ∧
        norm (q - q') ≤ 2 * |dot (P x0 - x0) (unit n)| := by
  set m := unit n with hm
  set c := centre x0 n (P x0) with hc
  set w := P x0 - c with hw
  set δ := dot (P x0 - x0) m with hδ
  have hmm : dot m m = 1 := unit_dot hn
  have hm1 : norm m = 1 := norm_unit hn
  have hx0 : x0 = c - δ • m := by ext <;> simp [hc, centre, ← hm, ← hδ]
  have hvec : P x0 - x0 = w + δ • m := by
    ext <;> simp [hw, hc, centre, ← hm, ← hδ] <;> ring
  have hwm : dot w m = 0 := by
    have e : dot w m = δ - δ * dot m m := by
      simp only [hw, hc, centre, ← hm, hδ]
      unfold dot; simp only [add_x, add_y, add_z, sub_x, sub_y, sub_z, smul_x, smul_y, smul_z]; ring
    rw [e, hmm]; ring
  obtain ⟨h1, h2, h3⟩ := cross_orth hmm hwm
  have hcorners : rimCorners x0 n (P x0) = .ok [P x0, c + cross m w, c - w - (2 * δ) • m, c - cross m w] := by
    rw [rimCorners, if_neg hn]
    have hd : decide (|dot (P x0 - x0) ((norm n)⁻¹ • n)| < 1e-13) = true := decide_eq_true hp
    simp only [hd, pyAssert_true, py_bind_ok]
    change Except.ok [P x0, rotated x0 m (P x0 - x0) (Real.pi / 2), x0 - (P x0 - x0),
      rotated x0 m (P x0 - x0) (3 * Real.pi / 2)] = _
    rw [rotated_quarter, rotated_three_quarters]
    have hcm : cross m (P x0 - x0) = cross m w := by
      rw [hvec]
      ext <;> simp [cross] <;> ring
    rw [hcm, dot_comm m (P x0 - x0), ← hδ]
    have e1 : x0 + cross m w + δ • m = c + cross m w := by ext <;> simp [hc, centre, ← hm, ← hδ] <;> ring
    have e2 : x0 - (P x0 - x0) = c - w - (2 * δ) • m := by ext <;> simp [hw, hc, centre, ← hm, ← hδ] <;> ring
    have e3 : x0 - cross m w + δ • m = c - cross m w := by ext <;> simp [hc, centre, ← hm, ← hδ] <;> ring
    rw [e1, e2, e3]
  have hmap : ∀ x : ℝ, (-1 ≤ x ∧ x ≤ 1) →
      rimMap [P x0, c + cross m w, c - w - (2 * δ) • m, c - cross m w] x = .ok
        [(0.5 * (1 - x)) • P x0 + (0.5 * (1 + x)) • (c + cross m w),
         (0.5 * (1 - x)) • (c + cross m w) + (0.5 * (1 + x)) • (c - w - (2 * δ) • m),
         (0.5 * (1 - x)) • (c - w - (2 * δ) • m) + (0.5 * (1 + x)) • (c - cross m w),
         (0.5 * (1 - x)) • (c - cross m w) + (0.5 * (1 + x)) • P x0] := by
    intro x hx
    have : decide (|x| < 1 + 1e-13) = true := by
      have a1 : |x| ≤ 1 := abs_le.2 hx
      exact decide_eq_true (by linarith [show (0:ℝ) < 1e-13 by norm_num])
    rw [rimMap, this, pyAssert_true, py_bind_ok]
    rfl
  have hP : P x0 = c + w := by ext <;> simp [hw]
  refine ⟨_, _, by
    rw [rimQuadrature, hcorners]
    simp only [py_bind_ok]
    rw [hmap (-1) (by norm_num)]
    simp only [py_bind_ok]
    rw [mapPts_ok (fun x hx => hmap x (hg.mem x hx)), py_bind_ok], ?_, ?_, fun q hq => ?_⟩
  · have hl : ∀ l : List ℝ, (l.flatMap (List.replicate 4)).length = 4 * l.length := by
      intro l
      induction l with
      | nil => rfl
      | cons a l ih => rw [List.flatMap_cons, List.length_append, ih, List.length_replicate, List.length_cons]; ring
    have hl' : ∀ l : List ℝ, ((l.map (fun x => [(0.5 * (1 - x)) • P x0 + (0.5 * (1 + x)) • (c + cross m w),
         (0.5 * (1 - x)) • (c + cross m w) + (0.5 * (1 + x)) • (c - w - (2 * δ) • m),
         (0.5 * (1 - x)) • (c - w - (2 * δ) • m) + (0.5 * (1 + x)) • (c - cross m w),
         (0.5 * (1 - x)) • (c - cross m w) + (0.5 * (1 + x)) • P x0])).flatten).length = 4 * l.length := by
      intro l
      induction l with
      | nil => rfl
      | cons a l ih =>
        rw [List.map_cons, List.flatten_cons, List.length_append, ih, List.length_cons]
        simp only [List.length_cons, List.length_nil]
        ring
    rw [hl, hl', hg.len, List.length_map]
  · have hsum : ∀ l : List ℝ, (l.flatMap (List.replicate 4)).sum = 4 * l.sum := by
      intro l
      induction l with
      | nil => simp
      | cons a l ih => rw [List.flatMap_cons, List.sum_append, ih, List.sum_cons]; simp; ring
    rw [hsum, List.sum_map_mul_right, List.map_id', hg.sum]
    have hnorm : norm ((0.5 * (1 - -1) : ℝ) • (c + cross m w) + (0.5 * (1 + -1) : ℝ) • (c - w - (2 * δ) • m) -
        ((0.5 * (1 - -1) : ℝ) • P x0 + (0.5 * (1 + -1) : ℝ) • (c + cross m w))) = √2 * norm w := by
      refine norm_eq_of_sq (mul_nonneg (Real.sqrt_nonneg 2) (norm_nonneg w)) ?_
      rw [mul_pow, Real.sq_sqrt (by norm_num), norm_sq, hP]
      have : ∀ b z : V3, dot ((0.5 * (1 - -1) : ℝ) • (c + b) + (0.5 * (1 + -1) : ℝ) • z -
        ((0.5 * (1 - -1) : ℝ) • (c + w) + (0.5 * (1 + -1) : ℝ) • (c + b)))
        ((0.5 * (1 - -1) : ℝ) • (c + b) + (0.5 * (1 + -1) : ℝ) • z -
        ((0.5 * (1 - -1) : ℝ) • (c + w) + (0.5 * (1 + -1) : ℝ) • (c + b))) =
          dot b b - 2 * dot w b + dot w w := by
        intro b z
        unfold dot; simp only [add_x, add_y, add_z, sub_x, sub_y, sub_z, smul_x, smul_y, smul_z]; ring
      rw [this, h1, h2]; ring
    rw [hnorm]
    ring
  · simp only [List.mem_flatten, List.mem_map] at hq
    obtain ⟨l, ⟨x, hx, rfl⟩, hq⟩ := hq
    obtain ⟨hx1, hx2⟩ := hg.mem x hx
    have ha : |0.5 * (1 - x)| = 0.5 * (1 - x) := abs_of_nonneg (by linarith)
    have hb : |0.5 * (1 + x)| = 0.5 * (1 + x) := abs_of_nonneg (by linarith)
    have hd0 : 0 ≤ |δ| := abs_nonneg δ
    have hmove : ∀ (t : ℝ), 0 ≤ t → t ≤ 1 → ∀ q q' : V3, q = q' - (2 * t * δ) • m → norm (q - q') ≤ 2 * |δ| := by
      rintro t ht0 ht1 q q' rfl
      have e : (q' - (2 * t * δ) • m) - q' = (-(2 * t * δ)) • m := by ext <;> simp
      rw [e, norm_smul, hm1, mul_one, abs_neg, abs_mul, abs_mul, abs_two, abs_of_nonneg ht0]
      nlinarith
    simp only [List.mem_cons, List.not_mem_nil, or_false] at hq
    rcases hq with rfl | rfl | rfl | rfl
    · refine ⟨c + (0.5 * (1 - x)) • w + (0.5 * (1 + x)) • cross m w,
        ⟨0.5 * (1 - x), 0.5 * (1 + x), by rw [ha, hb]; ring, rfl⟩, ?_⟩
      refine hmove 0 le_rfl zero_le_one _ _ ?_
      rw [hP]; ext <;> simp <;> ring
    · refine ⟨c + (-(0.5 * (1 + x))) • w + (0.5 * (1 - x)) • cross m w,
        ⟨-(0.5 * (1 + x)), 0.5 * (1 - x), by rw [abs_neg, ha, hb]; ring, rfl⟩, ?_⟩
      refine hmove (0.5 * (1 + x)) (by linarith) (by linarith) _ _ ?_
      ext <;> simp <;> ring
    · refine ⟨c + (-(0.5 * (1 - x))) • w + (-(0.5 * (1 + x))) • cross m w,
        ⟨-(0.5 * (1 - x)), -(0.5 * (1 + x)), by rw [abs_neg, abs_neg, ha, hb]; ring, rfl⟩, ?_⟩
      refine hmove (0.5 * (1 - x)) (by linarith) (by linarith) _ _ ?_
      ext <;> simp <;> ring
    · refine ⟨c + (0.5 * (1 + x)) • w + (-(0.5 * (1 - x))) • cross m w,
        ⟨0.5 * (1 + x), -(0.5 * (1 - x)), by rw [abs_neg, ha, hb]; ring, rfl⟩, ?_⟩
      refine hmove 0 le_rfl zero_le_one _ _ ?_
      rw [hP]; ext <;> simp <;> ring

/-- **C99**.  A corner is accepted, by both shapes, exactly if the normal is not zero and the corner is closer than
`1E-13` to the plane. -/
theorem square_accepted_iff {P : V3 → V3} {xq wq : List ℝ} (hg : GaussRule xq wq) (x0 n : V3) :
    ((∃ r, squareQuadrature P xq wq x0 n = .ok r) ↔ norm n ≠ 0 ∧ planeDist x0 n (P x0) < 1e-13) ∧
    ((∃ r, rimQuadrature P xq wq x0 n = .ok r) ↔ norm n ≠ 0 ∧ planeDist x0 n (P x0) < 1e-13) := by
  have hdist : norm n ≠ 0 → planeDist x0 n (P x0) = |dot (P x0 - x0) (unit n)| := by
    intro hn
    rw [planeDist, dot_unit, abs_div, abs_of_nonneg (norm_nonneg n)]
  have hno : ∀ {r}, squareQuadrature P xq wq x0 n = .ok r ∨ rimQuadrature P xq wq x0 n = .ok r →
      norm n ≠ 0 ∧ planeDist x0 n (P x0) < 1e-13 := by
    intro r hr
    by_contra hcon
    have hp : norm n = 0 ∨ 1e-13 ≤ |dot (P x0 - x0) (unit n)| := by
      by_cases hn : norm n = 0
      · exact Or.inl hn
      · rw [hdist hn] at hcon
        exact Or.inr (not_lt.1 (fun h => hcon ⟨hn, h⟩))
    obtain ⟨h1, h2⟩ := square_checks_plane (P := P) (xq := xq) (wq := wq) hp
    rw [h1, h2] at hr
    rcases hr with h | h <;> cases h
  refine ⟨⟨fun ⟨r, h⟩ => hno (Or.inl h), fun ⟨hn, h⟩ => ?_⟩, ⟨fun ⟨r, h⟩ => hno (Or.inr h), fun ⟨hn, h⟩ => ?_⟩⟩
  · rw [hdist hn] at h
    obtain ⟨pts, ws, h1, _⟩ := square_quadrature (P := P) hg hn h
    exact ⟨_, h1⟩
  · rw [hdist hn] at h
    obtain ⟨pts, ws, h1, _⟩ := rim_quadrature_any (P := P) hg hn h
    exact ⟨_, h1⟩

/-- A corner slightly off the plane. -/
example : ∃ pts ws, rimQuadrature (fun x => x - ⟨1 / 2, 1 / 2, 1e-14⟩) [-√(1/3), √(1/3)] [1, 1] ⟨0, 0, 5⟩
    ⟨0, 0, 7⟩ = .ok (pts, ws) ∧ pts.length = ws.length := by
  have hn : norm (⟨0, 0, 7⟩ : V3) = 7 := norm_eq_of_sq (by norm_num) (by simp only [dot]; norm_num)
  obtain ⟨pts, ws, h, h2, _⟩ := rim_quadrature_any (P := fun x => x - ⟨1 / 2, 1 / 2, 1e-14⟩) gauss_two
    (x0 := ⟨0, 0, 5⟩) (n := ⟨0, 0, 7⟩) (by rw [hn]; norm_num) (by
      rw [dot_unit, hn]
      simp [dot]
      norm_num)
  exact ⟨pts, ws, h, h2⟩

/-- **C99**.  A corner given as an array or as a function is treated alike by both shapes; one given as a tuple or
list is accepted by `Square` and gives the same points as the array, but `SquareRim` never gives a quadrature for it. -/
theorem corner_kinds_partial {xq wq : List ℝ} (hg : GaussRule xq wq) {c : Corner} {x0 p : V3} (n : V3) (hc : CornerIs x0 c p) :
    ((∃ r, squareOf c xq wq x0 n = .ok r) ↔ norm n ≠ 0 ∧ planeDist x0 n p < 1e-13) ∧
    ((∃ r, rimOf c xq wq x0 n = .ok r) ↔ (∀ q, c ≠ .sequence q) ∧ norm n ≠ 0 ∧ planeDist x0 n p < 1e-13) ∧
    squareOf c xq wq x0 n = squareOf (.array p) xq wq x0 n ∧
    ((∀ q, c ≠ .sequence q) → rimOf c xq wq x0 n = rimOf (.array p) xq wq x0 n) := by
  obtain ⟨h1, h2⟩ := square_accepted_iff (P := c.at) hg x0 n
  cases hc with
  | sequence =>
      refine ⟨h1, ⟨?_, fun h => absurd rfl (h.1 p)⟩, rfl, fun h => absurd rfl (h p)⟩
      rintro ⟨r, h⟩
      simp only [rimOf, py_bind_eq_ok] at h
      obtain ⟨_, _, _, _, h⟩ := h
      cases h
  | array => exact ⟨h1, h2.trans ⟨fun h => ⟨fun _ => by simp, h⟩, fun h => h.2⟩, rfl, fun _ => rfl⟩
  | function f => exact ⟨h1, h2.trans ⟨fun h => ⟨fun _ => by simp, h⟩, fun h => h.2⟩, rfl, fun _ => rfl⟩

/-- **C99 is false** of corners given as tuples or lists: such a corner in the plane of the centre is accepted by
`Square`, and `SquareRim` raises `TypeError`. -/
theorem rim_sequence_raises {xq wq : List ℝ} (hg : GaussRule xq wq) {x0 n p : V3} (hn : norm n ≠ 0)
    (hp : planeDist x0 n p < 1e-13) :
    (∃ r, squareOf (.sequence p) xq wq x0 n = .ok r) ∧ (∃ r, rimOf (.array p) xq wq x0 n = .ok r) ∧
    rimOf (.sequence p) xq wq x0 n = .error .typeError := by
  refine ⟨(corner_kinds_partial hg n (.sequence p)).1.2 ⟨hn, hp⟩,
    (corner_kinds_partial hg n (.array p)).2.1.2 ⟨by simp, hn, hp⟩, ?_⟩
  have hd : |dot (p - x0) ((norm n)⁻¹ • n)| < 1e-13 := by
    have := hp
    rw [planeDist] at this
    have e : dot (p - x0) ((norm n)⁻¹ • n) = dot (p - x0) n / norm n := dot_unit ..
    rw [e, abs_div, abs_of_nonneg (norm_nonneg n)]
    exact this
  have h1 : |(-1 : ℝ)| < 1 + 1e-13 := by norm_num
  simp only [rimOf, rimCorners, if_neg hn, decide_eq_true hd, decide_eq_true h1, pyAssert_true, py_bind_ok]

/-- The corner `(-1, -1, 0)` of a square in the plane `z = 0`. -/
example : rimOf (.sequence ⟨-1, -1, 0⟩) [-√(1/3), √(1/3)] [1, 1] ⟨0, 0, 0⟩ ⟨0, 0, 7⟩ = .error .typeError :=
  (rim_sequence_raises gauss_two
    (by rw [norm_eq_of_sq (show (0 : ℝ) ≤ 7 by norm_num) (by simp only [dot]; norm_num)]; norm_num)
    (by simp [planeDist, dot]; norm_num)).2.2

end Verif.Shape
