import Verif.Lemmas.Circum
import Mathlib.Tactic.Linarith
/-!
# C106: refinement by circumcentres
-/
namespace Verif.Refine
open Verif Verif.BlockOps Verif.Center
variable {K : Type} [Field K] [LinearOrder K] [IsStrictOrderedRing K]

omit [LinearOrder K] [IsStrictOrderedRing K] in
theorem lagrange (a b c : K × K) : det3 a b c ^ 2 = sqDist a b * sqDist a c - corner a b c ^ 2 := by
  unfold det3 sqDist corner
  ring

omit [LinearOrder K] [IsStrictOrderedRing K] in
theorem corner_add (a b c : K × K) : corner b c a = sqDist a b - corner a b c ∧ corner c a b = sqDist a c - corner a b c := by
  unfold sqDist corner
  constructor <;> ring

theorem sqDist_nonneg (a b : K × K) : 0 ≤ sqDist a b := by unfold sqDist; positivity

theorem sqDist_pos {a b c : K × K} (h : det3 a b c ≠ 0) : 0 < sqDist b c ∧ 0 < sqDist c a ∧ 0 < sqDist a b := by
  have key : ∀ p q : K × K, (sqDist p q = 0 → p = q) := by
    intro p q h0
    unfold sqDist at h0
    have h1 : (q.1 - p.1) ^ 2 = 0 := by nlinarith [sq_nonneg (q.1 - p.1), sq_nonneg (q.2 - p.2)]
    have h2 : (q.2 - p.2) ^ 2 = 0 := by nlinarith [sq_nonneg (q.1 - p.1), sq_nonneg (q.2 - p.2)]
    exact Prod.ext (sub_eq_zero.1 (pow_eq_zero_iff (two_ne_zero) |>.1 h1)).symm (sub_eq_zero.1 (pow_eq_zero_iff (two_ne_zero) |>.1 h2)).symm
  refine ⟨lt_of_le_of_ne (sqDist_nonneg _ _) (fun e => h ?_), lt_of_le_of_ne (sqDist_nonneg _ _) (fun e => h ?_),
    lt_of_le_of_ne (sqDist_nonneg _ _) (fun e => h ?_)⟩
  · rw [key _ _ e.symm]; unfold det3; ring
  · rw [key _ _ e.symm]; unfold det3; ring
  · rw [key _ _ e.symm]; unfold det3; ring

/-- The sign of a weight of the circumcentre is that of the corner. -/
theorem weight_sign {u D s k : K} (hD : D ≠ 0) (hs : 0 < s) (h : u * (2 * D ^ 2) = k * s) :
    (0 < k → 0 < u) ∧ (k < 0 → u < 0) ∧ (k = 0 → u = 0) := by
  have hD2 : 0 < 2 * D ^ 2 := by positivity
  refine ⟨fun hk => ?_, fun hk => ?_, fun hk => ?_⟩
  · by_contra hu
    have := mul_pos hk hs
    nlinarith [mul_nonneg (neg_nonneg.2 (not_lt.1 hu)) hD2.le]
  · by_contra hu
    have := mul_pos (neg_pos.2 hk) hs
    nlinarith [mul_nonneg (not_lt.1 hu) hD2.le]
  · rw [hk, zero_mul] at h
    exact (mul_eq_zero.1 h).resolve_right hD2.ne'

theorem acute_det {a b c : K × K} (h : Acute a b c) : det3 a b c ≠ 0 := by
  obtain ⟨h1, h2, h3⟩ := h
  rw [(corner_add a b c).1] at h2
  rw [(corner_add a b c).2] at h3
  intro h0
  have := lagrange a b c
  rw [h0] at this
  nlinarith [mul_pos h2 h3, mul_pos h1 h2, mul_pos h1 h3]

/-- Areas of the children. -/
theorem child_areas (a b c : K × K) {u v t : K} (h : u + v + t = 1) :
    triArea [b, c, comb K [u, v, t] [a, b, c]] = |u| * triArea [a, b, c] ∧
    triArea [a, c, comb K [u, v, t] [a, b, c]] = |v| * triArea [a, b, c] ∧
    triArea [a, b, comb K [u, v, t] [a, b, c]] = |t| * triArea [a, b, c] := by
  have hb := (triArea_barycentric (K := K)).child [a, b, c] [u, v, t] rfl rfl (by simpa [add_assoc] using h)
  exact ⟨hb 0 u rfl, hb 1 v rfl, hb 2 t rfl⟩

/-- A point with a negative weight is not inside, up to the tolerance. -/
theorem not_inside {a b c : K × K} {u v t tol : K} (h : u + v + t = 1) (w : K) (hw : w = u ∨ w = v ∨ w = t) (h0 : w < 0)
    (htol : tol ≤ 2 * (|w| * triArea [a, b, c])) :
    pointIsInside triArea tol (comb K [u, v, t] [a, b, c]) [a, b, c] = false := by
  unfold pointIsInside
  rw [decide_eq_false_iff_not, simplices_area triArea_barycentric rfl rfl (by simpa [add_assoc] using h), not_lt]
  have hs := (sum_abs_sub [u, v, t]).2 w (by simpa using hw) h0
  have hsum : [u, v, t].sum = 1 := by simpa [add_assoc] using h
  rw [hsum] at hs
  have hA : 0 ≤ triArea [a, b, c] := abs_nonneg _
  rw [abs_sub_comm]
  refine le_trans htol (le_trans ?_ (le_abs_self _))
  nlinarith [mul_le_mul_of_nonneg_right hs hA]

theorem equidistant_circumcenter {solve : Solver K 2} (hs : Solves solve) {a b c y : K × K} (hD : det3 a b c ≠ 0)
    (hy : Equidistant a b c y) : y = triCircumcenter solve [a, b, c] := by
  obtain ⟨_, _, _, -, -, -, -, -, hz⟩ := triCircumcenter_weights hs hD
  generalize triCircumcenter solve [a, b, c] = z at hz
  obtain ⟨y1, y2⟩ := hy
  obtain ⟨z1, z2⟩ := hz
  unfold sqDist at *
  have e1 : (b.1 - a.1) * (y.1 - z.1) + (b.2 - a.2) * (y.2 - z.2) = 0 := by linear_combination (y1 - z1) / 2
  have e2 : (c.1 - a.1) * (y.1 - z.1) + (c.2 - a.2) * (y.2 - z.2) = 0 := by linear_combination (y2 - z2) / 2
  have h1 : det3 a b c * (y.1 - z.1) = 0 := by unfold det3; linear_combination (c.2 - a.2) * e1 - (b.2 - a.2) * e2
  have h2 : det3 a b c * (y.2 - z.2) = 0 := by unfold det3; linear_combination (b.1 - a.1) * e2 - (c.1 - a.1) * e1
  exact Prod.ext (sub_eq_zero.1 ((mul_eq_zero.1 h1).resolve_left hD)) (sub_eq_zero.1 ((mul_eq_zero.1 h2).resolve_left hD))

omit [IsStrictOrderedRing K] in
theorem circumcenterRefine_error {solve : Solver K 2} {hmin : List (K × K) → List (List Nat) → K} {strict : K} {M : RMesh (K × K)}
    (nrefs : Int) (h : refineOnce triArea (circumcenters solve) hmin strict 2 3 M = .error .assertion) :
    circumcenterRefine solve hmin strict M nrefs = .error .assertion := by
  unfold circumcenterRefine innerPointRefine
  rw [h]
  rfl

theorem perm2 {α : Type} {x y q r : α} (h : [x, y].Perm [q, r]) : q = x ∧ r = y ∨ q = y ∧ r = x := by
  have hq : q ∈ [x, y] := h.symm.subset (by simp)
  simp only [List.mem_cons, List.not_mem_nil, or_false] at hq
  rcases hq with rfl | rfl
  · have := (List.perm_cons q).1 h
    exact .inl ⟨rfl, by simpa using this.symm⟩
  · have := (List.perm_cons q).1 ((List.Perm.swap x q []).trans h)
    exact .inr ⟨rfl, by simpa using this.symm⟩

theorem perm3 {α : Type} {a b c p q r : α} (h : [a, b, c].Perm [p, q, r]) :
    (p = a ∧ (q = b ∧ r = c ∨ q = c ∧ r = b)) ∨ (p = b ∧ (q = a ∧ r = c ∨ q = c ∧ r = a)) ∨
      (p = c ∧ (q = a ∧ r = b ∨ q = b ∧ r = a)) := by
  have hp : p ∈ [a, b, c] := h.symm.subset (by simp)
  simp only [List.mem_cons, List.not_mem_nil, or_false] at hp
  rcases hp with rfl | rfl | rfl
  · exact .inl ⟨rfl, perm2 ((List.perm_cons p).1 h)⟩
  · exact .inr (.inl ⟨rfl, perm2 ((List.perm_cons p).1 ((List.Perm.swap a p [c]).trans h))⟩)
  · refine .inr (.inr ⟨rfl, perm2 ((List.perm_cons p).1 (List.Perm.trans ?_ h))⟩)
    exact ((List.Perm.swap a p [b]).trans ((List.Perm.swap b p []).cons a))

/-- **C106** Meshes with a triangle which has a right angle are refused, and so are those with an obtuse angle unless the part of
the triangle's circumscribed triangles which is outside is below the tolerance. -/
theorem circumcenter_refused {solve : Solver K 2} (hs : Solves solve) {hmin : List (K × K) → List (List Nat) → K} {strict : K}
    {M : RMesh (K × K)} (hM : M.OK 3) {i : Nat} {a b c p q r : K × K} (hl : IsCell M i [a, b, c]) (hA : 0 < triArea [a, b, c])
    (hp : [a, b, c].Perm [p, q, r])
    (hc : corner p q r = 0 ∨ corner p q r < 0 ∧ 0 < strict ∧
      ∀ y, Equidistant p q r y → hmin M.coords M.cells * strict ≤ 2 * triArea [q, r, y]) (nrefs : Int) :
    circumcenterRefine solve hmin strict M nrefs = .error .assertion := by
  apply circumcenterRefine_error
  obtain ⟨hi, hor⟩ := circumcenter_once_iff (solve := solve) (hmin := hmin) (strict := strict) hM
  refine hor.resolve_left (fun hok => ?_)
  obtain ⟨h1, h2⟩ := hi.1 hok i _ hl
  have hD := det3_ne hA
  obtain ⟨u, v, t, hsum, hx, hu, hv, ht, heq⟩ := triCircumcenter_weights hs hD
  obtain ⟨s1, s2, s3⟩ := sqDist_pos hD
  obtain ⟨A1, A2, A3⟩ := child_areas a b c hsum
  rw [hx] at h1 h2
  have g0 := h2 0 (by omega)
  have g1 := h2 1 (by omega)
  have g2 := h2 2 (by omega)
  simp only [List.eraseIdx_cons_zero, List.eraseIdx_cons_succ, List.cons_append, List.nil_append] at g0 g1 g2
  rw [A1] at g0
  rw [A2] at g1
  rw [A3] at g2
  have e15 : (0 : K) < 1 / 10 ^ 15 := by positivity
  have swap : ∀ x y z : K × K, triArea [x, y, z] = triArea [y, x, z] := by
    intro x y z
    rw [triArea_eq, triArea_eq, ← abs_neg]
    congr 1
    unfold det3
    ring
  -- each corner of the cell
  have main : ∀ (w : K) (k s : K), (w = u ∨ w = v ∨ w = t) → 0 < s → w * (2 * det3 a b c ^ 2) = k * s →
      1 / 10 ^ 15 < |w| * triArea [a, b, c] →
      (k = 0 ∨ k < 0 ∧ 0 < strict ∧ hmin M.coords M.cells * strict ≤ 2 * (|w| * triArea [a, b, c])) → False := by
    intro w k s hw hs' he hb hk
    obtain ⟨k1, k2, k3⟩ := weight_sign hD hs' he
    rcases hk with hk | ⟨hk, hst, htol⟩
    · rw [k3 hk, abs_zero, zero_mul] at hb
      exact absurd hb (not_lt.2 e15.le)
    · have := not_inside (a := a) (b := b) (c := c) hsum w hw (k2 hk) htol
      rw [h1 hst] at this
      exact Bool.noConfusion this
  have csym : ∀ x y z : K × K, corner x y z = corner x z y := by intro x y z; unfold corner; ring
  have hperm : (p = a ∧ (q = b ∧ r = c ∨ q = c ∧ r = b)) ∨ (p = b ∧ (q = a ∧ r = c ∨ q = c ∧ r = a)) ∨
      (p = c ∧ (q = a ∧ r = b ∨ q = b ∧ r = a)) := by
    exact perm3 hp
  have hcc : corner p q r = 0 ∨ corner p q r < 0 ∧ 0 < strict ∧
      hmin M.coords M.cells * strict ≤ 2 * triArea [q, r, comb K [u, v, t] [a, b, c]] := by
    rcases hc with hc | ⟨hc, hst, hy⟩
    · exact .inl hc
    · refine .inr ⟨hc, hst, hy _ ?_⟩
      rw [hx] at heq
      obtain ⟨q1, q2⟩ := heq
      rcases hperm with ⟨rfl, ⟨rfl, rfl⟩ | ⟨rfl, rfl⟩⟩ | ⟨rfl, ⟨rfl, rfl⟩ | ⟨rfl, rfl⟩⟩ | ⟨rfl, ⟨rfl, rfl⟩ | ⟨rfl, rfl⟩⟩ <;>
        exact ⟨by simp only [← q1, ← q2], by simp only [← q1, ← q2]⟩
  rcases hperm with ⟨rfl, ⟨rfl, rfl⟩ | ⟨rfl, rfl⟩⟩ | ⟨rfl, ⟨rfl, rfl⟩ | ⟨rfl, rfl⟩⟩ | ⟨rfl, ⟨rfl, rfl⟩ | ⟨rfl, rfl⟩⟩
  · rw [A1] at hcc
    exact main u _ _ (.inl rfl) s1 hu g0 hcc
  · rw [swap, A1, csym] at hcc
    exact main u _ _ (.inl rfl) s1 hu g0 hcc
  · rw [A2, csym] at hcc
    exact main v _ _ (.inr (.inl rfl)) s2 hv g1 hcc
  · rw [swap, A2] at hcc
    exact main v _ _ (.inr (.inl rfl)) s2 hv g1 hcc
  · rw [A3] at hcc
    exact main t _ _ (.inr (.inr rfl)) s3 ht g2 hcc
  · rw [swap, A3, csym] at hcc
    exact main t _ _ (.inr (.inr rfl)) s3 ht g2 hcc

/-- The circumcentre of an acute triangle is inside. -/
theorem acute_inside {solve : Solver K 2} (hs : Solves solve) {a b c : K × K} (h : Acute a b c) :
    OpenHull K [a, b, c] (triCircumcenter solve [a, b, c]) := by
  have hD := acute_det h
  obtain ⟨u, v, t, hsum, hx, hu, hv, ht, heq⟩ := triCircumcenter_weights hs hD
  obtain ⟨s1, s2, s3⟩ := sqDist_pos hD
  refine ⟨[u, v, t], rfl, ?_, by simpa [add_assoc] using hsum, hx.symm⟩
  intro w hw
  simp only [List.mem_cons, List.not_mem_nil, or_false] at hw
  rcases hw with rfl | rfl | rfl
  · exact (weight_sign hD s1 hu).1 h.1
  · exact (weight_sign hD s2 hv).1 h.2.1
  · exact (weight_sign hD s3 ht).1 h.2.2

/-- **C106** Meshes of acute triangles, whose parts are not too small, are refined once: the children tile the triangles, and each
of them has two equal sides which meet in the new vertex. -/
theorem circumcenter_acute_partial {solve : Solver K 2} (hs : Solves solve) {hmin : List (K × K) → List (List Nat) → K} {strict : K}
    {M : RMesh (K × K)} (hM : M.OK 3) (hh : 0 < hmin M.coords M.cells) {nrefs : Int} (hn : nrefs ≤ 1)
    (hA : ∀ i a b c, IsCell M i [a, b, c] → Acute a b c ∧ ∀ y, Equidistant a b c y →
      1 / 10 ^ 15 < triArea [b, c, y] ∧ 1 / 10 ^ 15 < triArea [a, c, y] ∧ 1 / 10 ^ 15 < triArea [a, b, y]) :
    ∃ F, circumcenterRefine solve hmin strict M nrefs = .ok F ∧ Tiles K M F ∧ F.cells.length = 3 * M.cells.length ∧
      ∀ i l, IsCell F i l → ∃ p q y, l = [p, q, y] ∧ sqDist y p = sqDist y q := by
  have hin : ∀ c l, IsCell M c l → OpenHull K l (triCircumcenter solve l) := by
    intro i l hl
    obtain ⟨a, b, c, rfl⟩ := isCell_triple hM hl
    exact acute_inside hs (hA i a b c hl).1
  obtain ⟨F, hF⟩ := (circumcenter_once_iff (solve := solve) (hmin := hmin) (strict := strict) hM).1.2 (by
    intro i l hl
    have hin' := hin i l hl
    obtain ⟨a, b, c, rfl⟩ := isCell_triple hM hl
    constructor
    · intro hst
      obtain ⟨w, w1, w2, w3⟩ := hin'
      exact point_is_inside_complete triArea_barycentric rfl (mul_pos hh hst) ⟨w, w1, fun a ha => (w2 a ha).le, w3⟩
    · obtain ⟨hac, hy⟩ := hA i a b c hl
      obtain ⟨_, _, _, -, -, -, -, -, heq⟩ := triCircumcenter_weights hs (acute_det hac)
      obtain ⟨g0, g1, g2⟩ := hy _ heq
      intro j hj
      interval_cases j
      · exact g0
      · exact g1
      · exact g2)
  obtain ⟨x, hst, hxo, hxe⟩ := circumcenter_step hM hF hin
  refine ⟨F, ?_, hst.tiles hM hxo, by rw [hst.ncells, mul_comm], ?_⟩
  · unfold circumcenterRefine innerPointRefine
    rw [hF, py_bind_ok, if_neg (by omega)]
  · intro i l' hl'
    have hlt := isCell_lt hl'
    rw [hst.ncells] at hlt
    have hcm : F.cmap[i]? = some (i / 3) := by rw [hst.cmap, childToParent_get, if_pos hlt]
    obtain ⟨-, l, hl, rfl⟩ := hst.child hM hcm hl'
    rw [hxe _ _ hl]
    obtain ⟨a, b, c, rfl⟩ := isCell_triple hM hl
    obtain ⟨_, _, _, -, -, -, -, -, q1, q2⟩ := triCircumcenter_weights hs (acute_det (hA _ a b c hl).1)
    have h3 : i % 3 < 3 := Nat.mod_lt _ (by omega)
    interval_cases i % 3
    · exact ⟨a, b, _, rfl, q1⟩
    · exact ⟨a, c, _, rfl, q2⟩
    · exact ⟨b, c, _, rfl, q1.symm.trans q2⟩

/-- Among three points on a circle around a point between them two are seen under an angle of at least two thirds of a straight one. -/
theorem wide_angle {a b c y : K × K} (hy : Equidistant a b c y) {u v t : K} (hu : 0 ≤ u) (hv : 0 ≤ v) (ht : 0 ≤ t)
    (hsum : u + v + t = 1) (hc : y = comb K [u, v, t] [a, b, c]) :
    2 * corner y b c ≤ - sqDist y a ∨ 2 * corner y a c ≤ - sqDist y a ∨ 2 * corner y a b ≤ - sqDist y a := by
  by_contra h
  push Not at h
  obtain ⟨h1, h2, h3⟩ := h
  obtain ⟨q1, q2⟩ := hy
  rw [comb3] at hc
  have hc1 : y.1 = u * a.1 + v * b.1 + t * c.1 := by rw [hc]; rfl
  have hc2 : y.2 = u * a.2 + v * b.2 + t * c.2 := by rw [hc]; rfl
  clear hc
  have k1 : u * sqDist y a + v * corner y a b + t * corner y a c = 0 := by
    unfold sqDist corner
    have : u = 1 - v - t := by linear_combination hsum
    subst this
    linear_combination (-(a.1 - y.1)) * hc1 + (-(a.2 - y.2)) * hc2
  have k2 : u * corner y a b + v * sqDist y b + t * corner y b c = 0 := by
    unfold sqDist corner
    have : u = 1 - v - t := by linear_combination hsum
    subst this
    linear_combination (-(b.1 - y.1)) * hc1 + (-(b.2 - y.2)) * hc2
  have k3 : u * corner y a c + v * corner y b c + t * sqDist y c = 0 := by
    unfold sqDist corner
    have : u = 1 - v - t := by linear_combination hsum
    subst this
    linear_combination (-(c.1 - y.1)) * hc1 + (-(c.2 - y.2)) * hc2
  rw [← q1] at k2
  rw [← q2] at k3
  generalize sqDist y a = R at *
  generalize corner y a b = A at *
  generalize corner y a c = B at *
  generalize corner y b c = C at *
  -- 0 = sum of the three, which is positive
  have p1 : 0 ≤ (u + v) * (2 * A + R) := mul_nonneg (by linarith) (by linarith)
  have p2 : 0 ≤ (u + t) * (2 * B + R) := mul_nonneg (by linarith) (by linarith)
  have p3 : 0 ≤ (v + t) * (2 * C + R) := mul_nonneg (by linarith) (by linarith)
  have hz : (u + v) * (2 * A + R) + (u + t) * (2 * B + R) + (v + t) * (2 * C + R) = 0 := by linear_combination 2 * k1 + 2 * k2 + 2 * k3
  have z1 : (u + v) * (2 * A + R) = 0 := by linarith
  have z2 : (u + t) * (2 * B + R) = 0 := by linarith
  have z3 : (v + t) * (2 * C + R) = 0 := by linarith
  have e1 : u + v = 0 := (mul_eq_zero.1 z1).resolve_right (by linarith)
  have e2 : u + t = 0 := (mul_eq_zero.1 z2).resolve_right (by linarith)
  have e3 : v + t = 0 := (mul_eq_zero.1 z3).resolve_right (by linarith)
  linarith

/-- A triangle with two equal sides which meet in a wide angle is obtuse, its circumcentre is far away. -/
theorem wide_fails {solve : Solver K 2} (hs : Solves solve) {p q y : K × K} (hA : 0 < triArea [p, q, y]) (he : sqDist y p = sqDist y q)
    (hw : 2 * corner y p q ≤ - sqDist y p) {tol : K} (htol : tol ≤ 2 * triArea [p, q, y]) :
    pointIsInside triArea tol (triCircumcenter solve [p, q, y]) [p, q, y] = false := by
  have hD := det3_ne hA
  obtain ⟨u, v, t, hsum, hx, -, -, ht, -⟩ := triCircumcenter_weights hs hD
  rw [hx]
  have hl : det3 p q y ^ 2 = sqDist y p * sqDist y q - corner y p q ^ 2 := by rw [← lagrange]; unfold det3; ring
  have hd : sqDist p q = 2 * sqDist y p - 2 * corner y p q := by
    have : sqDist p q = sqDist y p + sqDist y q - 2 * corner y p q := by unfold sqDist corner; ring
    rw [this, ← he]; ring
  have hpos : 0 < det3 p q y ^ 2 := by positivity
  rw [hl, hd, ← he] at ht
  rw [hl, ← he] at hpos
  have hr := sqDist_nonneg y p
  generalize sqDist y p = r at *
  generalize corner y p q = s at *
  -- t * (r + s) = s
  have hrs : 0 < (r - s) * (r + s) := by nlinarith
  have h1 : 0 < r - s := by nlinarith
  have h2 : 0 < r + s := by
    by_contra h
    nlinarith [mul_nonneg h1.le (neg_nonneg.2 (not_lt.1 h))]
  have h3 : t * (r + s) = s := by
    have : 2 * (r - s) * (t * (r + s) - s) = 0 := by linear_combination ht
    rcases mul_eq_zero.1 this with h | h
    · exact absurd h (by positivity)
    · linarith
  have h4 : t ≤ -1 := by
    by_contra h
    nlinarith [mul_pos (sub_pos.2 (not_le.1 h)) h2]
  have h5 : t < 0 := by linarith
  refine not_inside hsum t (.inr (.inr rfl)) h5 (le_trans htol ?_)
  have h6 : (1 : K) ≤ |t| := by rw [abs_of_neg h5]; linarith
  have hA' : 0 ≤ triArea [p, q, y] := hA.le
  nlinarith [mul_le_mul_of_nonneg_right h6 hA']

/-- The cells of the mesh refined once. -/
theorem circumcenter_cells {solve : Solver K 2} {hmin : List (K × K) → List (List Nat) → K} {strict : K} {M F : RMesh (K × K)}
    (h : refineOnce triArea (circumcenters solve) hmin strict 2 3 M = .ok F) {c : Nat} {l : List (K × K)} (hl : IsCell M c l)
    {j : Nat} (hj : j < 3) : IsCell F (c * 3 + j) (l.eraseIdx (3 - 1 - j) ++ [triCircumcenter solve l]) := by
  obtain ⟨-, hco, -, -, hch⟩ := refineOnce_eq_ok h
  have hx := circumcenters_get (solve := solve) hl
  obtain ⟨cell, hc, hf⟩ := hl
  refine ⟨_, ((children_eq_ok hch).2 c cell hc j hj).1, ?_⟩
  refine List.rel_append ((forall₂_eraseIdx hf _).imp (fun v p h => ?_)) (.cons ?_ .nil)
  · rw [hco, List.getElem?_append_left (List.getElem?_eq_some_iff.1 h).1]
    exact h
  · rw [hco, List.getElem?_append_right (by omega), Nat.add_sub_cancel_left]
    exact hx

/-- **C106** Two refinements by circumcentres never succeed, unless some triangle of the mesh refined once is so small that the
tolerance covers it. -/
theorem circumcenter_twice_refused {solve : Solver K 2} (hs : Solves solve) {hmin : List (K × K) → List (List Nat) → K} {strict : K}
    {M M1 : RMesh (K × K)} (hM : M.OK 3) (hne : M.cells ≠ []) (hst : 0 < strict) (hA : ∀ i l, IsCell M i l → 0 < triArea l)
    (h1 : circumcenterRefine solve hmin strict M 1 = .ok M1)
    (ht : ∀ i l, IsCell M1 i l → hmin M.coords M.cells * strict ≤ 2 * triArea l ∧
      hmin M1.coords M1.cells * strict ≤ 2 * triArea l) {nrefs : Int} (hn : 2 ≤ nrefs) :
    circumcenterRefine solve hmin strict M nrefs = .error .assertion := by
  have h0 : refineOnce triArea (circumcenters solve) hmin strict 2 3 M = .ok M1 := by
    unfold circumcenterRefine innerPointRefine at h1
    rw [py_bind_eq_ok] at h1
    obtain ⟨M', h', h1⟩ := h1
    rw [if_neg (by omega)] at h1
    injection h1 with h1
    rw [← h1, h']
  have hpass := (circumcenter_once_iff (solve := solve) (hmin := hmin) (strict := strict) hM).1.1 ⟨M1, h0⟩
  -- weights of all circumcentres are positive
  have hw : ∀ i a b c, IsCell M i [a, b, c] → ∃ u v t : K, 0 < u ∧ 0 < v ∧ 0 < t ∧ u + v + t = 1 ∧
      triCircumcenter solve [a, b, c] = comb K [u, v, t] [a, b, c] ∧ Equidistant a b c (triCircumcenter solve [a, b, c]) := by
    intro i a b c hl
    obtain ⟨u, v, t, hsum, hx, -, -, -, heq⟩ := triCircumcenter_weights hs (det3_ne (hA i _ hl))
    obtain ⟨A1, A2, A3⟩ := child_areas a b c hsum
    obtain ⟨p1, p2⟩ := hpass i _ hl
    have c0 := (ht _ _ (circumcenter_cells h0 hl (j := 2) (by omega))).1
    have c1 := (ht _ _ (circumcenter_cells h0 hl (j := 1) (by omega))).1
    have c2 := (ht _ _ (circumcenter_cells h0 hl (j := 0) (by omega))).1
    have g0 := p2 0 (by omega)
    have g1 := p2 1 (by omega)
    have g2 := p2 2 (by omega)
    rw [hx] at p1 g0 g1 g2 c0 c1 c2
    simp only [List.eraseIdx_cons_zero, List.eraseIdx_cons_succ, List.cons_append, List.nil_append] at g0 g1 g2
    change _ ≤ 2 * triArea [b, c, _] at c0
    change _ ≤ 2 * triArea [a, c, _] at c1
    change _ ≤ 2 * triArea [a, b, _] at c2
    rw [A1] at g0 c0
    rw [A2] at g1 c1
    rw [A3] at g2 c2
    have e15 : (0 : K) < 1 / 10 ^ 15 := by positivity
    have pos : ∀ w : K, (w = u ∨ w = v ∨ w = t) → 1 / 10 ^ 15 < |w| * triArea [a, b, c] →
        hmin M.coords M.cells * strict ≤ 2 * (|w| * triArea [a, b, c]) → 0 < w := by
      intro w hwu hg hc
      by_contra hneg
      rcases lt_or_eq_of_le (not_lt.1 hneg) with hneg | hz
      · have := not_inside (a := a) (b := b) (c := c) hsum w hwu hneg hc
        rw [p1 hst] at this
        exact Bool.noConfusion this
      · rw [hz, abs_zero, zero_mul] at hg
        exact absurd hg (not_lt.2 e15.le)
    exact ⟨u, v, t, pos u (.inl rfl) g0 c0, pos v (.inr (.inl rfl)) g1 c1, pos t (.inr (.inr rfl)) g2 c2, hsum, hx, heq⟩
  obtain ⟨x, hstep, -⟩ := circumcenter_step hM h0 (by
    intro i l hl
    obtain ⟨a, b, c, rfl⟩ := isCell_triple hM hl
    obtain ⟨u, v, t, hu, hv, ht', hsum, hx, -⟩ := hw i a b c hl
    refine ⟨[u, v, t], rfl, ?_, by simpa [add_assoc] using hsum, hx.symm⟩
    intro w hw
    simp only [List.mem_cons, List.not_mem_nil, or_false] at hw
    rcases hw with rfl | rfl | rfl <;> assumption)
  -- the second refinement
  have h2 : refineOnce triArea (circumcenters solve) hmin strict 2 3 M1 = .error .assertion := by
    obtain ⟨hi, hor⟩ := circumcenter_once_iff (solve := solve) (hmin := hmin) (strict := strict) hstep.ok
    refine hor.resolve_left (fun hok => ?_)
    have hp2 := hi.1 hok
    obtain ⟨l, hl⟩ := isCell_exists hM (List.length_pos_iff.2 hne)
    obtain ⟨a, b, c, rfl⟩ := isCell_triple hM hl
    obtain ⟨u, v, t, hu, hv, ht', hsum, hx, heq⟩ := hw 0 a b c hl
    have e15 : (0 : K) < 1 / 10 ^ 15 := by positivity
    have kill : ∀ j p q, j < 3 → [a, b, c].eraseIdx (3 - 1 - j) = [p, q] → sqDist (triCircumcenter solve [a, b, c]) p = sqDist (triCircumcenter solve [a, b, c]) q →
        2 * corner (triCircumcenter solve [a, b, c]) p q ≤ - sqDist (triCircumcenter solve [a, b, c]) p → False := by
      intro j p q hj he hd hcr
      have hc := circumcenter_cells h0 hl hj
      have har := (hpass 0 _ hl).2 (3 - 1 - j) (by omega)
      rw [he] at hc har
      have := wide_fails hs (lt_trans e15 har) hd hcr (ht _ _ hc).2
      exact Bool.noConfusion (this.symm.trans ((hp2 _ _ hc).1 hst))
    have hq := heq
    obtain ⟨q1, q2⟩ := hq
    rcases wide_angle heq hu.le hv.le ht'.le hsum hx with h | h | h
    · exact kill 2 b c (by omega) rfl (q1.symm.trans q2) (by rw [← q1]; exact h)
    · exact kill 1 a c (by omega) rfl q2 h
    · exact kill 0 a b (by omega) rfl q1 h
  unfold circumcenterRefine innerPointRefine
  rw [h0, py_bind_ok, if_pos (by omega)]
  obtain ⟨k, hk⟩ : ∃ k, (nrefs - 1).toNat = k + 1 := ⟨(nrefs - 1).toNat - 1, by omega⟩
  rw [hk]
  unfold refineMore
  rw [h2]
  rfl

/-- A solver of systems of two equations. -/
def cramer : Solver K 2 := fun A b => ![(A 1 1 * b 0 - A 0 1 * b 1) / (A 0 0 * A 1 1 - A 0 1 * A 1 0),
  (A 0 0 * b 1 - A 1 0 * b 0) / (A 0 0 * A 1 1 - A 0 1 * A 1 0)]

omit [LinearOrder K] [IsStrictOrderedRing K] in
theorem cramer_solves : Solves (cramer (K := K)) := by
  intro A b hA
  rw [Matrix.det_fin_two] at hA
  funext i
  fin_cases i <;> simp only [Matrix.mulVec, dotProduct, Fin.sum_univ_two, cramer, Fin.zero_eta, Fin.mk_one, Matrix.cons_val_zero,
    Matrix.cons_val_one, mul_div_assoc', ← add_div] <;> rw [div_eq_iff hA] <;> ring

/-- Without the check (`strict=0`) a mesh of one obtuse triangle is accepted, with cells outside of it. -/
theorem circumcenter_unchecked : ∃ F : RMesh (ℚ × ℚ), circumcenterRefine cramer (fun _ _ => 4) 0
      ⟨[(0, 0), (4, 0), (2, 1)], [[0, 1, 2]], [], []⟩ 1 = .ok F ∧
    ¬ Tiles ℚ ⟨[(0, 0), (4, 0), (2, 1)], [[0, 1, 2]], [], []⟩ F := by
  refine ⟨⟨[(0, 0), (4, 0), (2, 1), (2, -3 / 2)], [[0, 1, 3], [0, 2, 3], [1, 2, 3]], [(0, 0), (1, 1), (2, 2)], [0, 0, 0]⟩,
    by decide +kernel, ?_⟩
  intro h
  have hc : IsCell (⟨[(0, 0), (4, 0), (2, 1)], [[0, 1, 2]], [], []⟩ : RMesh (ℚ × ℚ)) 0 [(0, 0), (4, 0), (2, 1)] :=
    ⟨[0, 1, 2], rfl, .cons rfl (.cons rfl (.cons rfl .nil))⟩
  have := (h.union 0 _ hc (2, -3 / 2)).2 ⟨0, [(0, 0), (4, 0), (2, -3 / 2)], rfl,
    ⟨[0, 1, 3], rfl, .cons rfl (.cons rfl (.cons rfl .nil))⟩, [0, 0, 1], rfl, by simp, by norm_num, by simp [comb]⟩
  obtain ⟨w, g1, g2, g3, g4⟩ := this
  obtain ⟨u, v, t, rfl⟩ : ∃ p q r, w = [p, q, r] := List.length_eq_three.1 g1
  rw [comb3] at g4
  have g5 := congrArg Prod.snd g4
  simp at g5
  have := g2 t (by simp)
  rw [g5] at this
  norm_num at this

/-- A nearly equilateral triangle is refined once; a second refinement is refused. -/
def nearly : RMesh (ℚ × ℚ) := ⟨[(0, 0), (8, 0), (4, 7)], [[0, 1, 2]], [], []⟩

example : Acute ((0 : ℚ), (0 : ℚ)) (8, 0) (4, 7) := by
  refine ⟨?_, ?_, ?_⟩ <;> norm_num [corner]

example : (circumcenterRefine cramer (fun _ _ => 8) (1 / 10 ^ 10) nearly 1).map (fun F => F.coords) =
    .ok [(0, 0), (8, 0), (4, 7), (4, 33 / 14)] := by decide +kernel

example : circumcenterRefine cramer (fun _ _ => 8) (1 / 10 ^ 10) nearly 2 = .error .assertion := by decide +kernel

/-- One half of the unit square has a right angle. -/
example : corner ((1 : ℚ), (0 : ℚ)) (0, 0) (1, 1) = 0 ∧ 0 < triArea [((0 : ℚ), (0 : ℚ)), (1, 0), (1, 1)] := by
  constructor
  · norm_num [corner]
  · norm_num [triArea]

end Verif.Refine
