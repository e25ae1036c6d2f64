import Verif.Props.Plot
import Verif.Lemmas.Plot6
import Mathlib.Data.List.Permutation
/-!
# Drawings of averaging surfaces: cases

A circle away from the origin whose points are put in a wrong order, and instances of the assumptions.
-/
namespace Verif.Plot
open Verif Verif.Shape Verif.Shape.V3

/-! ## A circle away from the origin -/

/-- Four corners of a square on the circle with centre (50, 0, 0) and radius 5 in the plane of x and y. -/
def square : List V3 := [⟨54, 3, 0⟩, ⟨47, 4, 0⟩, ⟨46, -3, 0⟩, ⟨53, -4, 0⟩]

theorem square_on_circle : ∀ p ∈ square, OnCircle ⟨50, 0, 0⟩ ez 5 p := by
  intro p hp
  simp only [square, List.mem_cons, List.not_mem_nil, or_false] at hp
  rcases hp with rfl | rfl | rfl | rfl <;>
    exact ⟨norm_eq_of_sq (by norm_num) (by simp only [dot, sub_x, sub_y, sub_z]; norm_num),
      by simp [dot, ez]⟩

/-- The points of a circle which is away from the axis through the origin are in general not put in the order around
    it: a line of the drawing is a diagonal of the square. -/
theorem radial_order_off_centre {eigh : Eigh} {argsort : List ℝ → List Nat} (he : EighSpec eigh)
    (ha : ArgsortSpec argsort) : ∃ qs, radialOrder eigh argsort square = .ok qs ∧ ¬ Outline ez qs := by
  have hk : cross ((⟨47, 4, 0⟩ : V3) - ⟨54, 3, 0⟩) (⟨46, -3, 0⟩ - ⟨54, 3, 0⟩) = (50 : ℝ) • ez := by
    ext <;> simp [cross, ez] <;> norm_num
  have hnk : norm ((50 : ℝ) • ez) = 50 := norm_eq_of_sq (by norm_num) (by simp [dot, ez]; norm_num)
  have hu : (norm ((50 : ℝ) • ez))⁻¹ • ((50 : ℝ) • ez) = ez := by
    rw [hnk]; ext <;> simp [ez]
  have hez : dot ez ez = 1 := by simp [dot, ez]
  obtain ⟨t0, t1, qs, u0, u1, o01, n0, n1, hq, hperm, hsort⟩ := orderWith_ok he ha (points := square) hez (by
    intro p hp
    have hpl : ∀ p ∈ square, dot p ez = 0 := by
      intro p hp
      simp only [square, List.mem_cons, List.not_mem_nil, or_false] at hp
      rcases hp with rfl | rfl | rfl | rfl <;> simp [dot, ez]
    rw [dot_sub_left, mean_in_plane (by simp [square]) hpl, hpl p hp]; norm_num)
  refine ⟨qs, ?_, ?_⟩
  · unfold radialOrder
    rw [show decide (3 < square.length) = true from rfl, pyAssert_true, py_bind_ok]
    simp only [square]
    rw [hk, if_neg (by rw [hnk]; norm_num), hu]
    exact hq
  · have z0 : t0.z = 0 := by simpa [dot, ez] using n0
    have z1 : t1.z = 0 := by simpa [dot, ez] using n1
    have hC : ∀ a b c d : ℝ, dot (⟨a, b, 0⟩ : V3) t0 * dot (⟨c, d, 0⟩ : V3) t1 - dot (⟨a, b, 0⟩ : V3) t1 * dot (⟨c, d, 0⟩ : V3) t0 =
        (a * d - b * c) * (t0.x * t1.y - t0.y * t1.x) := by
      intro a b c d; simp only [dot, z0, z1]; ring
    set w := t0.x * t1.y - t0.y * t1.x with hw
    have hw2 : w = 1 ∨ w = -1 := by
      have : w * w = 1 := by
        simp only [dot, z0, z1] at u0 u1 o01
        rw [hw]
        linear_combination (t1.x * t1.x + t1.y * t1.y) * u0 + u1 - (t0.x * t1.x + t0.y * t1.y) * o01
      exact mul_self_eq_one_iff.1 this
    rintro ⟨m, hm, h⟩
    have hb : ⟨54, 3, 0⟩ ∈ qs := hperm.mem_iff.2 (by simp [square])
    have hd : ⟨46, -3, 0⟩ ∈ qs := hperm.mem_iff.2 (by simp [square])
    have x1 : [some (⟨47, 4, 0⟩ : V3), some ⟨53, -4, 0⟩] ∉ polygon qs := by
      intro hpq
      have e1 := h _ _ hpq _ hb
      have e2 := h _ _ hpq _ hd
      rcases hm with rfl | rfl <;>
        simp only [dot, cross, ez, sub_x, sub_y, sub_z, smul_x, smul_y, smul_z] at e1 e2 <;> linarith
    have x2 : [some (⟨53, -4, 0⟩ : V3), some ⟨47, 4, 0⟩] ∉ polygon qs := by
      intro hpq
      have e1 := h _ _ hpq _ hb
      have e2 := h _ _ hpq _ hd
      rcases hm with rfl | rfl <;>
        simp only [dot, cross, ez, sub_x, sub_y, sub_z, smul_x, smul_y, smul_z] at e1 e2 <;> linarith
    have hmem := List.mem_permutations.2 hperm
    clear hq hperm h hb hd hm
    simp [square, List.permutations, List.permutationsAux, List.permutationsAux.rec, List.permutationsAux2] at hmem
    rcases hmem with rfl | rfl | rfl | rfl | rfl | rfl | rfl | rfl | rfl | rfl | rfl | rfl | rfl | rfl | rfl | rfl | rfl | rfl | rfl | rfl | rfl | rfl | rfl | rfl <;>
    first
      | exact x1 (List.mem_map.2 ⟨0, List.mem_range.2 (by decide), rfl⟩)
      | exact x1 (List.mem_map.2 ⟨1, List.mem_range.2 (by decide), rfl⟩)
      | exact x1 (List.mem_map.2 ⟨2, List.mem_range.2 (by decide), rfl⟩)
      | exact x1 (List.mem_map.2 ⟨3, List.mem_range.2 (by decide), rfl⟩)
      | exact x2 (List.mem_map.2 ⟨0, List.mem_range.2 (by decide), rfl⟩)
      | exact x2 (List.mem_map.2 ⟨1, List.mem_range.2 (by decide), rfl⟩)
      | exact x2 (List.mem_map.2 ⟨2, List.mem_range.2 (by decide), rfl⟩)
      | exact x2 (List.mem_map.2 ⟨3, List.mem_range.2 (by decide), rfl⟩)
      | (have D := sorted_four hsort
         simp only [hC] at D
         rcases hw2 with hw2 | hw2 <;> rw [hw2] at D <;> norm_num at D)

/-! ## Instances of the assumptions -/

/-- Projectors have an orthonormal basis of eigenvectors. -/
theorem exists_eigh : ∃ eigh, EighSpec eigh := by
  classical
  refine ⟨fun A => if h : ∃ n, dot n n = 1 ∧ A = projector n then
    ((0, 1, 1), (h.choose, (exists_orthogonal h.choose).choose, cross h.choose (exists_orthogonal h.choose).choose))
    else ((0, 0, 0), (⟨0, 0, 0⟩, ⟨0, 0, 0⟩, ⟨0, 0, 0⟩)), fun n hn => ?_⟩
  have h : ∃ m, dot m m = 1 ∧ projector n = projector m := ⟨n, hn, rfl⟩
  have hs := h.choose_spec
  have ht := (exists_orthogonal h.choose).choose_spec
  unfold EighAt
  simp only
  rw [dif_pos h]
  simp only
  generalize (exists_orthogonal h.choose).choose = t at ht
  generalize h.choose = m at hs ht
  obtain ⟨hm, hA⟩ := hs
  obtain ⟨h1, h2⟩ := ht
  obtain ⟨c1, c2, c3⟩ := cross_orth hm (by rw [dot_symm]; exact h2)
  rw [hA]
  simp only [projector_apply]
  refine ⟨⟨?_, ?_, ?_⟩, ⟨hm, h1, by rw [c1, h1]⟩, ⟨h2, by rw [dot_symm]; exact c3, c2⟩, by norm_num, le_refl _⟩
  · rw [hm]; ext <;> simp
  · rw [h2]; ext <;> simp
  · rw [dot_symm, c3]; ext <;> simp

/-- Sorting of indices by values. -/
theorem exists_argsort : ∃ argsort, ArgsortSpec argsort := by
  classical
  refine ⟨fun as => (List.range as.length).mergeSort (fun i j => decide (as.getD i 0 ≤ as.getD j 0)), fun as => ⟨List.mergeSort_perm _ _, ?_⟩⟩
  rw [List.pairwise_map]
  have := List.pairwise_mergeSort (le := fun i j => decide (as.getD i 0 ≤ as.getD j 0))
    (fun a b c h1 h2 => decide_eq_true ((of_decide_eq_true h1).trans (of_decide_eq_true h2)))
    (fun a b => by simpa using le_total _ _) (List.range as.length)
  exact this.imp (fun h => of_decide_eq_true h)

/-- The square moved to the origin is drawn along its sides. -/
example : ∃ eigh argsort qs, EighSpec eigh ∧ ArgsortSpec argsort ∧
    radialOrder eigh argsort [⟨4, 3, 0⟩, ⟨-4, -3, 0⟩, ⟨-3, 4, 0⟩, ⟨3, -4, 0⟩] = .ok qs ∧ Outline ez qs := by
  obtain ⟨eigh, he⟩ := exists_eigh
  obtain ⟨argsort, ha⟩ := exists_argsort
  have hez : norm ez = 1 := norm_eq_of_sq (by norm_num) (by simp [dot, ez])
  obtain ⟨qs, h, -, ho⟩ := radial_order_outline he ha (v0 := ⟨4, 3, 0⟩) (v1 := ⟨-4, -3, 0⟩) (v2 := ⟨-3, 4, 0⟩) (n := ez)
    (c := ⟨0, 0, 0⟩) (R := 5) (rest := [⟨3, -4, 0⟩]) (by rw [hez]; norm_num) (by simp) (by
      intro p hp
      simp only [List.mem_cons, List.not_mem_nil, or_false] at hp
      rcases hp with rfl | rfl | rfl | rfl <;>
        exact ⟨norm_eq_of_sq (by norm_num) (by simp only [dot, sub_x, sub_y, sub_z]; norm_num), by simp [dot, ez]⟩)
    (by intro h; have := congrArg V3.x h; norm_num at this) (by intro h; have := congrArg V3.x h; norm_num at this)
    (by intro h; have := congrArg V3.x h; norm_num at this)
    ⟨0, by simp [dot, ez], by
      rw [norm_eq_of_sq (r := 0) (le_refl _) (by simp [dot, ez])]; norm_num⟩
  exact ⟨eigh, argsort, qs, he, ha, h, ho⟩

theorem vertical_ok : norm ((⟨0, 0, 3⟩ : V3) - ⟨0, 0, 1⟩) ≠ 0 ∧ NotNearlyVertical ((⟨0, 0, 3⟩ : V3) - ⟨0, 0, 1⟩) := by
  refine ⟨?_, Or.inl ?_⟩
  · rw [norm_eq_of_sq (r := 2) (by norm_num) (by simp only [dot, sub_x, sub_y, sub_z]; norm_num)]; norm_num
  · exact norm_eq_of_sq (le_refl _) (by simp [dot, cross, ez, unit])

/-- A vertical segment with two nodes: two quads of a cone. -/
example : ∃ d quads, vtkTube (.ok ()) (circleQuadrature (fun x => x.z) [-1 / 2, 1 / 2] [1, 1])
      [(⟨0, 0, 1⟩, ⟨0, 0, 3⟩)] "tube.vtk" ".vtk" = .ok (d, "tube.vtk") ∧ corners d = List.flatten [quads] ∧
    quads.length = 2 ∧ ∀ q ∈ quads, Piece ⟨0, 0, 1⟩ ⟨0, 0, 3⟩ 1 3 q := by
  obtain ⟨d, quads, h, hc, hf⟩ := vtk_tube_circle (radius := fun x => x.z) (xq := [-1 / 2, 1 / 2]) (wq := [1, 1])
    (cells := [(⟨0, 0, 1⟩, ⟨0, 0, 3⟩)]) (path := "tube.vtk") (by decide) (by simp) (by
      intro c hc
      rw [List.mem_singleton] at hc
      subst hc
      exact vertical_ok)
  cases hf with
  | cons h1 h2 =>
    cases h2
    exact ⟨d, _, h, hc, h1.1, h1.2⟩

/-- The same segment drawn with lines at one of its points, four nodes. -/
example : ∃ eigh argsort surfaces d, EighSpec eigh ∧ ArgsortSpec argsort ∧
    avgSurfaces (.ok ()) (circleQuadrature (fun _ => 1) [-3 / 4, -1 / 4, 1 / 4, 3 / 4] [1 / 2, 1 / 2, 1 / 2, 1 / 2])
      [((⟨0, 0, 1⟩, ⟨0, 0, 3⟩), [⟨0, 0, 2⟩])] = .ok surfaces ∧ plotData eigh argsort surfaces = .ok d ∧
    ∃ ring, corners d = List.flatMap polygon [ring] ∧ ring.length = 4 ∧ Outline (⟨0, 0, 3⟩ - ⟨0, 0, 1⟩) ring := by
  obtain ⟨eigh, he⟩ := exists_eigh
  obtain ⟨argsort, ha⟩ := exists_argsort
  obtain ⟨surfaces, d, h1, h2, rings, h3, h4⟩ := plot_circles he ha (radius := fun _ => 1)
    (xq := [-3 / 4, -1 / 4, 1 / 4, 3 / 4]) (wq := [1 / 2, 1 / 2, 1 / 2, 1 / 2])
    (cells := [((⟨0, 0, 1⟩, ⟨0, 0, 3⟩), [⟨0, 0, 2⟩])]) (by simp) (by
      intro t ht
      simp only [List.mem_cons, List.not_mem_nil, or_false] at ht
      rcases ht with rfl | rfl | rfl | rfl <;> norm_num) (by
      simp only [List.pairwise_cons, List.mem_cons, List.not_mem_nil, or_false, forall_eq_or_imp, forall_eq]
      norm_num) (by
      intro c hc
      rw [List.mem_singleton] at hc
      subst hc
      refine ⟨vertical_ok.1, vertical_ok.2, fun x hx => ?_⟩
      simp only [List.mem_cons, List.not_mem_nil, or_false] at hx
      subst hx
      refine ⟨by norm_num, 1, by simp only [dot, sub_x, sub_y, sub_z, smul_x, smul_y, smul_z]; norm_num, ?_⟩
      rw [norm_eq_of_sq (r := 0) (le_refl _) (by simp only [dot, sub_x, sub_y, sub_z, smul_x, smul_y, smul_z]; norm_num)]
      norm_num)
  cases h4 with
  | cons h5 h6 =>
    cases h6
    exact ⟨eigh, argsort, surfaces, d, he, ha, h1, h2, _, h3, h5.1, h5.2.1⟩

/-- The square rim with two nodes. -/
example : ∃ pts, ring (rimQuadrature (fun x => x + ⟨1, 0, 0⟩) [-1 / 2, 1 / 2] [1, 1]) ⟨0, 0, 1⟩ ez = .ok pts ∧
    ¬ Outline ez pts :=
  rim_ring_not_outline (P := fun x => x + ⟨1, 0, 0⟩) (s := -1 / 2) (t := 1 / 2) (xq := []) (wq := [1, 1])
    (x := ⟨0, 0, 1⟩) (n := ez) (by rw [norm_eq_of_sq (r := 1) (by norm_num) (by simp [dot, ez])]; norm_num) (by simp [dot, ez])
    (by intro h; have := congrArg V3.x h; norm_num at this) (by norm_num) (by norm_num) (by
      intro r hr
      simp only [List.mem_cons, List.not_mem_nil, or_false] at hr
      rcases hr with rfl | rfl <;> norm_num)

end Verif.Plot
