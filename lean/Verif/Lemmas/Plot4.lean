import Verif.Lemmas.Plot3
/-! Lemmas about `radial_order_points`: the result. -/
namespace Verif.Plot
open Verif Verif.Shape Verif.Shape.V3
open Verif.BlockOps (pyMap pyGet pyMap_ok pyGet_ok pyMap_eq_ok)

theorem map_getD_range {α : Type} (l : List α) (d : α) : (List.range l.length).map (fun i => l.getD i d) = l := by
  refine List.ext_getElem (by simp) (fun i h1 h2 => ?_)
  simp only [List.getElem_map, List.getElem_range, List.getD_eq_getElem?_getD]
  rw [List.getElem?_eq_getElem h2, Option.getD_some]

/-- The part after the normal is known. -/
theorem orderWith_ok {eigh : Eigh} {argsort : List ℝ → List Nat} (he : EighSpec eigh) (ha : ArgsortSpec argsort)
    {points : List V3} {m : V3} (hm : dot m m = 1) (hp : ∀ p ∈ points, |dot (p - mean points) m| < 1e-10) :
    ∃ t0 t1 qs, dot t0 t0 = 1 ∧ dot t1 t1 = 1 ∧ dot t0 t1 = 0 ∧ dot m t0 = 0 ∧ dot m t1 = 0 ∧
      orderWith eigh argsort points m = .ok qs ∧ qs.Perm points ∧ (qs.map (angleOf t0 t1)).Pairwise (· ≤ ·) := by
  obtain ⟨l0, u1, u2, o12, n1, n2⟩ := eigh_projector hm (he m hm)
  obtain ⟨hperm, hsort⟩ := ha (points.map (angleOf (eigh (projector m)).2.2.1 (eigh (projector m)).2.2.2))
  set t0 := (eigh (projector m)).2.2.1 with ht0
  set t1 := (eigh (projector m)).2.2.2 with ht1
  rw [List.length_map] at hperm
  have hlt : ∀ i ∈ argsort (points.map (angleOf t0 t1)), i < points.length := fun i hi =>
    List.mem_range.1 (hperm.mem_iff.1 hi)
  have hget : pyMap (pyGet points) (argsort (points.map (angleOf t0 t1))) =
      .ok ((argsort (points.map (angleOf t0 t1))).map (fun i => points.getD i ⟨0, 0, 0⟩)) := by
    refine pyMap_ok (fun i hi => ?_)
    rw [pyGet_ok (hlt i hi), List.getD_eq_getElem?_getD, List.getElem?_eq_getElem (hlt i hi), Option.getD_some]
  refine ⟨t0, t1, (argsort (points.map (angleOf t0 t1))).map (fun i => points.getD i ⟨0, 0, 0⟩), u1, u2, o12, n1, n2,
    ?_, ?_, ?_⟩
  · unfold orderWith
    simp only
    rw [show (points.all fun p => decide (|dot (p - mean points) m| < 1e-10)) = true by
      rw [List.all_eq_true]; exact fun p hp' => decide_eq_true (hp p hp'), pyAssert_true, py_bind_ok, l0]
    rw [show decide (|(0 : ℝ)| < 1e-13) = true by norm_num, pyAssert_true, py_bind_ok]
    exact hget
  · have := hperm.map (fun i => points.getD i ⟨0, 0, 0⟩)
    rwa [map_getD_range] at this
  · rw [List.map_map]
    refine Eq.mp (congrArg _ (List.map_congr_left (fun i hi => ?_))) hsort
    have h := hlt i hi
    simp only [Function.comp_def, List.getD_eq_getElem?_getD, List.getElem?_map, List.getElem?_eq_getElem h,
      Option.map_some, Option.getD_some]

/-- Points of a circle around the axis through the origin, sorted by their angles. -/
theorem sorted_outline {qs : List V3} {n m t0 t1 c : V3} {R : ℝ} (h0 : dot t0 t0 = 1) (h1 : dot t1 t1 = 1)
    (h01 : dot t0 t1 = 0) (hn0 : dot n t0 = 0) (hn1 : dot n t1 = 0) (hn : dot n n ≠ 0)
    (hc : ∀ q ∈ qs, OnCircle c n R q) (hR : 0 ≤ R) (hax : AxisMeets n c R)
    (hs : (qs.map (angleOf t0 t1)).Pairwise (· ≤ ·)) : Outline n qs := by
  obtain ⟨s, hs1, hs2⟩ := hax
  have ho : dot c t0 ^ 2 + dot c t1 ^ 2 < R ^ 2 := by
    have := plane_coordinates hn h0 h1 h01 hn0 hn1 hs1
    have e0 : dot (s • n - c) t0 = - dot c t0 := by rw [dot_sub_left, dot_smul_left, hn0]; ring
    have e1 : dot (s • n - c) t1 = - dot c t1 := by rw [dot_sub_left, dot_smul_left, hn1]; ring
    rw [e0, e1, neg_sq, neg_sq, ← norm_sq] at this
    rw [← this]
    exact pow_lt_pow_left₀ hs2 (norm_nonneg _) two_ne_zero
  let z : Nat → ℂ := fun i => ⟨dot (qs.getD i ⟨0, 0, 0⟩) t0, dot (qs.getD i ⟨0, 0, 0⟩) t1⟩
  have hz : ∀ i p, qs[i]? = some p → z i = ⟨dot p t0, dot p t1⟩ := by
    intro i p hp
    simp only [z, List.getD_eq_getElem?_getD, hp, Option.getD_some]
  have sub0 : ∀ p t : V3, dot (p - ⟨0, 0, 0⟩) t = dot p t := fun p t => by
    simp only [dot, sub_x, sub_y, sub_z]; ring
  have harg : ∀ i, (hi : i < qs.length) → (qs.map (angleOf t0 t1))[i]'(by simpa using hi) = (z i).arg * 180 / Real.pi := by
    intro i hi
    rw [List.getElem_map, hz i _ (List.getElem?_eq_getElem hi)]
    rfl
  have hlt : ∀ i, -Real.pi < (z i).arg ∧ (z i).arg ≤ Real.pi := fun i => ⟨Complex.neg_pi_lt_arg _, Complex.arg_le_pi _⟩
  refine outline_of_angles (o := ⟨0, 0, 0⟩) (rho := fun i => ‖z i‖) (theta := fun i => (z i).arg) (a := dot c t0)
    (b := dot c t1) (R := R) h0 h1 h01 hn0 hn1 ho (fun i _ => _root_.norm_nonneg _) ?_ ?_ ?_ ?_
  · intro i p hp
    rw [sub0, sub0, Complex.norm_mul_cos_arg, Complex.norm_mul_sin_arg, hz i p hp]
    exact ⟨rfl, rfl⟩
  · intro p hp
    obtain ⟨hd, hpl⟩ := hc p hp
    rw [sub0, sub0, ← dot_sub_left, ← dot_sub_left, ← plane_coordinates hn h0 h1 h01 hn0 hn1 hpl, ← norm_sq, hd]
  · intro i j hij hj
    rcases Nat.lt_or_ge i j with h | h
    · have hh := List.pairwise_iff_getElem.1 hs i j (by simp; omega) (by simpa using hj) h
      rw [harg i (by omega), harg j hj] at hh
      have hpi := Real.pi_pos
      rw [div_le_div_iff_of_pos_right hpi] at hh
      simpa using hh
    · rw [show i = j by omega]
  · intro i j _ _
    have := hlt i; have := hlt j
    linarith

/-- Four or more points of a circle, the first three different: what the checks need. -/
theorem circle_checks {v0 v1 v2 n c : V3} {R : ℝ} {rest : List V3} (hn : dot n n ≠ 0)
    (hc : ∀ q ∈ v0 :: v1 :: v2 :: rest, OnCircle c n R q) (d01 : v0 ≠ v1) (d02 : v0 ≠ v2) (d12 : v1 ≠ v2) :
    let k := cross (v1 - v0) (v2 - v0)
    norm k ≠ 0 ∧ (∀ x, dot x n = 0 → dot x k = 0) ∧ (∀ x, dot x k = 0 → dot x n = 0) ∧
      ∀ p ∈ v0 :: v1 :: v2 :: rest, dot (p - mean (v0 :: v1 :: v2 :: rest)) k = 0 := by
  intro k
  have sq : ∀ p ∈ v0 :: v1 :: v2 :: rest, dot (p - c) (p - c) = R ^ 2 := fun p hp => by
    rw [← norm_sq, (hc p hp).1]
  have pl : ∀ p ∈ v0 :: v1 :: v2 :: rest, dot p n = dot c n := fun p hp => by
    have := (hc p hp).2
    rw [dot_sub_left] at this; linarith
  have hk := not_on_line (sq v0 (by simp)) (sq v1 (by simp)) (sq v2 (by simp)) d01 d02 d12
  have hu : dot (v1 - v0) n = 0 := by rw [dot_sub_left, pl v1 (by simp), pl v0 (by simp)]; ring
  have hw : dot (v2 - v0) n = 0 := by rw [dot_sub_left, pl v2 (by simp), pl v0 (by simp)]; ring
  have hpar : cross n k = ⟨0, 0, 0⟩ := by
    have : cross n k = dot (v2 - v0) n • (v1 - v0) - dot (v1 - v0) n • (v2 - v0) := by
      simp only [k]
      generalize v1 - v0 = u; generalize v2 - v0 = w
      ext <;> simp [dot, cross] <;> ring
    rw [this, hu, hw]
    ext <;> simp
  have hpar' : cross k n = ⟨0, 0, 0⟩ := by
    have h1 : cross k n = (-1 : ℝ) • cross n k := by
      ext <;> simp [cross] <;> ring
    rw [h1, hpar]; ext <;> simp
  have h1 : ∀ x, dot x n = 0 → dot x k = 0 := fun x hx => by
    have := parallel_dot (x := x) hpar
    rw [hx, mul_zero] at this
    exact (mul_eq_zero.1 this).resolve_left hn
  have h2 : ∀ x, dot x k = 0 → dot x n = 0 := fun x hx => by
    have := parallel_dot (x := x) hpar'
    rw [hx, mul_zero] at this
    exact (mul_eq_zero.1 this).resolve_left hk
  refine ⟨?_, h1, h2, fun p hp => h1 _ ?_⟩
  · intro hc; apply hk; rw [← norm_sq]; change norm k ^ 2 = 0; rw [hc]; norm_num
  · rw [dot_sub_left, mean_in_plane (by simp) pl, pl p hp]; ring

end Verif.Plot
