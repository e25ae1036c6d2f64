import Verif.Lemmas.Refine2
import Mathlib.Algebra.Order.Field.Rat
import Mathlib.Algebra.Module.Prod
import Mathlib.Tactic.NormNum
import Mathlib.Tactic.LinearCombination
import Mathlib.Tactic.IntervalCases
/-!
# C48: refinement by inner points
-/
namespace Verif.Refine
open Verif Verif.BlockOps
variable {K E : Type} [Field K] [LinearOrder K] [IsStrictOrderedRing K] [AddCommGroup E] [Module K E]

/-- C48.  If each new point is inside its cell then, for any number of refinements, the cells of the result which have the
    parent `c` tile the cell `c` of the original mesh. -/
theorem refine_tiles {area : List E → K} {newPts : List E → List (List Nat) → List E}
    {hmin : List E → List (List Nat) → K} {strict : K} {tdim n : Nat} {M F : RMesh E} {nrefs : Int} (hM : M.OK n)
    (hp : Inner K newPts n) (h : innerPointRefine area newPts hmin strict tdim n M nrefs = .ok F) :
    Tiles K M F ∧ F.OK n ∧ M.coords <+: F.coords ∧ F.vmap = (List.range M.coords.length).map (fun v => (v, v)) ∧
    F.cells.length = M.cells.length * n ^ levels nrefs ∧
    ∀ i, i < F.cells.length → F.cmap[i]? = some (i / n ^ levels nrefs) := by
  unfold innerPointRefine at h
  rw [py_bind_eq_ok] at h
  obtain ⟨M0, h0, h⟩ := h
  obtain ⟨x, hs, hx⟩ := step hM hp h0
  have l0 : Level (K := K) M M0 n 1 := by
    refine ⟨hs.ok, hs.pos, hs.tiles hM hx, hs.coords, hs.vmap, by rw [hs.ncells, pow_one], ?_⟩
    intro i hi
    rw [hs.ncells] at hi
    rw [hs.cmap, childToParent_get, if_pos hi, pow_one]
  have key : Level (K := K) M F n (levels nrefs) := by
    unfold levels
    by_cases hn : 1 < nrefs
    · rw [if_pos hn] at h ⊢
      have e : M0.vmap.map (fun p => p.1) = List.range M.coords.length ∧
          M0.vmap.map (fun p => p.2) = List.range M.coords.length := by
        rw [hs.vmap]
        simp [List.map_map, Function.comp_def]
      rw [e.1, e.2] at h
      have := refineMore_level hp _ l0 h
      have e2 : 1 + (nrefs - 1).toNat = nrefs.toNat := by omega
      rwa [e2] at this
    · rw [if_neg hn] at h ⊢
      injection h with h
      rw [← h]
      exact l0
  exact ⟨key.tiles, key.ok, key.coords, key.vmap, key.ncells, key.cmap⟩

/-! ## The check of new points -/

theorem intArea_barycentric : Barycentric K (intArea (K := K)) 2 := by
  constructor
  · intro l w hl hw hs i a hi
    obtain ⟨p, q, rfl⟩ : ∃ p q, l = [p, q] := List.length_eq_two.1 hl
    obtain ⟨u, v, rfl⟩ : ∃ p q, w = [p, q] := List.length_eq_two.1 hw
    have hlt : i < 2 := by have := (List.getElem?_eq_some_iff.1 hi).1; simpa using this
    have hs' : u = 1 - v := by simp at hs; linear_combination hs
    interval_cases i
    · obtain rfl : u = a := by simpa using hi
      simp only [comb, List.zipWith_cons_cons, List.zipWith_nil_left, List.sum_cons, List.sum_nil, List.eraseIdx_cons_zero,
        List.cons_append, List.nil_append, intArea, smul_eq_mul]
      rw [← abs_mul, ← abs_neg]
      congr 1
      rw [hs']; ring
    · obtain rfl : v = a := by simpa using hi
      simp only [comb, List.zipWith_cons_cons, List.zipWith_nil_left, List.sum_cons, List.sum_nil, List.eraseIdx_cons_zero,
        List.eraseIdx_cons_succ, List.cons_append, List.nil_append, intArea, smul_eq_mul]
      rw [← abs_mul]
      congr 1
      rw [hs']; ring
  · intro l x i hl hi
    obtain ⟨p, q, rfl⟩ : ∃ p q, l = [p, q] := List.length_eq_two.1 hl
    interval_cases i <;>
    · simp only [List.eraseIdx_cons_zero, List.eraseIdx_cons_succ, List.cons_append, List.nil_append, intArea]
      exact abs_sub_comm _ _

theorem triArea_barycentric : Barycentric K (triArea (K := K)) 3 := by
  constructor
  · intro l w hl hw hs i a hi
    obtain ⟨p, q, r, rfl⟩ : ∃ p q r, l = [p, q, r] := List.length_eq_three.1 hl
    obtain ⟨u, v, t, rfl⟩ : ∃ p q r, w = [p, q, r] := List.length_eq_three.1 hw
    have hlt : i < 3 := by have := (List.getElem?_eq_some_iff.1 hi).1; simpa using this
    have hs' : u = 1 - v - t := by simp at hs; linear_combination hs
    interval_cases i
    · obtain rfl : u = a := by simpa using hi
      simp only [comb, List.zipWith_cons_cons, List.zipWith_nil_left, List.sum_cons, List.sum_nil, List.eraseIdx_cons_zero,
        List.cons_append, List.nil_append, triArea, Prod.fst_add, Prod.snd_add, Prod.smul_fst, Prod.smul_snd, smul_eq_mul,
        Prod.fst_zero, Prod.snd_zero]
      rw [← abs_mul]
      congr 1
      rw [hs']; ring
    · obtain rfl : v = a := by simpa using hi
      simp only [comb, List.zipWith_cons_cons, List.zipWith_nil_left, List.sum_cons, List.sum_nil, List.eraseIdx_cons_zero,
        List.eraseIdx_cons_succ, List.cons_append, List.nil_append, triArea, Prod.fst_add, Prod.snd_add, Prod.smul_fst,
        Prod.smul_snd, smul_eq_mul, Prod.fst_zero, Prod.snd_zero]
      rw [← abs_mul, ← abs_neg]
      congr 1
      rw [hs']; ring
    · obtain rfl : t = a := by simpa using hi
      simp only [comb, List.zipWith_cons_cons, List.zipWith_nil_left, List.sum_cons, List.sum_nil, List.eraseIdx_cons_zero,
        List.eraseIdx_cons_succ, List.cons_append, List.nil_append, triArea, Prod.fst_add, Prod.snd_add, Prod.smul_fst,
        Prod.smul_snd, smul_eq_mul, Prod.fst_zero, Prod.snd_zero]
      rw [← abs_mul]
      congr 1
      rw [hs']; ring
  · intro l x i hl hi
    obtain ⟨p, q, r, rfl⟩ : ∃ p q r, l = [p, q, r] := List.length_eq_three.1 hl
    interval_cases i <;>
    · simp only [List.eraseIdx_cons_zero, List.eraseIdx_cons_succ, List.cons_append, List.nil_append, triArea]
      congr 1
      ring

theorem tetArea_barycentric : Barycentric K (tetArea (K := K)) 4 := by
  have four : ∀ {α : Type} {l : List α}, l.length = 4 → ∃ a b c d, l = [a, b, c, d] := by
    intro α l h
    rcases l with _ | ⟨a, _ | ⟨b, _ | ⟨c, _ | ⟨d, _ | ⟨e, l⟩⟩⟩⟩⟩ <;> simp at h
    exact ⟨a, b, c, d, rfl⟩
  constructor
  · intro l w hl hw hs i a hi
    obtain ⟨p, q, r, z, rfl⟩ := four hl
    obtain ⟨u, v, t, m, rfl⟩ := four hw
    have hlt : i < 4 := by have := (List.getElem?_eq_some_iff.1 hi).1; simpa using this
    have hs' : u = 1 - v - t - m := by simp at hs; linear_combination hs
    interval_cases i
    · obtain rfl : u = a := by simpa using hi
      simp only [comb, List.zipWith_cons_cons, List.zipWith_nil_left, List.sum_cons, List.sum_nil, List.eraseIdx_cons_zero,
        List.cons_append, List.nil_append, tetArea, triple, Prod.fst_add, Prod.snd_add, Prod.smul_fst, Prod.smul_snd,
        smul_eq_mul, Prod.fst_zero, Prod.snd_zero, Prod.fst_sub, Prod.snd_sub]
      rw [← abs_mul, ← abs_neg]
      congr 1
      rw [hs']; ring
    · obtain rfl : v = a := by simpa using hi
      simp only [comb, List.zipWith_cons_cons, List.zipWith_nil_left, List.sum_cons, List.sum_nil, List.eraseIdx_cons_zero,
        List.eraseIdx_cons_succ, List.cons_append, List.nil_append, tetArea, triple, Prod.fst_add, Prod.snd_add,
        Prod.smul_fst, Prod.smul_snd, smul_eq_mul, Prod.fst_zero, Prod.snd_zero, Prod.fst_sub, Prod.snd_sub]
      rw [← abs_mul]
      congr 1
      rw [hs']; ring
    · obtain rfl : t = a := by simpa using hi
      simp only [comb, List.zipWith_cons_cons, List.zipWith_nil_left, List.sum_cons, List.sum_nil, List.eraseIdx_cons_zero,
        List.eraseIdx_cons_succ, List.cons_append, List.nil_append, tetArea, triple, Prod.fst_add, Prod.snd_add,
        Prod.smul_fst, Prod.smul_snd, smul_eq_mul, Prod.fst_zero, Prod.snd_zero, Prod.fst_sub, Prod.snd_sub]
      rw [← abs_mul, ← abs_neg]
      congr 1
      rw [hs']; ring
    · obtain rfl : m = a := by simpa using hi
      simp only [comb, List.zipWith_cons_cons, List.zipWith_nil_left, List.sum_cons, List.sum_nil, List.eraseIdx_cons_zero,
        List.eraseIdx_cons_succ, List.cons_append, List.nil_append, tetArea, triple, Prod.fst_add, Prod.snd_add,
        Prod.smul_fst, Prod.smul_snd, smul_eq_mul, Prod.fst_zero, Prod.snd_zero, Prod.fst_sub, Prod.snd_sub]
      rw [← abs_mul]
      congr 1
      rw [hs']; ring
  · intro l x i hl hi
    obtain ⟨p, q, r, z, rfl⟩ := four hl
    interval_cases i <;>
    · simp only [List.eraseIdx_cons_zero, List.eraseIdx_cons_succ, List.cons_append, List.nil_append, tetArea, triple,
        Prod.fst_sub, Prod.snd_sub]
      rw [← abs_neg]
      congr 1
      ring

omit [IsStrictOrderedRing K] in
/-- The areas which `point_is_inside` adds. -/
theorem simplices_area {area : List E → K} {n : Nat} (ha : Barycentric K area n) {l : List E} {w : List K} (hl : l.length = n)
    (hw : w.length = n) (hs : w.sum = 1) :
    ((simplices (comb K w l) l).map area).sum = (w.map (fun a => |a|)).sum * area l := by
  unfold simplices
  rw [List.map_map, hl]
  unfold omitted
  rw [List.map_reverse, List.sum_reverse]
  have e : (List.range n).map (area ∘ fun i => comb K w l :: l.eraseIdx i) = w.map (fun a => |a| * area l) := by
    apply List.ext_getElem
    · simp [hw]
    · intro i h1 h2
      have hi : i < n := by simpa using h1
      have hiw : i < w.length := by rw [hw]; exact hi
      rw [List.getElem_map, List.getElem_range, List.getElem_map, Function.comp_apply, ha.front l _ i hl hi]
      exact ha.child l w hl hw hs i _ (List.getElem?_eq_getElem hiw)
  rw [e, List.sum_map_mul_right]

theorem sum_abs_sub (w : List K) : w.sum ≤ (w.map (fun a => |a|)).sum ∧
    ∀ a ∈ w, a < 0 → w.sum + 2 * |a| ≤ (w.map (fun a => |a|)).sum := by
  induction w with
  | nil => simp
  | cons b w ih =>
      simp only [List.sum_cons, List.map_cons]
      refine ⟨add_le_add (le_abs_self b) ih.1, ?_⟩
      intro a ha h0
      rcases List.mem_cons.1 ha with rfl | ha
      · have := ih.1
        rw [abs_of_neg h0]
        linarith
      · have := ih.2 a ha h0
        have := le_abs_self b
        linarith

/-- Points inside are accepted. -/
theorem point_is_inside_complete {area : List E → K} {n : Nat} (ha : Barycentric K area n) {l : List E} {x : E} {tol : K}
    (hl : l.length = n) (htol : 0 < tol) (hx : Hull K l x) : pointIsInside area tol x l = true := by
  obtain ⟨w, h1, h2, h3, rfl⟩ := hx
  unfold pointIsInside
  rw [simplices_area ha hl (h1.trans hl) h3]
  have : w.map (fun a => |a|) = w := by
    conv_rhs => rw [← List.map_id w]
    apply List.map_congr_left
    intro a haw
    exact abs_of_nonneg (h2 a haw)
  rw [this, h3, one_mul, sub_self, abs_zero]
  exact decide_eq_true htol

/-- A point which is accepted, and whose children are accepted, is outside of the cell by less than half of the tolerance;
    with the tolerance at most `2E-15` it is inside. -/
theorem point_is_inside_sound_partial {area : List E → K} {n : Nat} (ha : Barycentric K area n) {l : List E} {w : List K}
    {tol : K} (hl : l.length = n) (hw : w.length = n) (hs : w.sum = 1) (hA : 0 ≤ area l)
    (hin : pointIsInside area tol (comb K w l) l = true)
    (hch : ∀ i, i < n → 1 / 10 ^ 15 < area (l.eraseIdx i ++ [comb K w l])) :
    (∀ a ∈ w, - (tol / 2) < a * area l) ∧ (tol ≤ 2 / 10 ^ 15 → OpenHull K l (comb K w l)) := by
  unfold pointIsInside at hin
  rw [decide_eq_true_iff, simplices_area ha hl hw hs] at hin
  have hsum := sum_abs_sub w
  rw [hs] at hsum
  have h1 : area l - (w.map (fun a => |a|)).sum * area l ≤ 0 := by
    have := mul_le_mul_of_nonneg_right hsum.1 hA
    linarith
  rw [abs_of_nonpos h1] at hin
  have htol : 0 < tol := by linarith
  have neg : ∀ a ∈ w, a < 0 → 2 * (|a| * area l) < tol := by
    intro a haw h0
    have := mul_le_mul_of_nonneg_right (hsum.2 a haw h0) hA
    have e : (1 + 2 * |a|) * area l = area l + 2 * (|a| * area l) := by ring
    rw [e] at this
    linarith
  have big : ∀ a ∈ w, 1 / 10 ^ 15 < |a| * area l := by
    intro a haw
    obtain ⟨i, hi, rfl⟩ := List.getElem_of_mem haw
    have := hch i (by rw [← hw]; exact hi)
    rwa [ha.child l w hl hw hs i _ (List.getElem?_eq_getElem hi)] at this
  refine ⟨?_, ?_⟩
  · intro a haw
    rcases lt_or_ge a 0 with h0 | h0
    · have := neg a haw h0
      rw [abs_of_neg h0] at this
      linarith
    · have := mul_nonneg h0 hA
      linarith
  · intro ht
    refine ⟨w, hw.trans hl.symm, ?_, hs, rfl⟩
    intro a haw
    by_contra h0
    rcases lt_or_eq_of_le (not_lt.1 h0) with h0 | h0
    · have h2 := neg a haw h0
      have h3 := big a haw
      have : (2 : K) / 10 ^ 15 = 2 * (1 / 10 ^ 15) := by ring
      rw [this] at ht
      linarith
    · have := big a haw
      rw [h0, abs_zero, zero_mul] at this
      have h5 : (0 : K) < 1 / 10 ^ 15 := by positivity
      linarith

/-- The tolerance lets a point outside of the cell through: the interval `[0, 1]` and the point `-10^-11`. -/
theorem point_outside_accepted : ∃ F : RMesh ℚ, innerPointRefine intArea (fun _ _ => [-(1 / 10 ^ 11)]) (fun _ _ => 1) (1 / 10 ^ 10) 1 2
      ⟨[0, 1], [[0, 1]], [], []⟩ 1 = .ok F ∧ ¬ Tiles ℚ ⟨[0, 1], [[0, 1]], [], []⟩ F := by
  refine ⟨⟨[0, 1, -(1 / 10 ^ 11)], [[0, 2], [1, 2]], [(0, 0), (1, 1)], [0, 0]⟩, by decide +kernel, ?_⟩
  intro h
  have hc : IsCell (⟨[0, 1], [[0, 1]], [], []⟩ : RMesh ℚ) 0 [0, 1] := ⟨[0, 1], rfl, .cons rfl (.cons rfl .nil)⟩
  have := (h.union 0 [0, 1] hc (-(1 / 10 ^ 11))).2 ⟨0, [0, -(1 / 10 ^ 11)], rfl, ⟨[0, 2], rfl, .cons rfl (.cons rfl .nil)⟩,
    [0, 1], rfl, by simp, by norm_num, by simp [comb]⟩
  obtain ⟨w, h1, h2, h3, h4⟩ := this
  obtain ⟨u, v, rfl⟩ : ∃ p q, w = [p, q] := List.length_eq_two.1 h1
  have := h2 v (by simp)
  simp [comb] at h4
  rw [h4] at this
  norm_num at this

/-! ## Centroids -/

/-- Centroids are inside. -/
theorem centroids_inner {n : Nat} (hn : 0 < n) : Inner K (centroids K (E := E)) n := by
  intro M hM
  refine ⟨by simp [centroids], ?_⟩
  rintro c l x ⟨cell, hc, hl⟩ hx
  unfold centroids at hx
  rw [List.getElem?_map, hc] at hx
  simp only [Option.map_some, Option.some.injEq] at hx
  subst hx
  have hlen := (hM cell (List.mem_of_getElem? hc)).1
  have hmap : cell.map (fun v => M.coords.getD v 0) = l := by
    have : ∀ {cell : List Nat} {l : List E}, List.Forall₂ (fun (v : Nat) p => M.coords[v]? = some p) cell l →
        cell.map (fun v => M.coords.getD v 0) = l := by
      intro cell l h
      induction h with
      | nil => rfl
      | cons h _ ih =>
          rw [List.map_cons, ih, List.getD_eq_getElem?_getD, h]
          rfl
    exact this hl
  have hn' : (0 : K) < (n : K) := Nat.cast_pos.2 hn
  rw [hmap, hlen]
  refine ⟨List.replicate n (1 / (n : K)), by rw [List.length_replicate, ← hl.length_eq, hlen], ?_, ?_, ?_⟩
  · intro a ha
    rw [List.eq_of_mem_replicate ha]
    positivity
  · rw [List.sum_replicate, nsmul_eq_mul]
    field_simp
  · have : ∀ (a : K) (l : List E), comb K (List.replicate l.length a) l = a • l.sum := by
      intro a l
      induction l with
      | nil => simp [comb]
      | cons p l ih => rw [List.length_cons, List.replicate_succ, comb_cons, ih, List.sum_cons, smul_add]
    have e : l.length = n := by rw [← hl.length_eq, hlen]
    rw [← e]
    exact this _ l

/-- C48 for `centroid_refine`. -/
theorem centroid_refine_tiles {area : List E → K} {hmin : List E → List (List Nat) → K} {strict : K} {tdim n : Nat}
    {M F : RMesh E} {nrefs : Int} (hM : M.OK n)
    (h : innerPointRefine area (centroids K) hmin strict tdim n M nrefs = .ok F) : Tiles K M F := by
  have hn : 0 < n := by
    have h' := h
    unfold innerPointRefine at h'
    rw [py_bind_eq_ok] at h'
    obtain ⟨M0, h0, -⟩ := h'
    have := (refineOnce_eq_ok h0).1
    omega
  exact (refine_tiles hM (centroids_inner hn) h).1

/-! ## Examples -/

/-- The unit square. -/
def square : RMesh (ℚ × ℚ) := ⟨[(0, 0), (1, 0), (1, 1), (0, 1)], [[0, 1, 2], [0, 2, 3]], [], []⟩

example : square.OK 3 := by
  intro c hc
  simp only [square, List.mem_cons, List.not_mem_nil, or_false] at hc
  rcases hc with rfl | rfl <;> exact ⟨rfl, by simp [square]⟩

/-- The square refined twice has 18 triangles, the first nine in the first one. -/
example : (innerPointRefine triArea (centroids ℚ) (fun _ _ => 1) (1 / 10 ^ 10) 2 3 square 2).map (fun F => F.cmap) =
    .ok [0, 0, 0, 0, 0, 0, 0, 0, 0, 1, 1, 1, 1, 1, 1, 1, 1, 1] := by decide +kernel

example : AffInd ℚ [((0 : ℚ), (0 : ℚ)), (1, 0), (1, 1)] := by
  intro w hw hs hc
  obtain ⟨u, v, t, rfl⟩ : ∃ p q r, w = [p, q, r] := List.length_eq_three.1 hw
  simp [comb] at hs hc
  have ht : t = 0 := hc.2
  have hv : v = 0 := by linarith [hc.1]
  have hu : u = 0 := by linarith
  simp [hu, hv, ht]

/-- A case of `point_is_inside_sound_partial`. -/
example : pointIsInside triArea (1 / 10 ^ 15) (comb ℚ [1 / 2, 1 / 4, 1 / 4] [((0 : ℚ), (0 : ℚ)), (1, 0), (1, 1)])
      [((0 : ℚ), (0 : ℚ)), (1, 0), (1, 1)] = true ∧
    ∀ i ∈ [0, 1, 2], (1 : ℚ) / 10 ^ 15 < triArea ([((0 : ℚ), (0 : ℚ)), (1, 0), (1, 1)].eraseIdx i ++
      [comb ℚ [1 / 2, 1 / 4, 1 / 4] [((0 : ℚ), (0 : ℚ)), (1, 0), (1, 1)]]) := by decide +kernel

end Verif.Refine
