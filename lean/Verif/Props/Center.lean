import Verif.Spec.Center
import Mathlib.LinearAlgebra.Matrix.ToLinearEquiv
import Mathlib.LinearAlgebra.Matrix.NonsingularInverse
import Mathlib.Algebra.Order.Field.Rat
import Mathlib.Algebra.Order.BigOperators.Ring.Finset
import Mathlib.Tactic.Ring
import Mathlib.Tactic.Linarith
import Mathlib.Tactic.LinearCombination
import Mathlib.Tactic.Module
import Mathlib.Tactic.NormNum
/-!
# C51: circumcentres
-/
namespace Verif.Center
open Verif Matrix Refine
variable {K : Type} [Field K]

theorem dist2_eq {d : Nat} (a b : Fin d → K) : dist2 a b = (a - b) ⬝ᵥ (a - b) := by
  unfold dist2 dotProduct
  exact Finset.sum_congr rfl (fun i _ => by rw [Pi.sub_apply]; ring)

/-- Equations for the distance. -/
theorem equidistant {d : Nat} {v0 u z : Fin d → K} (h : u ⬝ᵥ z = 1 / 2 * (u ⬝ᵥ u)) (h2 : (2 : K) ≠ 0) :
    dist2 (v0 + z) (v0 + u) = dist2 (v0 + z) v0 := by
  rw [dist2_eq, dist2_eq, add_sub_add_left_eq_sub, add_sub_cancel_left]
  rw [sub_dotProduct, dotProduct_sub, dotProduct_sub, dotProduct_comm z u, h]
  field_simp
  ring

variable [LinearOrder K] [IsStrictOrderedRing K]

theorem dot_self_eq_zero {d : Nat} {z : Fin d → K} (h : z ⬝ᵥ z = 0) : z = 0 := by
  unfold dotProduct at h
  rw [Finset.sum_eq_zero_iff_of_nonneg (fun i _ => mul_self_nonneg (z i))] at h
  funext i
  exact mul_self_eq_zero.1 (h i (Finset.mem_univ i))

/-- Gram matrices of independent vectors are regular. -/
theorem gram_det {d n : Nat} (u : Fin n → Fin d → K) (hu : ∀ y : Fin n → K, ∑ k, y k • u k = 0 → y = 0)
    (A : Matrix (Fin n) (Fin n) K) (hA : ∀ i j, A i j = u i ⬝ᵥ u j) : A.det ≠ 0 := by
  intro h
  obtain ⟨y, hy, h0⟩ := Matrix.exists_mulVec_eq_zero_iff.2 h
  refine hy (hu y (dot_self_eq_zero ?_))
  have e : ∀ i, u i ⬝ᵥ (∑ k, y k • u k) = (A *ᵥ y) i := by
    intro i
    rw [dotProduct_sum]
    unfold mulVec
    change _ = ∑ j, A i j * y j
    refine Finset.sum_congr rfl (fun j _ => ?_)
    rw [dotProduct_smul, hA, smul_eq_mul, mul_comm]
  rw [sum_dotProduct]
  refine Finset.sum_eq_zero (fun i _ => ?_)
  rw [smul_dotProduct, e i, h0]
  simp

theorem affInd_two {d : Nat} {v0 v1 v2 : Fin d → K} (h : AffInd K [v0, v1, v2]) (y : Fin 2 → K)
    (hy : ∑ k, y k • (![v1 - v0, v2 - v0] : Fin 2 → Fin d → K) k = 0) : y = 0 := by
  rw [Fin.sum_univ_two] at hy
  have := h [- (y 0) - y 1, y 0, y 1] rfl (by simp) (by
    simp only [comb, List.zipWith_cons_cons, List.zipWith_nil_left, List.sum_cons, List.sum_nil]
    refine Eq.trans ?_ hy
    simp only [Matrix.cons_val_zero, Matrix.cons_val_one]
    module)
  funext i
  fin_cases i
  · exact this _ (by simp)
  · exact this _ (by simp)

theorem affInd_three {d : Nat} {v0 v1 v2 v3 : Fin d → K} (h : AffInd K [v0, v1, v2, v3]) (y : Fin 3 → K)
    (hy : ∑ k, y k • (![v1 - v0, v2 - v0, v3 - v0] : Fin 3 → Fin d → K) k = 0) : y = 0 := by
  rw [Fin.sum_univ_three] at hy
  have := h [- (y 0) - y 1 - y 2, y 0, y 1, y 2] rfl (by simp; ring) (by
    simp only [comb, List.zipWith_cons_cons, List.zipWith_nil_left, List.sum_cons, List.sum_nil]
    refine Eq.trans ?_ hy
    simp only [Matrix.cons_val_zero, Matrix.cons_val_one, Matrix.cons_val_two, Matrix.head_cons, Matrix.tail_cons]
    module)
  funext i
  fin_cases i
  · exact this _ (by simp)
  · exact this _ (by simp)
  · exact this _ (by simp)

omit [Field K] [LinearOrder K] [IsStrictOrderedRing K] in
theorem eta2 (y : Fin 2 → K) : ![y 0, y 1] = y := by
  funext i; fin_cases i <;> rfl

omit [Field K] [LinearOrder K] [IsStrictOrderedRing K] in
theorem eta3 (y : Fin 3 → K) : ![y 0, y 1, y 2] = y := by
  funext i; fin_cases i <;> rfl

/-- The point which the codes for triangles compute. -/
theorem triangle {d : Nat} {solve : Solver K 2} (hs : Solves solve) {v0 v1 v2 : Fin d → K} (h : AffInd K [v0, v1, v2])
    (u v : Fin d → K) (hu : u = v1 - v0) (hv : v = v2 - v0)
    (yloc : Fin 2 → K) (hy : yloc = solve !![u ⬝ᵥ u, u ⬝ᵥ v; v ⬝ᵥ u, v ⬝ᵥ v] ((1 / 2 : K) • ![u ⬝ᵥ u, v ⬝ᵥ v])) :
    IsCircumcenter [v0, v1, v2] (v0 + yloc 0 • u + yloc 1 • v) := by
  have hdet := gram_det ![u, v] (by rw [hu, hv]; exact affInd_two h)
    !![u ⬝ᵥ u, u ⬝ᵥ v; v ⬝ᵥ u, v ⬝ᵥ v] (by intro i j; fin_cases i <;> fin_cases j <;> rfl)
  have hsol := hs _ ((1 / 2 : K) • ![u ⬝ᵥ u, v ⬝ᵥ v]) hdet
  rw [← hy] at hsol
  have e0 := congrFun hsol 0
  have e1 := congrFun hsol 1
  simp [mulVec, dotProduct, Fin.sum_univ_two] at e0 e1
  have dots : ∀ a : Fin d → K, a ⬝ᵥ (yloc 0 • u + yloc 1 • v) = yloc 0 * (a ⬝ᵥ u) + yloc 1 * (a ⬝ᵥ v) := by
    intro a
    rw [dotProduct_add, dotProduct_smul, dotProduct_smul, smul_eq_mul, smul_eq_mul]
  have e : v0 + yloc 0 • u + yloc 1 • v = v0 + (yloc 0 • u + yloc 1 • v) := by module
  have q1 : dist2 (v0 + yloc 0 • u + yloc 1 • v) v1 = dist2 (v0 + yloc 0 • u + yloc 1 • v) v0 := by
    have := equidistant (v0 := v0) (u := u) (z := yloc 0 • u + yloc 1 • v) (by
      rw [dots]
      unfold dotProduct
      linear_combination e0) two_ne_zero
    rw [← e] at this
    rwa [show v0 + u = v1 by rw [hu]; module] at this
  have q2 : dist2 (v0 + yloc 0 • u + yloc 1 • v) v2 = dist2 (v0 + yloc 0 • u + yloc 1 • v) v0 := by
    have := equidistant (v0 := v0) (u := v) (z := yloc 0 • u + yloc 1 • v) (by
      rw [dots]
      unfold dotProduct
      linear_combination e1) two_ne_zero
    rw [← e] at this
    rwa [show v0 + v = v2 by rw [hv]; module] at this
  refine ⟨⟨[1 - yloc 0 - yloc 1, yloc 0, yloc 1], rfl, by simp, ?_⟩, ?_⟩
  · simp only [comb, List.zipWith_cons_cons, List.zipWith_nil_left, List.sum_cons, List.sum_nil]
    rw [hu, hv]
    module
  · intro p hp q hq
    simp only [List.mem_cons, List.not_mem_nil, or_false] at hp hq
    rcases hp with rfl | rfl | rfl <;> rcases hq with rfl | rfl | rfl <;> simp [q1, q2]

/-- The point which the code for tetrahedra computes. -/
theorem tetrahedron {d : Nat} {solve : Solver K 3} (hs : Solves solve) {v0 v1 v2 v3 : Fin d → K} (h : AffInd K [v0, v1, v2, v3])
    (u v w : Fin d → K) (hu : u = v1 - v0) (hv : v = v2 - v0) (hw : w = v3 - v0)
    (yloc : Fin 3 → K) (hy : yloc = solve !![u ⬝ᵥ u, u ⬝ᵥ v, u ⬝ᵥ w; v ⬝ᵥ u, v ⬝ᵥ v, v ⬝ᵥ w; w ⬝ᵥ u, w ⬝ᵥ v, w ⬝ᵥ w]
      ((1 / 2 : K) • ![u ⬝ᵥ u, v ⬝ᵥ v, w ⬝ᵥ w])) :
    IsCircumcenter [v0, v1, v2, v3] (v0 + yloc 0 • u + yloc 1 • v + yloc 2 • w) := by
  have hdet := gram_det ![u, v, w] (by rw [hu, hv, hw]; exact affInd_three h)
    !![u ⬝ᵥ u, u ⬝ᵥ v, u ⬝ᵥ w; v ⬝ᵥ u, v ⬝ᵥ v, v ⬝ᵥ w; w ⬝ᵥ u, w ⬝ᵥ v, w ⬝ᵥ w]
    (by intro i j; fin_cases i <;> fin_cases j <;> rfl)
  have hsol := hs _ ((1 / 2 : K) • ![u ⬝ᵥ u, v ⬝ᵥ v, w ⬝ᵥ w]) hdet
  rw [← hy] at hsol
  have e0 := congrFun hsol 0
  have e1 := congrFun hsol 1
  have e2 := congrFun hsol 2
  simp [mulVec, dotProduct, Fin.sum_univ_three] at e0 e1 e2
  have dots : ∀ a : Fin d → K, a ⬝ᵥ (yloc 0 • u + yloc 1 • v + yloc 2 • w) = yloc 0 * (a ⬝ᵥ u) + yloc 1 * (a ⬝ᵥ v) + yloc 2 * (a ⬝ᵥ w) := by
    intro a
    rw [dotProduct_add, dotProduct_add, dotProduct_smul, dotProduct_smul, dotProduct_smul, smul_eq_mul, smul_eq_mul, smul_eq_mul]
  have e : v0 + yloc 0 • u + yloc 1 • v + yloc 2 • w = v0 + (yloc 0 • u + yloc 1 • v + yloc 2 • w) := by module
  have q1 : dist2 (v0 + yloc 0 • u + yloc 1 • v + yloc 2 • w) v1 = dist2 (v0 + yloc 0 • u + yloc 1 • v + yloc 2 • w) v0 := by
    have := equidistant (v0 := v0) (u := u) (z := yloc 0 • u + yloc 1 • v + yloc 2 • w) (by
      rw [dots]
      unfold dotProduct
      linear_combination e0) two_ne_zero
    rw [← e] at this
    rwa [show v0 + u = v1 by rw [hu]; module] at this
  have q2 : dist2 (v0 + yloc 0 • u + yloc 1 • v + yloc 2 • w) v2 = dist2 (v0 + yloc 0 • u + yloc 1 • v + yloc 2 • w) v0 := by
    have := equidistant (v0 := v0) (u := v) (z := yloc 0 • u + yloc 1 • v + yloc 2 • w) (by
      rw [dots]
      unfold dotProduct
      linear_combination e1) two_ne_zero
    rw [← e] at this
    rwa [show v0 + v = v2 by rw [hv]; module] at this
  have q3 : dist2 (v0 + yloc 0 • u + yloc 1 • v + yloc 2 • w) v3 = dist2 (v0 + yloc 0 • u + yloc 1 • v + yloc 2 • w) v0 := by
    have := equidistant (v0 := v0) (u := w) (z := yloc 0 • u + yloc 1 • v + yloc 2 • w) (by
      rw [dots]
      unfold dotProduct
      linear_combination e2) two_ne_zero
    rw [← e] at this
    rwa [show v0 + w = v3 by rw [hw]; module] at this
  refine ⟨⟨[1 - yloc 0 - yloc 1 - yloc 2, yloc 0, yloc 1, yloc 2], rfl, by simp; ring, ?_⟩, ?_⟩
  · simp only [comb, List.zipWith_cons_cons, List.zipWith_nil_left, List.sum_cons, List.sum_nil]
    rw [hu, hv, hw]
    module
  · intro p hp q hq
    simp only [List.mem_cons, List.not_mem_nil, or_false] at hp hq
    rcases hp with rfl | rfl | rfl | rfl <;> rcases hq with rfl | rfl | rfl | rfl <;> simp [q1, q2, q3]

/-- C51.  Whatever `CellCircumcenter` computes for a nondegenerate cell is its circumcentre. -/
theorem circumcenter_correct {solve2 : Solver K 2} {solve3 : Solver K 3} (h2 : Solves solve2) (h3 : Solves solve3)
    {tdim gdim : Nat} {l : List (Fin gdim → K)} {y : Fin gdim → K} (hl : AffInd K l)
    (h : cellCircumcenter solve2 solve3 tdim gdim l = .ok y) : IsCircumcenter l y := by
  unfold cellCircumcenter at h
  split at h
  · rename_i v0 v1
    split at h
    · injection h with h
      subst h
      unfold circumcenter12
      dsimp only
      rw [eta2]
      refine ⟨⟨[1 / 2, 1 / 2], rfl, by norm_num, ?_⟩, ?_⟩
      · simp only [comb, List.zipWith_cons_cons, List.zipWith_nil_left, List.sum_cons, List.sum_nil]
        module
      · have e : dist2 ((1 / 2 : K) • (v0 + v1)) v0 = dist2 ((1 / 2 : K) • (v0 + v1)) v1 := by
          unfold dist2
          refine Finset.sum_congr rfl (fun i _ => ?_)
          simp only [Pi.smul_apply, Pi.add_apply, smul_eq_mul]
          ring
        intro p hp q hq
        simp only [List.mem_cons, List.not_mem_nil, or_false] at hp hq
        rcases hp with rfl | rfl <;> rcases hq with rfl | rfl <;> simp only [e]
    · simp at h
  · split at h
    · injection h with h
      subst h
      unfold circumcenter22
      dsimp only
      rw [eta2]
      exact triangle h2 hl _ _ rfl rfl _ rfl
    · simp at h
  · split at h <;> simp at h
  · split at h
    · injection h with h
      subst h
      unfold circumcenter23
      dsimp only
      rw [eta3]
      exact triangle h2 hl _ _ rfl rfl _ rfl
    · simp at h
  · split at h
    · injection h with h
      subst h
      unfold circumcenter33
      dsimp only
      rw [eta3]
      exact tetrahedron h3 hl _ _ _ rfl rfl rfl _ rfl
    · simp at h
  · simp at h

omit [IsStrictOrderedRing K] [LinearOrder K] in
/-- Which cells are covered. -/
theorem circumcenter_total_partial (solve2 : Solver K 2) (solve3 : Solver K 3) {tdim gdim : Nat} (l : List (Fin gdim → K))
    (hl : l.length = tdim + 1) (h : (tdim, gdim) ∈ [(1, 2), (2, 2), (2, 3), (3, 3)]) :
    ∃ y, cellCircumcenter solve2 solve3 tdim gdim l = .ok y := by
  simp only [List.mem_cons, Prod.mk.injEq, List.not_mem_nil, or_false] at h
  rcases h with ⟨rfl, rfl⟩ | ⟨rfl, rfl⟩ | ⟨rfl, rfl⟩ | ⟨rfl, rfl⟩
  · obtain ⟨a, b, rfl⟩ := List.length_eq_two.1 hl
    exact ⟨_, rfl⟩
  · obtain ⟨a, b, c, rfl⟩ := List.length_eq_three.1 hl
    exact ⟨_, rfl⟩
  · obtain ⟨a, b, c, rfl⟩ := List.length_eq_three.1 hl
    exact ⟨_, rfl⟩
  · rcases l with _ | ⟨a, _ | ⟨b, _ | ⟨c, _ | ⟨d, _ | ⟨e, l⟩⟩⟩⟩⟩ <;> simp at hl
    exact ⟨_, rfl⟩

omit [IsStrictOrderedRing K] [LinearOrder K] in
/-- Intervals in the space and on the line are refused. -/
theorem circumcenter_intervals (solve2 : Solver K 2) (solve3 : Solver K 3) :
    (∀ a b : Fin 3 → K, cellCircumcenter solve2 solve3 1 3 [a, b] = .error .runtimeError) ∧
    ∀ a b : Fin 1 → K, cellCircumcenter solve2 solve3 1 1 [a, b] = .error .keyError := ⟨fun _ _ => rfl, fun _ _ => rfl⟩

/-- The circumcentre is unique. -/
theorem circumcenter_unique {d : Nat} {l : List (Fin d → K)} {y z : Fin d → K} (hy : IsCircumcenter l y)
    (hz : IsCircumcenter l z) : y = z := by
  obtain ⟨⟨a, la, sa, ca⟩, ha⟩ := hy
  obtain ⟨⟨b, lb, sb, cb⟩, hb⟩ := hz
  rcases l with _ | ⟨p0, l⟩
  · rw [← ca, ← cb]; simp [comb]
  -- (y - z) is orthogonal to all differences of points, and is a combination of them
  have hcomb : ∀ (w : List K) (m : List (Fin d → K)) (c : Fin d → K), w.length = m.length →
      (∀ p ∈ m, (y - z) ⬝ᵥ (p - p0) = 0) → (y - z) ⬝ᵥ (comb K w m - w.sum • p0) = 0 := by
    intro w
    induction w with
    | nil => intro m c _ _; simp [comb]
    | cons t w ih =>
        intro m c hlen hm
        rcases m with _ | ⟨p, m⟩
        · simp at hlen
        · have h1 := ih m c (by simpa using hlen) (fun q hq => hm q (by simp [hq]))
          have h2 := hm p (by simp)
          have e : comb K (t :: w) (p :: m) - (t :: w).sum • p0 = t • (p - p0) + (comb K w m - w.sum • p0) := by
            have e2 : comb K (t :: w) (p :: m) = t • p + comb K w m := by simp [comb]
            rw [e2, List.sum_cons]
            module
          rw [e, dotProduct_add, dotProduct_smul, h1, h2]
          simp
  have hort : ∀ p ∈ p0 :: l, (y - z) ⬝ᵥ (p - p0) = 0 := by
    intro p hp
    have h1 := ha p hp p0 (by simp)
    have h2 := hb p hp p0 (by simp)
    have e : ∀ x : Fin d → K, dist2 x p - dist2 x p0 = p ⬝ᵥ p - p0 ⬝ᵥ p0 - 2 * (x ⬝ᵥ (p - p0)) := by
      intro x
      rw [dist2_eq, dist2_eq]
      simp only [sub_dotProduct, dotProduct_sub]
      rw [dotProduct_comm p x, dotProduct_comm p0 x]
      ring
    have e1 := e y
    have e2 := e z
    rw [h1, sub_self] at e1
    rw [h2, sub_self] at e2
    rw [sub_dotProduct]
    linarith
  have h1 := hcomb a (p0 :: l) p0 la hort
  have h2 := hcomb b (p0 :: l) p0 lb hort
  rw [sa, ca] at h1
  rw [sb, cb] at h2
  have : (y - z) ⬝ᵥ (y - z) = 0 := by
    have e : y - z = (y - (1 : K) • p0) - (z - (1 : K) • p0) := by module
    conv_lhs => rhs; rw [e]
    rw [dotProduct_sub, h1, h2, sub_self]
  exact sub_eq_zero.1 (dot_self_eq_zero this)

/-! ## Examples -/

omit [IsStrictOrderedRing K] [LinearOrder K] in
/-- The inverse matrix is a solver. -/
theorem solves_inv (n : Nat) : Solves (K := K) (fun (A : Matrix (Fin n) (Fin n) K) b => A⁻¹ *ᵥ b) := by
  intro A b hA
  rw [Matrix.mulVec_mulVec, Matrix.mul_nonsing_inv A (isUnit_iff_ne_zero.2 hA), Matrix.one_mulVec]

example : AffInd ℚ [![(0 : ℚ), 0, 0], ![1, 0, 0], ![0, 1, 0], ![0, 0, 1]] := by
  intro w hw hs hc
  rcases w with _ | ⟨a, _ | ⟨b, _ | ⟨c, _ | ⟨d, _ | ⟨e, l⟩⟩⟩⟩⟩ <;> simp at hw
  simp [comb] at hs hc
  obtain ⟨h1, h2, h3⟩ := hc
  have h4 : a = 0 := by rw [h1, h2, h3] at hs; linarith
  intro x hx
  simp at hx
  rcases hx with rfl | rfl | rfl | rfl <;> assumption

example : IsCircumcenter [![(0 : ℚ), 0, 0], ![1, 0, 0], ![0, 1, 0], ![0, 0, 1]] ![1 / 2, 1 / 2, 1 / 2] := by
  refine ⟨⟨[-1 / 2, 1 / 2, 1 / 2, 1 / 2], rfl, by norm_num, ?_⟩, ?_⟩
  · funext i
    fin_cases i <;> simp [comb]
  · intro p hp q hq
    simp only [List.mem_cons, List.not_mem_nil, or_false] at hp hq
    rcases hp with rfl | rfl | rfl | rfl <;> rcases hq with rfl | rfl | rfl | rfl <;>
      simp [dist2, Fin.sum_univ_three] <;> norm_num

end Verif.Center
