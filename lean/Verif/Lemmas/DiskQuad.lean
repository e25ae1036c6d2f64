import Verif.Model.DiskQuad
import Verif.Lemmas.DiskMoment
import Mathlib.Analysis.Real.Pi.Bounds
import Mathlib.Tactic.NormNum
import Mathlib.Tactic.Linarith
/-! Symmetry and moments of the tables. -/
namespace Verif.DiskQuad
open MeasureTheory Real Set Verif

/-- Value of a list of nodes with weights on `f`. -/
def lsum (l : List ((ℚ × ℚ) × ℚ)) (f : ℝ → ℝ → ℝ) : ℝ := (l.map (fun p => (p.2 : ℝ) * f p.1.1 p.1.2)).sum

theorem lsum_append (l k : List ((ℚ × ℚ) × ℚ)) (f : ℝ → ℝ → ℝ) : lsum (l ++ k) f = lsum l f + lsum k f := by
  simp [lsum]

theorem ruleSum_eq (l : List ((ℚ × ℚ) × ℚ)) (f : ℝ → ℝ → ℝ) :
    ruleSum (l.map (fun p => p.1)) (l.map (fun p => p.2)) f = lsum l f := by
  unfold ruleSum lsum
  congr 1
  induction l with
  | nil => rfl
  | cons x l ih => simp [ih]

/-- Rows of type 1 are the centre. -/
def RowOk (r : Row) : Prop := r.2.2.2 = 1 → r.2.1 = 0 ∧ r.2.2.1 = 0

instance (r : Row) : Decidable (RowOk r) := by unfold RowOk; infer_instance

theorem expand_sym {r : Row} (hr : RowOk r) {l} (h : expand r = .ok l) (f : ℝ → ℝ → ℝ) :
    lsum l (fun x y => f (-x) y) = lsum l f ∧ lsum l (fun x y => f x (-y)) = lsum l f ∧
    lsum l (fun x y => f y x) = lsum l f := by
  obtain ⟨w, x, y, t⟩ := r
  unfold expand at h
  dsimp only at h
  by_cases h1 : t = 1
  · rw [if_pos h1] at h
    obtain ⟨hx, hy⟩ := hr h1
    dsimp only at hx hy
    subst hx hy
    injection h with h; subst h
    simp [lsum]
  rw [if_neg h1] at h
  by_cases h2 : t = 2
  · rw [if_pos h2] at h
    simp only [py_bind_eq_ok] at h
    obtain ⟨_, _, h⟩ := h
    injection h with h; subst h
    simp only [lsum, List.map_cons, List.map_nil, List.sum_cons, List.sum_nil, Rat.cast_neg, Rat.cast_zero, neg_neg,
      neg_zero]
    refine ⟨?_, ?_, ?_⟩ <;> ring
  rw [if_neg h2] at h
  by_cases h3 : t = 3
  · rw [if_pos h3] at h
    simp only [py_bind_eq_ok] at h
    obtain ⟨_, _, h⟩ := h
    injection h with h; subst h
    simp only [lsum, List.map_cons, List.map_nil, List.sum_cons, List.sum_nil, Rat.cast_neg, neg_neg]
    refine ⟨?_, ?_, ?_⟩ <;> ring
  rw [if_neg h3] at h
  by_cases h4 : t = 4
  · rw [if_pos h4] at h
    injection h with h; subst h
    simp only [lsum, List.map_cons, List.map_nil, List.sum_cons, List.sum_nil, Rat.cast_neg, neg_neg]
    refine ⟨?_, ?_, ?_⟩ <;> ring
  · rw [if_neg h4] at h
    injection h with h; subst h
    simp [lsum]

theorem expandAll_sym {rs : List Row} (hr : ∀ r ∈ rs, RowOk r) {l} (h : expandAll rs = .ok l) (f : ℝ → ℝ → ℝ) :
    lsum l (fun x y => f (-x) y) = lsum l f ∧ lsum l (fun x y => f x (-y)) = lsum l f ∧
    lsum l (fun x y => f y x) = lsum l f := by
  induction rs generalizing l with
  | nil =>
      rw [expandAll] at h
      injection h with h; subst h
      simp [lsum]
  | cons r rs ih =>
      rw [expandAll] at h
      simp only [py_bind_eq_ok] at h
      obtain ⟨a, ha, b, hb, h⟩ := h
      injection h with h; subst h
      obtain ⟨x1, x2, x3⟩ := expand_sym (hr r (by simp)) ha f
      obtain ⟨y1, y2, y3⟩ := ih (fun r h => hr r (by simp [h])) hb
      simp only [lsum_append]
      exact ⟨by rw [x1, y1], by rw [x2, y2], by rw [x3, y3]⟩

/-- The rational value of a rule on a monomial. -/
def msum (l : List ((ℚ × ℚ) × ℚ)) (a b : ℕ) : ℚ := (l.map (fun p => p.2 * (p.1.1 ^ a * p.1.2 ^ b))).sum

theorem lsum_monomial (l : List ((ℚ × ℚ) × ℚ)) (a b : ℕ) :
    lsum l (fun x y => x ^ a * y ^ b) = (msum l a b : ℝ) := by
  induction l with
  | nil => simp [lsum, msum]
  | cons p l ih =>
      simp only [lsum, msum, List.map_cons, List.sum_cons] at ih ⊢
      rw [ih]; push_cast; ring

/-- The nodes of a table, if it is fine. -/
def nodes (data : List Row) : List ((ℚ × ℚ) × ℚ) := match expandAll data with
  | .ok l => l
  | .error _ => []

/-- A table is fine and its moments up to degree `d` are within `tol` of those of the disk (with 20 digits of π). -/
def check (d : ℕ) (tol : ℚ) (l : List ((ℚ × ℚ) × ℚ)) : Bool :=
  (List.range (d + 1)).all (fun n => (List.range (n + 1)).all (fun a =>
    decide (|msum l a (n - a) - 3.14159265358979323846 * (2 * jq a (n - a) / (n + 2))| ≤ tol)))

theorem jq0_bound : ∀ b, 0 ≤ jq0 b ∧ jq0 b ≤ 1
  | 0 => by simp [jq0]
  | 1 => by simp [jq0]
  | b + 2 => by
      obtain ⟨h1, h2⟩ := jq0_bound b
      rw [jq0]
      have h3 : ((b : ℚ) + 1) / (b + 2) ≤ 1 := by rw [div_le_one (by positivity)]; linarith
      have h4 : 0 ≤ ((b : ℚ) + 1) / (b + 2) := by positivity
      exact ⟨mul_nonneg h4 h1, mul_le_one₀ h3 h1 h2⟩

theorem jq_bound : ∀ a b, 0 ≤ jq a b ∧ jq a b ≤ 1
  | 0, b => jq0_bound b
  | 1, b => by simp [jq]
  | a + 2, b => by
      obtain ⟨h1, h2⟩ := jq_bound a b
      rw [jq]
      have h3 : ((a : ℚ) + 1) / (a + b + 2) ≤ 1 := by
        rw [div_le_one (by positivity)]
        have : (0 : ℚ) ≤ b := by positivity
        linarith
      have h4 : 0 ≤ ((a : ℚ) + 1) / (a + b + 2) := by positivity
      exact ⟨mul_nonneg h4 h1, mul_le_one₀ h3 h1 h2⟩

theorem check_moment {d : ℕ} {tol : ℚ} {l} (h : check d tol l = true) {n a : ℕ} (hn : n ≤ d) (ha : a ≤ n) :
    |lsum l (fun x y => x ^ a * y ^ (n - a)) - ∫ p in unitDisk, p.1 ^ a * p.2 ^ (n - a)| ≤ tol + 1e-18 := by
  rw [check, List.all_eq_true] at h
  have h1 := h n (by simp; omega)
  rw [List.all_eq_true] at h1
  have h2 := of_decide_eq_true (h1 a (by simp; omega))
  rw [lsum_monomial, disk_moment]
  have hc : ((a : ℝ) + ((n - a : ℕ) : ℝ) + 2) = n + 2 := by
    rw [Nat.cast_sub ha]; ring
  rw [hc]
  have h3 : |((msum l a (n - a) : ℝ)) - 3.14159265358979323846 * (2 * (jq a (n - a) : ℝ) / (n + 2))| ≤ tol := by
    have := (Rat.cast_le (K := ℝ)).2 h2
    push_cast at this
    exact this
  obtain ⟨j1, j2⟩ := jq_bound a (n - a)
  have j1' : (0 : ℝ) ≤ (jq a (n - a) : ℝ) := by exact_mod_cast j1
  have j2' : (jq a (n - a) : ℝ) ≤ 1 := by exact_mod_cast j2
  set q : ℝ := 2 * (jq a (n - a) : ℝ) / (n + 2) with hq
  have q0 : 0 ≤ q := by positivity
  have q1 : q ≤ 1 := by
    rw [hq, div_le_one (by positivity)]
    have : (0 : ℝ) ≤ n := by positivity
    linarith
  have e1 : 2 * π * (jq a (n - a) : ℝ) / (n + 2) = π * q := by rw [hq]; ring
  rw [e1]
  have p1 := pi_gt_d20
  have p2 := pi_lt_d20
  rw [abs_le] at h3 ⊢
  constructor
  · nlinarith [h3.1, mul_le_mul_of_nonneg_right p2.le q0]
  · nlinarith [h3.2, mul_le_mul_of_nonneg_right p1.le q0]

theorem lsum_poly (l : List ((ℚ × ℚ) × ℚ)) (d : ℕ) (c : ℕ → ℕ → ℝ) :
    lsum l (poly d c) = ∑ n ∈ Finset.range (d + 1), ∑ a ∈ Finset.range (n + 1),
      c a (n - a) * lsum l (fun x y => x ^ a * y ^ (n - a)) := by
  induction l with
  | nil => simp [lsum]
  | cons p l ih =>
      have hc : ∀ f, lsum (p :: l) f = (p.2 : ℝ) * f p.1.1 p.1.2 + lsum l f := by intro f; simp [lsum]
      simp only [hc, mul_add, Finset.sum_add_distrib, ih, poly, Finset.mul_sum]
      congr 1
      refine Finset.sum_congr rfl (fun n _ => Finset.sum_congr rfl (fun a _ => ?_))
      ring

theorem isCompact_unitDisk : IsCompact unitDisk := by
  apply Metric.isCompact_of_isClosed_isBounded
  · exact isClosed_le (by fun_prop) continuous_const
  · refine (Metric.isBounded_closedBall (x := (0 : ℝ × ℝ)) (r := 1)).subset ?_
    intro p hp
    have hp' : p.1 ^ 2 + p.2 ^ 2 ≤ 1 := hp
    rw [mem_closedBall_zero_iff, Prod.norm_def, max_le_iff, Real.norm_eq_abs, Real.norm_eq_abs]
    exact ⟨abs_le_of_sq_le_sq' (by nlinarith [sq_nonneg p.2]) (by norm_num) |> abs_le.2,
      abs_le_of_sq_le_sq' (by nlinarith [sq_nonneg p.1]) (by norm_num) |> abs_le.2⟩

theorem integral_poly (d : ℕ) (c : ℕ → ℕ → ℝ) :
    ∫ p in unitDisk, poly d c p.1 p.2 = ∑ n ∈ Finset.range (d + 1), ∑ a ∈ Finset.range (n + 1),
      c a (n - a) * ∫ p in unitDisk, p.1 ^ a * p.2 ^ (n - a) := by
  have hi : ∀ f : ℝ × ℝ → ℝ, Continuous f → Integrable f (volume.restrict unitDisk) :=
    fun f hf => hf.continuousOn.integrableOn_compact isCompact_unitDisk
  unfold poly
  rw [integral_finset_sum _ (fun n _ => hi _ (by fun_prop))]
  refine Finset.sum_congr rfl (fun n _ => ?_)
  rw [integral_finset_sum _ (fun n _ => hi _ (by fun_prop))]
  exact Finset.sum_congr rfl (fun a _ => integral_const_mul _ _)

theorem check_exact {d : ℕ} {tol : ℚ} {l} (h : check d tol l = true) (c : ℕ → ℕ → ℝ) :
    |lsum l (poly d c) - ∫ p in unitDisk, poly d c p.1 p.2| ≤ (tol + 1e-18) * size d c := by
  rw [lsum_poly, integral_poly, size, ← Finset.sum_sub_distrib, Finset.mul_sum]
  refine (Finset.abs_sum_le_sum_abs _ _).trans (Finset.sum_le_sum (fun n hn => ?_))
  rw [← Finset.sum_sub_distrib, Finset.mul_sum]
  refine (Finset.abs_sum_le_sum_abs _ _).trans (Finset.sum_le_sum (fun a ha => ?_))
  rw [← mul_sub, abs_mul, mul_comm]
  refine mul_le_mul_of_nonneg_right (check_moment h ?_ ?_) (abs_nonneg _)
  · simp at hn; omega
  · simp at ha; omega

end Verif.DiskQuad
