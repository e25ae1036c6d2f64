import Verif.Props.Hsmg
/-!
# C113: what `inverse` of a combination is, exactly
-/
namespace Verif.Hsmg
open Verif Matrix

variable {n : Nat}

theorem crawl_ne_nil {e : HExpr n} (he : LinComb e) : crawl e ≠ [] := by
  induction he with
  | one t => simp [crawl]
  | left a t => simp [crawl, crawlChain]
  | right a t => simp [crawl, crawlChain]
  | add _ _ ih _ => simp [crawl, ih]
  | sub _ _ ih _ => simp [crawl, ih]

theorem chosen_of_eigenpairs {eigh} {items : List (Interp n)} {p} (h : eigenpairs eigh items = .ok p) : Chosen eigh items p := by
  unfold eigenpairs at h
  split at h
  · rename_i q qs hq
    cases h
    left
    clear eigh
    induction items with
    | nil => simp at hq
    | cons t ts ih =>
      cases ht : t.eig with
      | none =>
        rw [List.filterMap_cons_none ht] at hq
        obtain ⟨pre, u, post, h1, h2, h3⟩ := ih hq
        refine ⟨t :: pre, u, post, by rw [h1]; rfl, ?_, h3⟩
        intro x hx
        rcases List.mem_cons.1 hx with rfl | hx
        · exact ht
        · exact h2 x hx
      | some q' =>
        rw [List.filterMap_cons_some ht] at hq
        cases hq
        exact ⟨[], t, ts, rfl, by simp, ht⟩
  · rename_i hn
    have hall : ∀ u ∈ items, u.eig = none := List.filterMap_eq_nil_iff.1 hn
    split at h
    · cases h
    · rename_i t ts
      cases h
      exact Or.inr ⟨hall, t, rfl, rfl⟩

/-- The choice is unique. -/
theorem chosen_unique {eigh} {items : List (Interp n)} {p q} (hp : Chosen eigh items p) (hq : Chosen eigh items q) : p = q := by
  have key : ∀ {items : List (Interp n)} {p}, Chosen eigh items p → eigenpairs eigh items = .ok p := by
    rintro items p (⟨pre, t, post, rfl, h2, h3⟩ | ⟨h1, t, h2, rfl⟩)
    · have : (pre ++ t :: post).filterMap Interp.eig = p :: post.filterMap Interp.eig := by
        rw [List.filterMap_append, List.filterMap_eq_nil_iff.2 h2, List.filterMap_cons_some h3, List.nil_append]
      simp [eigenpairs, this]
    · have : items.filterMap Interp.eig = [] := List.filterMap_eq_nil_iff.2 h1
      cases items with
      | nil => simp at h2
      | cons u us =>
        simp only [List.head?_cons, Option.some.injEq] at h2
        subst h2
        simp only [eigenpairs, this]
  have := (key hp).symm.trans (key hq)
  exact Except.ok.inj this

/-- A matrix is returned exactly for sums and differences of scaled interpolation matrices (of the same size). -/
theorem inverse_returns_iff (eigh) (e : HExpr n) : (∃ R, inverse eigh e = .ok R) ↔ LinComb e := by
  constructor
  · rintro ⟨R, h⟩
    rw [inverse] at h
    obtain ⟨p, -, h⟩ := py_bind_eq_ok.1 h
    obtain ⟨l, hl, h⟩ := py_bind_eq_ok.1 h
    cases l with
    | none => cases h
    | some l => exact collect_only e l hl
  · intro he
    obtain ⟨l, hl⟩ := collect_accepts e he
    have hp : ∃ p, eigenpairs eigh (crawl e) = .ok p := by
      unfold eigenpairs
      split
      · exact ⟨_, rfl⟩
      · split
        · rename_i h
          exact absurd h (crawl_ne_nil he)
        · exact ⟨_, rfl⟩
    obtain ⟨p, hp⟩ := hp
    rw [inverse, hp, py_bind_ok, hl, py_bind_ok]
    exact ⟨_, rfl⟩

theorem asIf_sum (M : Matrix (Fin n) (Fin n) ℝ) (p : (Fin n → ℝ) × Matrix (Fin n) (Fin n) ℝ) (e : HExpr n) (l : List (ℝ × ℝ))
    (hl : collect e = .ok (some l)) :
    eval (asIf M p) e = M * p.2 * diagonal (combined p.1 l) * (M * p.2)ᵀ := by
  rw [collect_sums_partial (asIf M p) (fun s => M * p.2 * diagonal (fun i => p.1 i ^ s) * (M * p.2)ᵀ) e l (fun t _ => rfl) hl]
  have : combined p.1 l = fun i => (l.map (fun q => q.1 * p.1 i ^ q.2)).sum := funext (combined_eq p.1 l)
  rw [this]
  clear hl this
  induction l with
  | nil => simp
  | cons q l ih =>
    rw [List.map_cons, List.sum_cons, ih]
    have : (diagonal fun i => ((q :: l).map (fun q => q.1 * p.1 i ^ q.2)).sum : Matrix (Fin n) (Fin n) ℝ) =
        q.1 • diagonal (fun i => p.1 i ^ q.2) + diagonal (fun i => (l.map (fun q => q.1 * p.1 i ^ q.2)).sum) := by
      ext i j
      by_cases hij : i = j
      · subst hij; simp
      · simp [hij]
    rw [this, Matrix.mul_add, Matrix.add_mul, Matrix.mul_smul, Matrix.smul_mul]

/-- **C113** For every combination, whatever its matrices, the result is the inverse of the combination of the powers of one
    pair of matrices: the one which the chosen eigenvalues and eigenvectors belong to.  So it is the inverse of the
    combination itself exactly if this is the same matrix. -/
theorem inverse_exact (eigh) (e : HExpr n) (R : Matrix (Fin n) (Fin n) ℝ) (h : inverse eigh e = .ok R) :
    ∃ p, Chosen eigh (crawl e) p ∧ ∀ A M : Matrix (Fin n) (Fin n) ℝ, M.IsSymm → IsEig A M p.1 p.2 →
      IsUnit (eval (asIf M p) e) →
      R * eval (asIf M p) e = 1 ∧ eval (asIf M p) e * R = 1 ∧
        ∀ H : Interp n → Matrix (Fin n) (Fin n) ℝ, R * eval H e = 1 ↔ eval H e = eval (asIf M p) e := by
  rw [inverse] at h
  obtain ⟨p, hp, h⟩ := py_bind_eq_ok.1 h
  obtain ⟨l, hl, h⟩ := py_bind_eq_ok.1 h
  cases l with
  | none => cases h
  | some l =>
  refine ⟨p, chosen_of_eigenpairs hp, ?_⟩
  intro A M hM hE hunit
  have hsum := asIf_sum M p e l hl
  have hnz : ∀ i, combined p.1 l i ≠ 0 := by
    rw [hsum] at hunit
    have h1 : IsUnit (diagonal (combined p.1 l) : Matrix (Fin n) (Fin n) ℝ) := by
      rw [Matrix.isUnit_iff_isUnit_det, det_mul, det_mul] at hunit
      rw [Matrix.isUnit_iff_isUnit_det]
      rw [IsUnit.mul_iff, IsUnit.mul_iff] at hunit
      exact hunit.1.2
    intro i
    rw [Matrix.isUnit_iff_isUnit_det, det_diagonal, isUnit_iff_ne_zero] at h1
    exact Finset.prod_ne_zero_iff.1 h1 i (Finset.mem_univ i)
  cases h
  have hR : p.2 * diagonal (fun i => 1 / combined p.1 l i) * p.2ᵀ * eval (asIf M p) e = 1 := by
    rw [hsum]
    have e1 : p.2 * diagonal (fun i => 1 / combined p.1 l i) * p.2ᵀ * (M * p.2 * diagonal (combined p.1 l) * (M * p.2)ᵀ) =
        p.2 * (diagonal (fun i => 1 / combined p.1 l i) * (p.2ᵀ * M * p.2) * diagonal (combined p.1 l)) * (M * p.2)ᵀ := by
      simp only [Matrix.mul_assoc]
    rw [e1, hE.2, Matrix.mul_one, diagonal_mul_diagonal]
    have e2 : (diagonal fun i => 1 / combined p.1 l i * combined p.1 l i : Matrix (Fin n) (Fin n) ℝ) = 1 := by
      rw [← diagonal_one]
      congr 1
      funext i
      have := hnz i
      field_simp
    rw [e2, Matrix.mul_one, transpose_mul, hM]
    exact eig_inv hE
  refine ⟨hR, mul_eq_one_comm.1 hR, ?_⟩
  intro H
  constructor
  · intro hH
    have h1 := mul_eq_one_comm.1 hR
    calc eval H e = (eval (asIf M p) e * (p.2 * diagonal (fun i => 1 / combined p.1 l i) * p.2ᵀ)) * eval H e := by
          rw [h1, Matrix.one_mul]
      _ = eval (asIf M p) e := by rw [Matrix.mul_assoc, hH, Matrix.mul_one]
  · intro hH
    rw [hH]
    exact hR

/-- With the first matrix given by `A` and `M`, and eigenvalues not computed before, `asIf` is the power of `A` for every exponent. -/
theorem asIf_power
    {eigh : Matrix (Fin n) (Fin n) ℝ → Matrix (Fin n) (Fin n) ℝ → (Fin n → ℝ) × Matrix (Fin n) (Fin n) ℝ}
    {A M : Matrix (Fin n) (Fin n) ℝ} (h : IsEig A M (eigh A M).1 (eigh A M).2) (t : Interp n) :
    IsPower A M t.s (asIf M (eigh A M) t) := ⟨_, _, h, rfl⟩

/-- The sum of the numbers 1 and 3 as matrices with powers 1 and 2: the result is `1 / (1 + 1)`, the eigenvalue of the first one
    is used for both. -/
example (eigh) : ∃ R, inverse eigh (.add (.interp (small 1 1)) (.interp (small 3 2))) = .ok R ∧
    ∃ p, Chosen eigh (crawl (.add (.interp (small 1 1)) (.interp (small 3 2)))) p ∧ p = (fun _ => 1, 1) ∧
      R * eval (asIf 1 p) (.add (.interp (small 1 1)) (.interp (small 3 2))) = 1 := by
  obtain ⟨R, hR⟩ := (inverse_returns_iff eigh (.add (.interp (small 1 1)) (.interp (small 3 2)))).2 (.add (.one _) (.one _))
  obtain ⟨p, hp, h⟩ := inverse_exact eigh _ R hR
  have hc : Chosen eigh (crawl (.add (.interp (small 1 1)) (.interp (small 3 2)))) (fun _ => 1, 1) :=
    Or.inl ⟨[], small 1 1, [small 3 2], by simp [crawl], by simp, rfl⟩
  have hp1 := chosen_unique hp hc
  subst hp1
  refine ⟨R, hR, _, hc, rfl, (h (of fun _ _ => 1) 1 (by simp [Matrix.IsSymm]) (small_eig 1) ?_).1⟩
  rw [Matrix.isUnit_iff_isUnit_det]
  simp [eval, asIf, small]

end Verif.Hsmg
