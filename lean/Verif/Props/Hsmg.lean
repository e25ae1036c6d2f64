import Verif.Spec.Hsmg
import Mathlib.LinearAlgebra.Matrix.NonsingularInverse
/-!
# C26, C55: combinations of interpolation-space matrices
-/
namespace Verif.Hsmg
open Verif Matrix

variable {n : Nat}

/-- **C26** Whatever expression `collect` accepts, the terms it returns sum to the expression. -/
theorem collect_sums_partial (H : Interp n → Matrix (Fin n) (Fin n) ℝ) (G : ℝ → Matrix (Fin n) (Fin n) ℝ) :
    ∀ (e : HExpr n) (l : List (ℝ × ℝ)), (∀ t ∈ crawl e, H t = G t.s) → collect e = .ok (some l) →
      eval H e = (l.map (fun p => p.1 • G p.2)).sum
  | .interp t, l, hG, h => by
      simp only [collect, Except.ok.injEq, Option.some.injEq] at h
      subst h
      simp [eval, hG t (by simp [crawl])]
  | .num a, l, hG, h => by simp [collect] at h
  | .other X, l, hG, h => by simp [collect] at h
  | .add x y, l, hG, h => by
      rw [collect] at h
      obtain ⟨a, ha, h⟩ := py_bind_eq_ok.mp h
      obtain ⟨b, hb, h⟩ := py_bind_eq_ok.mp h
      match a, b, h with
      | some a, some b, h =>
        simp only [plus, Except.ok.injEq, Option.some.injEq] at h
        subst h
        rw [eval, collect_sums_partial H G x a (fun t ht => hG t (by simp [crawl, ht])) ha,
          collect_sums_partial H G y b (fun t ht => hG t (by simp [crawl, ht])) hb]
        simp
  | .sub x y, l, hG, h => by
      rw [collect] at h
      obtain ⟨b, hb, h⟩ := py_bind_eq_ok.mp h
      obtain ⟨a, ha, h⟩ := py_bind_eq_ok.mp h
      obtain ⟨b', hb', h⟩ := py_bind_eq_ok.mp h
      match a, b, hb, hb', h with
      | some a, some b, hb, hb', h =>
        simp only [negate, Except.ok.injEq] at hb'
        subst hb'
        simp only [plus, Except.ok.injEq, Option.some.injEq] at h
        subst h
        rw [eval, collect_sums_partial H G x a (fun t ht => hG t (by simp [crawl, ht])) ha,
          collect_sums_partial H G y b (fun t ht => hG t (by simp [crawl, ht])) hb]
        have : ∀ l : List (ℝ × ℝ), ((l.map (fun p => (-p.1, p.2))).map (fun p => p.1 • G p.2)).sum =
            -(l.map (fun p => p.1 • G p.2)).sum := by
          intro l
          induction l with
          | nil => simp
          | cons p l ih => simp only [List.map_cons, List.sum_cons, ih, neg_smul]; abel
        rw [List.map_append, List.sum_append, this, sub_eq_add_neg]
      | some a, none, _, hb', _ => simp [negate] at hb'
      | none, _, _, _, h => simp [plus] at h
  | .mul chain, l, hG, h => by
      rw [collect] at h
      unfold collectMul at h
      split at h
      · rename_i t b
        simp only [Except.ok.injEq, Option.some.injEq] at h
        subst h
        simp [eval, evalChain, hG t (by simp [crawl, crawlChain])]
      · rename_i a t
        simp only [Except.ok.injEq, Option.some.injEq] at h
        subst h
        simp [eval, evalChain, hG t (by simp [crawl, crawlChain])]
      · cases h

/-- **C26** Sums and differences of scaled matrices are accepted. -/
theorem collect_accepts (e : HExpr n) (h : LinComb e) : ∃ l, collect e = .ok (some l) := by
  induction h with
  | one t => exact ⟨_, rfl⟩
  | left a t => exact ⟨_, rfl⟩
  | right a t => exact ⟨_, rfl⟩
  | add _ _ ih1 ih2 =>
      obtain ⟨a, ha⟩ := ih1
      obtain ⟨b, hb⟩ := ih2
      exact ⟨a ++ b, by rw [collect, ha, hb]; rfl⟩
  | sub _ _ ih1 ih2 =>
      obtain ⟨a, ha⟩ := ih1
      obtain ⟨b, hb⟩ := ih2
      exact ⟨a ++ _, by rw [collect, ha, hb]; rfl⟩

/-- **C26** Only such expressions are accepted: in particular a scaled sum is refused. -/
theorem collect_only (e : HExpr n) (l : List (ℝ × ℝ)) (h : collect e = .ok (some l)) : LinComb e := by
  induction e using HExpr.rec (motive_2 := fun _ => True) generalizing l with
  | interp t => exact .one t
  | num a => simp [collect] at h
  | other X => simp [collect] at h
  | add x y ihx ihy =>
      rw [collect] at h
      obtain ⟨a, ha, h⟩ := py_bind_eq_ok.mp h
      obtain ⟨b, hb, h⟩ := py_bind_eq_ok.mp h
      match a, b, h with
      | some a, some b, h => exact .add (ihx a ha) (ihy b hb)
  | sub x y ihx ihy =>
      rw [collect] at h
      obtain ⟨b, hb, h⟩ := py_bind_eq_ok.mp h
      obtain ⟨a, ha, h⟩ := py_bind_eq_ok.mp h
      obtain ⟨b', hb', h⟩ := py_bind_eq_ok.mp h
      match a, b, hb, hb', h with
      | some a, some b, hb, hb', h => exact .sub (ihx a ha) (ihy b hb)
      | some a, none, _, hb', _ => simp [negate] at hb'
      | none, _, _, _, h => simp [plus] at h
  | mul chain _ =>
      rw [collect] at h
      unfold collectMul at h
      split at h
      · exact .right _ _
      · exact .left _ _
      · cases h
  | nil => trivial
  | cons _ _ _ _ => trivial

/-- Right inverse of eigenvectors. -/
theorem eig_inv {A M : Matrix (Fin n) (Fin n) ℝ} {lam : Fin n → ℝ} {U : Matrix (Fin n) (Fin n) ℝ}
    (h : IsEig A M lam U) : U * (Uᵀ * M) = 1 := mul_eq_one_comm.mp h.2

/-- Powers do not depend on the choice of eigenvectors. -/
theorem power_unique {A M : Matrix (Fin n) (Fin n) ℝ} (hM : M.IsSymm) {lam mu : Fin n → ℝ}
    {U W : Matrix (Fin n) (Fin n) ℝ} (h1 : IsEig A M lam U) (h2 : IsEig A M mu W) (f : ℝ → ℝ) :
    M * W * diagonal (fun i => f (mu i)) * (M * W)ᵀ = M * U * diagonal (fun i => f (lam i)) * (M * U)ᵀ := by
  set Q := Uᵀ * M * W with hQ
  have hU := eig_inv h1
  have hW := eig_inv h2
  have hWQ : W = U * Q := by
    rw [hQ, ← Matrix.mul_assoc, hU, Matrix.one_mul]
  have hQt : Qᵀ = Wᵀ * M * U := by
    rw [hQ, transpose_mul, transpose_mul, transpose_transpose, hM, Matrix.mul_assoc]
  have hQQ : Q * Qᵀ = 1 := by
    rw [hQt, hQ]
    have : Uᵀ * M * W * (Wᵀ * M * U) = Uᵀ * M * (W * (Wᵀ * M)) * U := by simp only [Matrix.mul_assoc]
    rw [this, hW, Matrix.mul_one, h1.2]
  have e1 : Uᵀ * A * W = diagonal lam * Q := by
    -- A = M U diag lam Uᵀ M
    have hA : A = M * U * diagonal lam * (Uᵀ * M) := by
      rw [← h1.1, Matrix.mul_assoc, hU, Matrix.mul_one]
    rw [hA, hQ]
    have : Uᵀ * (M * U * diagonal lam * (Uᵀ * M)) * W = (Uᵀ * M * U) * (diagonal lam * (Uᵀ * M * W)) := by
      simp only [Matrix.mul_assoc]
    rw [this, h1.2, Matrix.one_mul]
  have e2 : Uᵀ * A * W = Q * diagonal mu := by
    rw [Matrix.mul_assoc, h2.1, hQ]
    simp only [Matrix.mul_assoc]
  have e3 : diagonal (fun i => f (lam i)) * Q = Q * diagonal (fun i => f (mu i)) := by
    have := e1.symm.trans e2
    ext i j
    have hij := congrFun (congrFun this i) j
    rw [diagonal_mul, mul_diagonal] at hij ⊢
    by_cases hq : Q i j = 0
    · rw [hq]; ring
    · have : lam i = mu j := by
        rw [mul_comm] at hij
        exact mul_left_cancel₀ hq hij
      rw [this]; ring
  have e4 : M * W * diagonal (fun i => f (mu i)) * (M * W)ᵀ =
      M * U * (Q * diagonal (fun i => f (mu i))) * (Qᵀ * (M * U)ᵀ) := by
    rw [hWQ]
    simp only [transpose_mul, Matrix.mul_assoc]
  rw [e4, ← e3]
  have : M * U * (diagonal (fun i => f (lam i)) * Q) * (Qᵀ * (M * U)ᵀ) =
      M * U * diagonal (fun i => f (lam i)) * (Q * Qᵀ) * (M * U)ᵀ := by simp only [Matrix.mul_assoc]
  rw [this, hQQ, Matrix.mul_one]

theorem combined_eq (lam : Fin n → ℝ) (l : List (ℝ × ℝ)) (i : Fin n) :
    combined lam l i = (l.map (fun p => p.1 * lam i ^ p.2)).sum := by
  have : ∀ (l : List (ℝ × ℝ)) (d : Fin n → ℝ), l.foldl (fun d p => d + fun i => p.1 * lam i ^ p.2) d i =
      d i + (l.map (fun p => p.1 * lam i ^ p.2)).sum := by
    intro l
    induction l with
    | nil => simp
    | cons p l ih => intro d; rw [List.foldl_cons, ih]; simp [add_assoc]
  rw [combined, this]; simp

/-- **C55** `inverse` of a combination of powers of the same pair of matrices is its inverse, if the combination
of eigenvalues does not vanish. -/
theorem inverse_inverts_partial (eigh) (A M : Matrix (Fin n) (Fin n) ℝ) (hM : M.IsSymm)
    (heigh : IsEig A M (eigh A M).1 (eigh A M).2) (e : HExpr n) (he : LinComb e)
    (hsame : ∀ t ∈ crawl e, t.A = A ∧ t.M = M) (hcomp : ∀ t ∈ crawl e, ∀ p, t.eig = some p → IsEig A M p.1 p.2)
    (H : Interp n → Matrix (Fin n) (Fin n) ℝ) (hH : ∀ t ∈ crawl e, IsPower t.A t.M t.s (H t))
    (hnz : ∀ l lam U, collect e = .ok (some l) → IsEig A M lam U → ∀ i, (l.map (fun p => p.1 * lam i ^ p.2)).sum ≠ 0) :
    ∃ R, inverse eigh e = .ok R ∧ R * eval H e = 1 ∧ eval H e * R = 1 := by
  obtain ⟨l, hl⟩ := collect_accepts e he
  -- the pair
  have hpair : ∃ p, eigenpairs eigh (crawl e) = .ok p ∧ IsEig A M p.1 p.2 := by
    have hne : crawl e ≠ [] := by
      clear hsame hcomp hH hnz hl
      induction he with
      | one t => simp [crawl]
      | left a t => simp [crawl, crawlChain]
      | right a t => simp [crawl, crawlChain]
      | add _ _ ih _ => simp [crawl, ih]
      | sub _ _ ih _ => simp [crawl, ih]
    unfold eigenpairs
    split
    · rename_i p ps hp
      refine ⟨p, rfl, ?_⟩
      have : p ∈ (crawl e).filterMap Interp.eig := by rw [hp]; simp
      obtain ⟨t, ht, hp⟩ := List.mem_filterMap.mp this
      exact hcomp t ht p hp
    · split
      · rename_i h; exact absurd h hne
      · rename_i t ts h
        refine ⟨_, rfl, ?_⟩
        obtain ⟨h1, h2⟩ := hsame t (by rw [h]; simp)
        rw [h1, h2]; exact heigh
  obtain ⟨⟨lam, U⟩, hp, hE⟩ := hpair
  simp only at hE
  let G : ℝ → Matrix (Fin n) (Fin n) ℝ := fun s => M * U * diagonal (fun i => lam i ^ s) * (M * U)ᵀ
  have hG : ∀ t ∈ crawl e, H t = G t.s := by
    intro t ht
    obtain ⟨mu, W, h1, h2⟩ := hH t ht
    obtain ⟨h3, h4⟩ := hsame t ht
    rw [h3, h4] at h1
    rw [h4] at h2
    rw [h2]
    exact power_unique hM hE h1 (fun x => x ^ t.s)
  have hsum := collect_sums_partial H G e l hG hl
  have hsum2 : eval H e = M * U * diagonal (combined lam l) * (M * U)ᵀ := by
    rw [hsum]
    have : combined lam l = fun i => (l.map (fun p => p.1 * lam i ^ p.2)).sum := funext (combined_eq lam l)
    rw [this]
    clear hl hsum this hnz
    induction l with
    | nil => simp
    | cons p l ih =>
        rw [List.map_cons, List.sum_cons, ih]
        have : (diagonal fun i => ((p :: l).map (fun p => p.1 * lam i ^ p.2)).sum : Matrix (Fin n) (Fin n) ℝ) =
            p.1 • diagonal (fun i => lam i ^ p.2) + diagonal (fun i => (l.map (fun p => p.1 * lam i ^ p.2)).sum) := by
          ext i j
          by_cases hij : i = j
          · subst hij; simp
          · simp [hij]
        rw [this, Matrix.mul_add, Matrix.add_mul, Matrix.mul_smul, Matrix.smul_mul]
  have hR : U * diagonal (fun i => 1 / combined lam l i) * Uᵀ * eval H e = 1 := by
    rw [hsum2]
    have e1 : U * diagonal (fun i => 1 / combined lam l i) * Uᵀ * (M * U * diagonal (combined lam l) * (M * U)ᵀ) =
        U * (diagonal (fun i => 1 / combined lam l i) * (Uᵀ * M * U) * diagonal (combined lam l)) * (M * U)ᵀ := by
      simp only [Matrix.mul_assoc]
    rw [e1, hE.2, Matrix.mul_one, diagonal_mul_diagonal]
    have e2 : (diagonal fun i => 1 / combined lam l i * combined lam l i : Matrix (Fin n) (Fin n) ℝ) = 1 := by
      rw [← diagonal_one]
      congr 1
      funext i
      have : combined lam l i ≠ 0 := by rw [combined_eq]; exact hnz l lam U hl hE i
      field_simp
    rw [e2, Matrix.mul_one, transpose_mul, hM]
    exact eig_inv hE
  refine ⟨_, ?_, hR, mul_eq_one_comm.mp hR⟩
  rw [inverse, hp, py_bind_ok, hl, py_bind_ok]
  rfl

/-- A one by one interpolation matrix: the power `s` of the number `a`. -/
noncomputable def small (a s : ℝ) : Interp 1 := ⟨of fun _ _ => a, 1, s, some (fun _ => a, 1)⟩

theorem small_eig (a : ℝ) : IsEig (of fun _ _ => a) (1 : Matrix (Fin 1) (Fin 1) ℝ) (fun _ => a) 1 := by
  refine ⟨?_, by simp⟩
  ext i j
  obtain rfl : i = 0 := Subsingleton.elim _ _
  obtain rfl : j = 0 := Subsingleton.elim _ _
  simp

theorem small_power (a s : ℝ) : IsPower (small a s).A (small a s).M (small a s).s (of fun _ _ => a ^ s) := by
  refine ⟨_, _, small_eig a, ?_⟩
  ext i j
  obtain rfl : i = 0 := Subsingleton.elim _ _
  obtain rfl : j = 0 := Subsingleton.elim _ _
  simp [small]

/-- **C55** The check that a combination can be inverted compares sizes only: for a sum of matrices which come from
different `A` the returned matrix is not the inverse. -/
theorem inverse_mixed_wrong : ∃ (e : HExpr 1) (H : Interp 1 → Matrix (Fin 1) (Fin 1) ℝ), LinComb e ∧
    (∀ t ∈ crawl e, IsPower t.A t.M t.s (H t)) ∧
    ∀ eigh, ∃ R, inverse eigh e = .ok R ∧ R * eval H e ≠ 1 := by
  refine ⟨.add (.interp (small 1 1)) (.interp (small 3 1)), fun t => of fun i j => t.A i j ^ t.s,
    .add (.one _) (.one _), ?_, ?_⟩
  · intro t ht
    simp only [crawl, List.cons_append, List.nil_append, List.mem_cons, List.not_mem_nil, or_false] at ht
    rcases ht with rfl | rfl
    · exact small_power 1 1
    · exact small_power 3 1
  · intro eigh
    refine ⟨_, rfl, ?_⟩
    intro h
    have := congrFun (congrFun h 0) 0
    simp only [Matrix.mul_apply, Fin.sum_univ_one, eval, Matrix.add_apply, small] at this
    simp [combined] at this
    norm_num at this

/-- A combination of two powers meets the hypotheses of `inverse_inverts_partial`. -/
example (eigh) (hE : IsEig (of fun _ _ => 2) 1 (eigh (of fun _ _ => 2) 1).1 (eigh (of fun _ _ => 2) 1).2) :
    ∃ R, inverse eigh (.add (.mul [.num 3, .interp (small 2 (1 / 2))]) (.interp (small 2 1))) = .ok R ∧
      R * eval (fun t => of fun i j => t.A i j ^ t.s)
        (.add (.mul [.num 3, .interp (small 2 (1 / 2))]) (.interp (small 2 1))) = 1 := by
  have hc : ∀ t ∈ crawl (.add (.mul [.num 3, .interp (small 2 (1 / 2))]) (.interp (small 2 1)) : HExpr 1),
      t = small 2 (1 / 2) ∨ t = small 2 1 := by
    intro t ht
    simpa [crawl, crawlChain] using ht
  obtain ⟨R, h1, h2, _⟩ := inverse_inverts_partial eigh (of fun _ _ => 2) 1 (by simp [Matrix.IsSymm]) hE
    (.add (.mul [.num 3, .interp (small 2 (1 / 2))]) (.interp (small 2 1))) (.add (.left _ _) (.one _))
    (fun t ht => by rcases hc t ht with rfl | rfl <;> exact ⟨rfl, rfl⟩)
    (fun t ht p hp => by
      rcases hc t ht with rfl | rfl <;>
      · simp only [small, Option.some.injEq] at hp
        subst hp
        exact small_eig 2)
    (fun t => of fun i j => t.A i j ^ t.s)
    (fun t ht => by
      rcases hc t ht with rfl | rfl
      · exact small_power 2 (1 / 2)
      · exact small_power 2 1)
    (by
      intro l lam U hl hI i
      have hlam : 0 < lam i := by
        obtain rfl : i = 0 := Subsingleton.elim _ _
        have e1 := congrFun (congrFun hI.1 0) 0
        have e2 := congrFun (congrFun hI.2 0) 0
        simp [Matrix.mul_apply] at e1 e2
        have hu : U 0 0 ≠ 0 := by intro h; rw [h] at e2; simp at e2
        have : lam 0 = 2 := by
          rw [mul_comm] at e1
          exact (mul_left_cancel₀ hu e1).symm
        rw [this]; norm_num
      have : l = [(3, 1 / 2), (1, 1)] := by
        have h0 : collect (.add (.mul [.num 3, .interp (small 2 (1 / 2))]) (.interp (small 2 1)) : HExpr 1) =
          .ok (some [(3, 1 / 2), (1, 1)]) := rfl
        rw [h0] at hl
        exact (Option.some.inj (Except.ok.inj hl)).symm
      subst this
      simp only [List.map_cons, List.map_nil, List.sum_cons, List.sum_nil]
      positivity)
  exact ⟨R, h1, h2⟩

end Verif.Hsmg
