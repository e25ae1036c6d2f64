import Verif.Lemmas.DiskQuad
/-!
# C38: quadrature on the unit disk
-/
namespace Verif.DiskQuad
open MeasureTheory Real Set Verif

/-- Every degree from 0 to 19 gives as many nodes as weights; all other degrees are refused. -/
theorem disk_quadrature_total (degree : Int) :
    (0 ≤ degree ∧ degree ≤ 19 → ∃ xs ws, diskQuadrature degree = .ok (xs, ws) ∧ xs.length = ws.length ∧ xs ≠ []) ∧
    (¬ (0 ≤ degree ∧ degree ≤ 19) → diskQuadrature degree = .error .valueError) := by
  constructor
  · rintro ⟨h0, h1⟩
    have hd : ∀ d : Fin 20, ∃ l, (match table (if (d.1 : Int) % 2 = 0 then (d.1 : Int) + 1 else (d.1 : Int)) with
        | some t => expandAll t
        | none => .error .valueError) = .ok l ∧ l ≠ [] := by
      intro d
      have : (match (match table (if (d.1 : Int) % 2 = 0 then (d.1 : Int) + 1 else (d.1 : Int)) with
        | some t => expandAll t
        | none => .error .valueError) with | .ok l => !l.isEmpty | .error _ => false) = true := by
        revert d; decide +kernel
      split at this
      · next l hl => exact ⟨l, hl, by intro h; subst h; simp at this⟩
      · simp at this
    obtain ⟨l, hl, hne⟩ := hd ⟨degree.toNat, by omega⟩
    have hdeg : ((degree.toNat : Nat) : Int) = degree := Int.toNat_of_nonneg h0
    dsimp only at hl
    rw [hdeg] at hl
    refine ⟨l.map (fun p => p.1), l.map (fun p => p.2), ?_, by simp, by simpa using hne⟩
    unfold diskQuadrature
    dsimp only
    split at hl
    · next t ht =>
        rw [ht]
        dsimp only
        rw [hl]; rfl
    · cases hl
  · intro h
    unfold diskQuadrature
    dsimp only
    split
    · rfl
    · next data hd =>
        exfalso
        apply h
        unfold table at hd
        split at hd <;> split_ifs at * <;> first | omega | simp at hd

/-- What the function returns comes from the table of the degree, or of the next one if it is even. -/
theorem of_ok {degree : Int} {xs ws} (h : diskQuadrature degree = .ok (xs, ws)) :
    ∃ data l, table (if degree % 2 = 0 then degree + 1 else degree) = some data ∧ expandAll data = .ok l ∧
      xs = l.map (fun p => p.1) ∧ ws = l.map (fun p => p.2) := by
  unfold diskQuadrature at h
  dsimp only at h
  split at h
  · cases h
  · next data hd =>
      simp only [py_bind_eq_ok] at h
      obtain ⟨l, hl, h⟩ := h
      injection h with h
      injection h with h1 h2
      exact ⟨data, l, hd, hl, h1.symm, h2.symm⟩

theorem table_rows {d : Int} {data} (h : table d = some data) : ∀ r ∈ data, RowOk r := by
  unfold table at h
  split at h <;> first | (cases h; done) | (injection h with h; subst h; decide +kernel)

/-- All rules are invariant under the symmetries of the square, for every integrand. -/
theorem disk_quadrature_symmetric {degree : Int} {xs ws} (h : diskQuadrature degree = .ok (xs, ws))
    (f : ℝ → ℝ → ℝ) :
    ruleSum xs ws (fun x y => f (-x) y) = ruleSum xs ws f ∧
    ruleSum xs ws (fun x y => f x (-y)) = ruleSum xs ws f ∧
    ruleSum xs ws (fun x y => f y x) = ruleSum xs ws f := by
  obtain ⟨data, l, hd, hl, rfl, rfl⟩ := of_ok h
  simp only [ruleSum_eq]
  exact expandAll_sym (table_rows hd) hl f

/-- So odd functions are integrated exactly, whatever the degree: their integral is 0. -/
theorem disk_quadrature_odd {degree : Int} {xs ws} (h : diskQuadrature degree = .ok (xs, ws))
    (f : ℝ → ℝ → ℝ) (hf : (∀ x y, f (-x) y = - f x y) ∨ (∀ x y, f x (-y) = - f x y)) :
    ruleSum xs ws f = 0 := by
  obtain ⟨h1, h2, -⟩ := disk_quadrature_symmetric h f
  have hn : ruleSum xs ws (fun x y => - f x y) = - ruleSum xs ws f := by
    obtain ⟨data, l, hd, hl, rfl, rfl⟩ := of_ok h
    simp only [ruleSum_eq, lsum, mul_neg]
    clear h1 h2 hl h
    induction l with
    | nil => simp
    | cons p l ih => simp only [List.map_cons, List.sum_cons, ih]; ring
  rcases hf with hf | hf
  · simp only [hf] at h1; linarith
  · simp only [hf] at h2; linarith

theorem checks : check 1 1e-14 (nodes data1) = true ∧ check 3 1e-14 (nodes data3) = true ∧
    check 5 1e-14 (nodes data5) = true ∧ check 7 1e-14 (nodes data7) = true ∧ check 9 1e-14 (nodes data9) = true ∧
    check 13 1e-14 (nodes data13) = true ∧ check 15 1e-14 (nodes data15) = true := by
  refine ⟨?_, ?_, ?_, ?_, ?_, ?_, ?_⟩ <;> decide +kernel

theorem checks17 : check 17 0.0000005 (nodes data17) = true := by decide +kernel

theorem checks19 : check 19 0.0000007 (nodes data19) = true := by decide +kernel

theorem nodes_eq {data l} (h : expandAll data = .ok l) : nodes data = l := by simp [nodes, h]

theorem exact_of_check {d : ℕ} {tol : ℚ} {tol' : ℝ} {data l} (hl : expandAll data = .ok l)
    (h : check d tol (nodes data) = true) (ht : (tol : ℝ) + 1e-18 ≤ tol') (hn : 0 ≤ tol') :
    Exact d tol' (l.map (fun p => p.1)) (l.map (fun p => p.2)) := by
  intro c
  rw [nodes_eq hl] at h
  rw [ruleSum_eq]
  refine (check_exact h c).trans (mul_le_mul_of_nonneg_right ht ?_)
  exact Finset.sum_nonneg (fun _ _ => Finset.sum_nonneg (fun _ _ => abs_nonneg _))

/-- Lower degree is easier. -/
theorem Exact.mono {d e : ℕ} (hde : d ≤ e) {tol : ℝ} {xs ws} (h : Exact e tol xs ws) : Exact d tol xs ws := by
  intro c
  have hs : ∀ (F : ℕ → ℕ → ℝ), (∀ n a, d < n → a ≤ n → F n a = 0) →
      ∑ n ∈ Finset.range (e + 1), ∑ a ∈ Finset.range (n + 1), F n a =
      ∑ n ∈ Finset.range (d + 1), ∑ a ∈ Finset.range (n + 1), F n a := by
    intro F hF
    symm
    refine Finset.sum_subset (fun x hx => by simp at hx ⊢; omega) (fun n hn hn' => Finset.sum_eq_zero (fun a ha => ?_))
    simp at hn hn' ha
    exact hF n a (by omega) (by omega)
  have := h (fun a b => if a + b ≤ d then c a b else 0)
  have e1 : poly e (fun a b => if a + b ≤ d then c a b else 0) = poly d c := by
    funext x y
    unfold poly
    rw [hs]
    · refine Finset.sum_congr rfl (fun n hn => Finset.sum_congr rfl (fun a ha => ?_))
      simp at hn ha
      dsimp only
      rw [if_pos (by omega)]
    · intro n a hn ha
      dsimp only
      rw [if_neg (by omega), zero_mul]
  have e2 : size e (fun a b => if a + b ≤ d then c a b else 0) = size d c := by
    unfold size
    rw [hs]
    · refine Finset.sum_congr rfl (fun n hn => Finset.sum_congr rfl (fun a ha => ?_))
      simp at hn ha
      dsimp only
      rw [if_pos (by omega)]
    · intro n a hn ha
      dsimp only
      rw [if_neg (by omega), abs_zero]
  rw [e1, e2] at this
  exact this

/-- The rules of all degrees from 0 to 15 except 10 and 11 integrate every polynomial of their degree up to
rounding of the tables; those of degrees 16 to 19 only up to `8e-7`.  (For 10 and 11 see
`degree_11_is_wrong`.) -/
theorem disk_quadrature_exact_partial {degree : ℕ} {xs ws} (h : diskQuadrature degree = .ok (xs, ws)) :
    (degree ≤ 15 → degree ≠ 10 → degree ≠ 11 → Exact degree 2e-14 xs ws) ∧
    (16 ≤ degree → Exact degree 8e-7 xs ws) := by
  have hle : degree ≤ 19 := by
    by_contra hn
    rw [(disk_quadrature_total degree).2 (by omega)] at h
    cases h
  obtain ⟨data, l, hd, hl, rfl, rfl⟩ := of_ok h
  obtain ⟨c1, c3, c5, c7, c9, c13, c15⟩ := checks
  have sm : ∀ {d : ℕ} {data l}, expandAll data = .ok l → check d 1e-14 (nodes data) = true →
      Exact d 2e-14 (l.map (fun p => p.1)) (l.map (fun p => p.2)) :=
    fun hl h => exact_of_check hl h (by norm_num) (by norm_num)
  clear h
  interval_cases degree <;> refine ⟨fun a b c => ?_, fun a => ?_⟩ <;> first | (exfalso; omega) | skip
  · injection hd with hd; subst hd; exact (sm hl c1).mono (by norm_num)
  · injection hd with hd; subst hd; exact sm hl c1
  · injection hd with hd; subst hd; exact (sm hl c3).mono (by norm_num)
  · injection hd with hd; subst hd; exact sm hl c3
  · injection hd with hd; subst hd; exact (sm hl c5).mono (by norm_num)
  · injection hd with hd; subst hd; exact sm hl c5
  · injection hd with hd; subst hd; exact (sm hl c7).mono (by norm_num)
  · injection hd with hd; subst hd; exact sm hl c7
  · injection hd with hd; subst hd; exact (sm hl c9).mono (by norm_num)
  · injection hd with hd; subst hd; exact sm hl c9
  · injection hd with hd; subst hd; exact (sm hl c13).mono (by norm_num)
  · injection hd with hd; subst hd; exact sm hl c13
  · injection hd with hd; subst hd; exact (sm hl c15).mono (by norm_num)
  · injection hd with hd; subst hd; exact sm hl c15
  · injection hd with hd; subst hd
    exact (exact_of_check hl checks17 (by norm_num) (by norm_num)).mono (by norm_num)
  · injection hd with hd; subst hd
    exact exact_of_check hl checks17 (by norm_num) (by norm_num)
  · injection hd with hd; subst hd
    exact (exact_of_check hl checks19 (by norm_num) (by norm_num)).mono (by norm_num)
  · injection hd with hd; subst hd
    exact exact_of_check hl checks19 (by norm_num) (by norm_num)

/-- All rules integrate constants: the weights add up to π. -/
theorem disk_quadrature_area {degree : Int} {xs ws} (h : diskQuadrature degree = .ok (xs, ws)) :
    |((ws.sum : ℚ) : ℝ) - π| < 1e-12 := by
  obtain ⟨data, l, hd, hl, rfl, rfl⟩ := of_ok h
  have hb : |(((nodes data).map (fun p => p.2)).sum) - 3.14159265358979323846| ≤ (5e-13 : ℚ) := by
    unfold table at hd
    split at hd <;> first | (cases hd; done) | (injection hd with hd; subst hd; decide +kernel)
  rw [nodes_eq hl] at hb
  have hb' := (Rat.cast_le (K := ℝ)).2 hb
  rw [Rat.cast_abs, Rat.cast_sub, abs_le] at hb'
  obtain ⟨b1, b2⟩ := hb'
  generalize ((((l.map (fun p => p.2)).sum : ℚ)) : ℝ) = S at b1 b2 ⊢
  norm_num at b1 b2
  have p1 := pi_gt_d20
  have p2 := pi_lt_d20
  rw [abs_lt]
  constructor <;> linarith

/-- The table of degree 11 has a misplaced decimal point: it integrates `x²` to more than 1, although the integral
is π/4.  So degrees 10 and 11 are not exact even for quadratic polynomials. -/
theorem degree_11_is_wrong (degree : Int) (hd : degree = 10 ∨ degree = 11) : ∃ xs ws,
    diskQuadrature degree = .ok (xs, ws) ∧
    ruleSum xs ws (fun x _ => x ^ 2) > 1 ∧ ∫ p in unitDisk, p.1 ^ 2 = π / 4 := by
  obtain ⟨xs, ws, h, -, -⟩ := (disk_quadrature_total degree).1 (by omega)
  refine ⟨xs, ws, h, ?_, ?_⟩
  · obtain ⟨data, l, ht, hl, rfl, rfl⟩ := of_ok h
    have : data = data11 := by
      rcases hd with rfl | rfl <;> (injection ht with ht; exact ht.symm)
    subst this
    have hm : msum (nodes data11) 2 0 > 1 := by decide +kernel
    have hl' := lsum_monomial l 2 0
    rw [nodes_eq hl] at hm
    simp only [pow_zero, mul_one] at hl'
    rw [ruleSum_eq, hl']
    exact_mod_cast hm
  · have := disk_moment 2 0
    simp only [pow_zero, mul_one] at this
    rw [this]
    simp [jq, jq0]
    ring

/-- Nodes of the rules used for degrees 4, 5, 8, 9, 10, 11 and 16 to 19 leave the disk; those of the others
do not. -/
theorem nodes_in_disk {degree : Int} {xs ws} (h : diskQuadrature degree = .ok (xs, ws)) :
    (∀ p ∈ xs, p.1 ^ 2 + p.2 ^ 2 ≤ 1) ↔
      degree ∈ ([0, 1, 2, 3, 6, 7, 12, 13, 14, 15] : List Int) := by
  have hle : 0 ≤ degree ∧ degree ≤ 19 := by
    by_contra hn
    rw [(disk_quadrature_total degree).2 hn] at h
    cases h
  obtain ⟨h0, h1⟩ := hle
  obtain ⟨data, l, hd, hl, rfl, rfl⟩ := of_ok h
  rw [← nodes_eq hl]
  clear h
  interval_cases degree <;> (injection hd with hd; subst hd; decide +kernel)

/-- All weights are positive except in the rules for degrees 10, 11, 18 and 19. -/
theorem weights_positive {degree : Int} {xs ws} (h : diskQuadrature degree = .ok (xs, ws)) :
    (∀ w ∈ ws, 0 < w) ↔ degree ∉ ([10, 11, 18, 19] : List Int) := by
  have hle : 0 ≤ degree ∧ degree ≤ 19 := by
    by_contra hn
    rw [(disk_quadrature_total degree).2 hn] at h
    cases h
  obtain ⟨h0, h1⟩ := hle
  obtain ⟨data, l, hd, hl, rfl, rfl⟩ := of_ok h
  rw [← nodes_eq hl]
  clear h
  interval_cases degree <;> (injection hd with hd; subst hd; decide +kernel)

/-- Non-vacuity: the rule asked for with degree 2 has four nodes and integrates `x² + 3 y²` to almost `π`. -/
example : ∃ xs ws, diskQuadrature 2 = .ok (xs, ws) ∧ xs.length = 4 ∧
    |ruleSum xs ws (poly 2 (fun a b => if a = 2 then 1 else if b = 2 then 3 else 0)) -
      ∫ p in unitDisk, poly 2 (fun a b => if a = 2 then 1 else if b = 2 then 3 else 0) p.1 p.2| ≤ 8e-14 := by
  obtain ⟨xs, ws, h, -, -⟩ := (disk_quadrature_total 2).1 (by norm_num)
  refine ⟨xs, ws, h, ?_, ?_⟩
  · obtain ⟨data, l, hd, hl, rfl, rfl⟩ := of_ok h
    injection hd with hd; subst hd
    rw [← nodes_eq hl]
    decide +kernel
  · have := ((disk_quadrature_exact_partial (degree := 2) h).1 (by norm_num) (by norm_num) (by norm_num)) (fun a b => if a = 2 then 1 else if b = 2 then 3 else 0)
    refine this.trans ?_
    norm_num [size, Finset.sum_range_succ]

end Verif.DiskQuad
