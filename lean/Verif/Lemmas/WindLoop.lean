import Verif.Spec.WindLoop
import Verif.Lemmas.Tangent
import Mathlib.Analysis.SpecialFunctions.Complex.LogDeriv
import Mathlib.MeasureTheory.Integral.IntervalIntegral.FundThmCalculus
import Mathlib.Data.List.Count
import Mathlib.Tactic.FieldSimp
import Mathlib.Tactic.LinearCombination
/-!
# Lemmas on winding numbers of loops
-/
namespace Verif.Tangent
open Matrix

theorem asComplex_ne {x : Fin 2 → ℝ} (h : x ≠ 0) : asComplex x ≠ 0 := by
  intro h0
  apply h
  have h1 := congrArg Complex.re h0
  have h2 := congrArg Complex.im h0
  funext i
  fin_cases i
  · exact h1
  · exact h2

theorem off_ends {c p q : Fin 2 → ℝ} (h : ¬ OnSegment c p q) : p - c ≠ 0 ∧ q - c ≠ 0 := by
  constructor
  · intro h0
    exact h ⟨0, le_refl 0, zero_le_one, by rw [zero_smul, add_zero]; exact (sub_eq_zero.1 h0).symm⟩
  · intro h0
    exact h ⟨1, zero_le_one, le_refl 1, by rw [one_smul, add_sub_cancel]; exact (sub_eq_zero.1 h0).symm⟩

theorem off_swap {c p q : Fin 2 → ℝ} (h : ¬ OnSegment c p q) : ¬ OnSegment c q p := by
  rintro ⟨s, h0, h1, e⟩
  refine h ⟨1 - s, by linarith, by linarith, ?_⟩
  rw [e]
  funext i
  simp
  ring

/-- The segment seen from the point does not meet the negative axis if its start is turned to one. -/
theorem in_slit {c p q : Fin 2 → ℝ} (h : ¬ OnSegment c p q) {s : ℝ} (h0 : 0 ≤ s) (h1 : s ≤ 1) :
    1 + (s : ℂ) * (asComplex (q - c) / asComplex (p - c) - 1) ∈ Complex.slitPlane := by
  have hp := asComplex_ne (off_ends h).1
  rw [Complex.mem_slitPlane_iff]
  by_contra hcon
  push Not at hcon
  obtain ⟨hr, hi⟩ := hcon
  set z := asComplex (q - c) / asComplex (p - c) with hz
  have er : 1 + s * (z.re - 1) ≤ 0 := by simpa using hr
  have ei : s * z.im = 0 := by simpa using hi
  have hs : s ≠ 0 := by rintro rfl; norm_num at er
  have hzi : z.im = 0 := by rcases mul_eq_zero.1 ei with h | h; exacts [absurd h hs, h]
  have hzr : z.re ≤ 0 := by
    have : 0 < s := lt_of_le_of_ne h0 (Ne.symm hs)
    by_contra hh
    push Not at hh
    nlinarith
  have hq : asComplex (q - c) = z * asComplex (p - c) := by rw [hz, div_mul_cancel₀ _ hp]
  have q0 : (q - c) 0 = z.re * (p - c) 0 := by
    have := congrArg Complex.re hq
    simp [asComplex, hzi] at this
    simpa using this
  have q1 : (q - c) 1 = z.re * (p - c) 1 := by
    have := congrArg Complex.im hq
    simp [asComplex, hzi] at this
    simpa using this
  refine h ⟨1 / (1 - z.re), by apply div_nonneg <;> linarith, by rw [div_le_one (by linarith)]; linarith, ?_⟩
  have hne : (1 - z.re) ≠ 0 := by linarith
  simp only [Pi.sub_apply] at q0 q1
  funext i
  fin_cases i <;> simp <;> field_simp
  · linear_combination - q0
  · linear_combination - q1

/-- The integrand along the segment is the derivative of the angle. -/
theorem integral_angle {c p q : Fin 2 → ℝ} (h : ¬ OnSegment c p q) :
    ∫ s in (0 : ℝ)..1, integrand c (rotate (q - p)) (p + s • (q - p)) = angle c p q / (2 * Real.pi) := by
  have hp := asComplex_ne (off_ends h).1
  set z := asComplex (q - c) / asComplex (p - c) with hz
  have hin : ∀ s ∈ Set.uIcc (0 : ℝ) 1, 1 + (s : ℂ) * (z - 1) ∈ Complex.slitPlane := by
    intro s hs
    rw [Set.uIcc_of_le zero_le_one] at hs
    exact in_slit h hs.1 hs.2
  have hd : ∀ s ∈ Set.uIcc (0 : ℝ) 1, HasDerivAt (fun s : ℝ => (Complex.log (1 + (s : ℂ) * (z - 1))).im / (2 * Real.pi))
      (((z - 1) / (1 + (s : ℂ) * (z - 1))).im / (2 * Real.pi)) s := by
    intro s hs
    have h1 : HasDerivAt (fun s : ℝ => 1 + (s : ℂ) * (z - 1)) (z - 1) s := by
      have := ((Complex.ofRealCLM.hasDerivAt (x := s)).mul_const (z - 1)).const_add 1
      simpa using this
    have h2 := h1.clog_real (hin s hs)
    have h3 : HasDerivAt (fun s : ℝ => (Complex.log (1 + (s : ℂ) * (z - 1))).im) (((z - 1) / (1 + (s : ℂ) * (z - 1))).im) s :=
      (Complex.imCLM.hasFDerivAt.comp_hasDerivAt s h2)
    exact h3.div_const _
  have hf : ∀ s ∈ Set.uIcc (0 : ℝ) 1, integrand c (rotate (q - p)) (p + s • (q - p)) =
      ((z - 1) / (1 + (s : ℂ) * (z - 1))).im / (2 * Real.pi) := by
    intro s hs
    have hw : asComplex (p + s • (q - p) - c) = asComplex (p - c) * (1 + (s : ℂ) * (z - 1)) := by
      rw [hz, mul_add, mul_one, mul_left_comm, mul_sub, mul_div_cancel₀ _ hp, mul_one]
      apply Complex.ext <;> simp [asComplex] <;> ring
    have hn : asComplex (q - p) = asComplex (p - c) * (z - 1) := by
      rw [hz, mul_sub, mul_div_cancel₀ _ hp, mul_one]
      apply Complex.ext <;> simp [asComplex]
    rw [← mul_div_mul_left (z - 1) (1 + (s : ℂ) * (z - 1)) hp, ← hw, ← hn, Complex.div_im]
    have hne : asComplex (p + s • (q - p) - c) ≠ 0 := by
      rw [hw]
      exact mul_ne_zero hp (Complex.slitPlane_ne_zero (hin s hs))
    have hns : Complex.normSq (asComplex (p + s • (q - p) - c)) = (p + s • (q - p) - c) ⬝ᵥ (p + s • (q - p) - c) := by
      simp [asComplex, Complex.normSq_apply, dotProduct, Fin.sum_univ_two]
    have hpos := Complex.normSq_pos.2 hne
    rw [hns] at hpos ⊢
    unfold integrand
    rw [smul_dotProduct, smul_eq_mul]
    have hdot : (p + s • (q - p) - c) ⬝ᵥ rotate (q - p) = (asComplex (q - p)).im * (asComplex (p + s • (q - p) - c)).re -
        (asComplex (q - p)).re * (asComplex (p + s • (q - p) - c)).im := by
      simp [rotate, dotProduct, Fin.sum_univ_two, asComplex]
      ring
    rw [hdot]
    have hpi := Real.pi_pos
    field_simp
  rw [intervalIntegral.integral_congr hf, intervalIntegral.integral_eq_sub_of_hasDerivAt hd]
  · unfold angle
    rw [← hz]
    simp [Complex.log_im]
  · apply ContinuousOn.intervalIntegrable
    apply ContinuousOn.div_const
    apply Complex.continuous_im.comp_continuousOn
    apply ContinuousOn.div
    · exact continuousOn_const
    · fun_prop
    · intro s hs
      exact Complex.slitPlane_ne_zero (hin s hs)

theorem angle_swap {c p q : Fin 2 → ℝ} (h : ¬ OnSegment c p q) : angle c q p = - angle c p q := by
  have hs := in_slit h zero_le_one (le_refl 1)
  unfold angle
  have hs' : asComplex (q - c) / asComplex (p - c) ∈ Complex.slitPlane := by simpa using hs
  rw [← inv_div, Complex.arg_inv, if_neg (Complex.mem_slitPlane_iff_arg.1 hs').1]

theorem angle_coe {c p q : Fin 2 → ℝ} (h : ¬ OnSegment c p q) :
    ((angle c p q : ℝ) : Real.Angle) = ((asComplex (q - c)).arg : Real.Angle) - ((asComplex (p - c)).arg : Real.Angle) :=
  Complex.arg_div_coe_angle (asComplex_ne (off_ends h).2) (asComplex_ne (off_ends h).1)

theorem angle_im {c p q : Fin 2 → ℝ} :
    (asComplex (q - c) / asComplex (p - c)).im * Complex.normSq (asComplex (p - c)) =
      (q - p) 0 * (c - p) 1 - (q - p) 1 * (c - p) 0 := by
  by_cases hp : asComplex (p - c) = 0
  · have h1 := congrArg Complex.re hp
    have h2 := congrArg Complex.im hp
    simp [asComplex] at h1 h2
    have e0 : c 0 - p 0 = 0 := by linarith
    have e1 : c 1 - p 1 = 0 := by linarith
    simp [hp, e0, e1]
  · have hpos := Complex.normSq_pos.2 hp
    rw [Complex.div_im]
    have : Complex.normSq (asComplex (p - c)) ≠ 0 := hpos.ne'
    field_simp
    simp [asComplex]
    ring

theorem angle_left {c p q : Fin 2 → ℝ} (h : LeftOf c p q) : 0 < angle c p q ∧ angle c p q < Real.pi := by
  unfold LeftOf at h
  rw [← angle_im] at h
  have hn := Complex.normSq_nonneg (asComplex (p - c))
  have hi : 0 < (asComplex (q - c) / asComplex (p - c)).im := by
    by_contra hcon
    push Not at hcon
    nlinarith
  unfold angle
  constructor
  · refine lt_of_le_of_ne (Complex.arg_nonneg_iff.2 hi.le) ?_
    intro h0
    rw [eq_comm, Complex.arg_eq_zero_iff] at h0
    linarith [h0.2]
  · refine lt_of_le_of_ne (Complex.arg_le_pi _) ?_
    intro h0
    rw [Complex.arg_eq_pi_iff] at h0
    linarith [h0.2]

theorem left_off {c p q : Fin 2 → ℝ} (h : LeftOf c p q) : ¬ OnSegment c p q := by
  rintro ⟨s, -, -, rfl⟩
  unfold LeftOf at h
  simp at h
  nlinarith

/-- Differences of a function of the vertices cancel. -/
theorem course_cancels {A : Type} [AddCommGroup A] {H : Course} (h : ∀ v, (H.map Prod.fst).count v = (H.map Prod.snd).count v)
    (f : Nat → A) : (H.map (fun e => f e.2 - f e.1)).sum = 0 := by
  have hp : (H.map Prod.fst).Perm (H.map Prod.snd) := List.perm_iff_count.2 h
  have := (hp.map f).sum_eq
  rw [List.map_map, List.map_map] at this
  have key : ∀ l : Course, (l.map (fun e => f e.2 - f e.1)).sum = (l.map (f ∘ Prod.snd)).sum - (l.map (f ∘ Prod.fst)).sum := by
    intro l
    induction l with
    | nil => simp
    | cons e l ih => simp only [List.map_cons, List.sum_cons, ih, Function.comp]; abel
  rw [key, this, sub_self]

/-- Points on one side of a line through `c`: the angles are differences. -/
theorem angle_half {c u p q : Fin 2 → ℝ} (hp : (p - c) ⬝ᵥ u < 0) (hq : (q - c) ⬝ᵥ u < 0) :
    angle c p q = (asComplex (q - c) * (⟨- u 0, u 1⟩ : ℂ)).arg - (asComplex (p - c) * (⟨- u 0, u 1⟩ : ℂ)).arg := by
  have hre : ∀ x : Fin 2 → ℝ, (asComplex x * (⟨- u 0, u 1⟩ : ℂ)).re = - (x ⬝ᵥ u) := by
    intro x
    simp [asComplex, dotProduct, Fin.sum_univ_two]
    ring
  have h1 : 0 < (asComplex (p - c) * (⟨- u 0, u 1⟩ : ℂ)).re := by rw [hre]; linarith
  have h2 : 0 < (asComplex (q - c) * (⟨- u 0, u 1⟩ : ℂ)).re := by rw [hre]; linarith
  have hw : (⟨- u 0, u 1⟩ : ℂ) ≠ 0 := by rintro h; rw [h] at h1; simp at h1
  have n1 : asComplex (p - c) * (⟨- u 0, u 1⟩ : ℂ) ≠ 0 := by intro h; rw [h] at h1; simp at h1
  have n2 : asComplex (q - c) * (⟨- u 0, u 1⟩ : ℂ) ≠ 0 := by intro h; rw [h] at h2; simp at h2
  have a1 := abs_lt.1 (Complex.abs_arg_lt_pi_div_two_iff.2 (.inl h1))
  have a2 := abs_lt.1 (Complex.abs_arg_lt_pi_div_two_iff.2 (.inl h2))
  unfold angle
  rw [← mul_div_mul_right _ _ hw]
  have e := Complex.arg_div_coe_angle n2 n1
  rw [← Real.Angle.coe_sub] at e
  have e2 := congrArg Real.Angle.toReal e
  rw [Complex.arg_coe_angle_toReal_eq_arg, Real.Angle.toReal_coe_eq_self_iff.2] at e2
  · exact e2
  · constructor <;> linarith [a1.1, a1.2, a2.1, a2.2]

/-- Each directed cell is a cell of the curve. -/
theorem course_mem {G : Curve 2} {H : Course} (hH : CourseOf G H) {e : Nat × Nat} (he : e ∈ H) : e ∈ G.cells ∨ e.swap ∈ G.cells := by
  obtain ⟨i, hi, rfl⟩ := List.getElem_of_mem he
  have hl := hH.same.length_eq
  have := (List.forall₂_iff_get.1 hH.same).2 i (by omega) hi
  simp only [List.get_eq_getElem] at this
  rcases this with h | h
  · exact .inl (h ▸ List.getElem_mem _)
  · refine .inr ?_
    rw [h, Prod.swap_swap]
    exact List.getElem_mem _

theorem course_off {G : Curve 2} {H : Course} (hH : CourseOf G H) {c : Fin 2 → ℝ}
    (hc : ∀ e ∈ G.cells, ¬ OnSegment c (G.pos e.1) (G.pos e.2)) {e : Nat × Nat} (he : e ∈ H) :
    ¬ OnSegment c (G.pos e.1) (G.pos e.2) := by
  rcases course_mem hH he with h | h
  · exact hc _ h
  · exact off_swap (hc _ h)

/-- Sum of angles in two ways. -/
theorem sum_against {c : Fin 2 → ℝ} {f : Nat → Fin 2 → ℝ} {cells H : List (Nat × Nat)}
    (h : List.Forall₂ (fun e h => h = e ∨ h = e.swap) cells H) (hc : ∀ e ∈ cells, ¬ OnSegment c (f e.1) (f e.2)) :
    (cells.map (fun e => angle c (f e.1) (f e.2))).sum = (H.map (fun e => angle c (f e.1) (f e.2))).sum -
      2 * ((((cells.zip H).filter (fun p => decide (p.1 ≠ p.2))).map Prod.snd).map (fun e => angle c (f e.1) (f e.2))).sum := by
  induction h with
  | nil => simp
  | @cons e h l H he _ ih =>
    have ih := ih (fun e h => hc e (List.mem_cons_of_mem _ h))
    by_cases heq : e = h
    · subst heq
      simp only [List.map_cons, List.sum_cons, List.zip_cons_cons, List.filter_cons, ne_eq, not_true_eq_false, decide_false,
        Bool.false_eq_true, if_false] at ih ⊢
      rw [ih]
      ring
    · have hs : h = e.swap := by
        rcases he with he | he
        · exact absurd he.symm heq
        · exact he
      have := angle_swap (hc e List.mem_cons_self)
      simp only [List.map_cons, List.sum_cons, List.zip_cons_cons, List.filter_cons, ne_eq, heq, not_false_eq_true, decide_true,
        if_true] at ih ⊢
      rw [ih, hs]
      simp only [Prod.fst_swap, Prod.snd_swap]
      rw [this]
      ring

theorem left_all_off {G : Curve 2} {H : Course} (hH : CourseOf G H) {c : Fin 2 → ℝ}
    (hc : ∀ e ∈ H, LeftOf c (G.pos e.1) (G.pos e.2)) : ∀ e ∈ G.cells, ¬ OnSegment c (G.pos e.1) (G.pos e.2) := by
  intro e he
  obtain ⟨i, hi, rfl⟩ := List.getElem_of_mem he
  have hl := hH.same.length_eq
  have h := (List.forall₂_iff_get.1 hH.same).2 i hi (by omega)
  simp only [List.get_eq_getElem] at h
  have hm := hc _ (List.getElem_mem (show i < H.length by omega))
  rcases h with h | h
  · rw [h] at hm
    exact left_off hm
  · rw [h] at hm
    exact off_swap (left_off hm)

theorem right_all_off {G : Curve 2} {H : Course} (hH : CourseOf G H) {c : Fin 2 → ℝ}
    (hc : ∀ e ∈ H, LeftOf c (G.pos e.2) (G.pos e.1)) : ∀ e ∈ G.cells, ¬ OnSegment c (G.pos e.1) (G.pos e.2) := by
  intro e he
  obtain ⟨i, hi, rfl⟩ := List.getElem_of_mem he
  have hl := hH.same.length_eq
  have h := (List.forall₂_iff_get.1 hH.same).2 i hi (by omega)
  simp only [List.get_eq_getElem] at h
  have hm := hc _ (List.getElem_mem (show i < H.length by omega))
  rcases h with h | h
  · rw [h] at hm
    exact off_swap (left_off hm)
  · rw [h] at hm
    exact left_off hm

theorem outside_off {G : Curve 2} (hG : G.Ok) {c : Fin 2 → ℝ} (hc : OutsideHull G.X c) :
    ∀ e ∈ G.cells, ¬ OnSegment c (G.pos e.1) (G.pos e.2) := by
  obtain ⟨u, hu⟩ := hc
  rintro e he ⟨s, h0, h1, hs⟩
  have a := hu _ (List.mem_of_getElem? (pos_eq (hG.lt e he).1))
  have b := hu _ (List.mem_of_getElem? (pos_eq (hG.lt e he).2))
  generalize G.pos e.1 = p at *
  generalize G.pos e.2 = q at *
  have e0 := congrFun hs 0
  have e1 := congrFun hs 1
  simp [dotProduct, Fin.sum_univ_two] at a b e0 e1
  have : (1 - s) * ((p 0 - c 0) * u 0 + (p 1 - c 1) * u 1) + s * ((q 0 - c 0) * u 0 + (q 1 - c 1) * u 1) = 0 := by
    linear_combination (- u 0) * e0 - u 1 * e1
  rcases eq_or_lt_of_le h0 with h | h
  · subst h
    linarith
  · nlinarith

theorem numbered_ne {G : Curve 2} (hn : Numbered G) : G.cells ≠ [] := by
  intro h
  have := hn.cells.length_eq
  rw [h] at this
  simp at this

theorem last_along {G : Curve 2} (hn : Numbered G) : (G.X.length - 1, 0) ∈ along G :=
  List.mem_map.2 ⟨(0, G.X.length - 1), hn.cells.mem_iff.2 (by simp), by simp⟩

theorem along_perm {G : Curve 2} (hn : Numbered G) :
    (along G).Perm ((G.X.length - 1, 0) :: (List.range (G.X.length - 1)).map (fun i => (i, i + 1))) := by
  have h := hn.cells.map (fun e => if e = (0, G.X.length - 1) then e.swap else e)
  unfold along
  refine h.trans (List.Perm.of_eq ?_)
  rw [List.map_cons, List.map_map]
  congr 1
  · simp
  · refine List.map_congr_left (fun i hi => ?_)
    have := hn.three
    simp only [Function.comp, Prod.mk.injEq]
    rw [if_neg]
    omega

theorem numbered_course {G : Curve 2} (hn : Numbered G) : CourseOf G (along G) := by
  refine ⟨?_, fun v => ?_⟩
  · unfold along
    rw [List.forall₂_map_right_iff, List.forall₂_same]
    intro e _
    split
    · exact .inr rfl
    · exact .inl rfl
  · have h3 := hn.three
    have p1 := ((along_perm hn).map Prod.fst).count_eq v
    have p2 := ((along_perm hn).map Prod.snd).count_eq v
    rw [p1, p2]
    have e1 : (((G.X.length - 1, 0) :: (List.range (G.X.length - 1)).map (fun i => (i, i + 1))).map Prod.fst).Perm
        (List.range G.X.length) := by
      rw [List.map_cons, List.map_map, show (Prod.fst ∘ fun i : Nat => (i, i + 1)) = id from rfl, List.map_id]
      conv_rhs => rw [show G.X.length = (G.X.length - 1) + 1 by omega, List.range_succ]
      exact (List.perm_append_singleton _ _).symm
    have e2 : (((G.X.length - 1, 0) :: (List.range (G.X.length - 1)).map (fun i => (i, i + 1))).map Prod.snd) =
        (List.range G.X.length) := by
      rw [List.map_cons, List.map_map, show (Prod.snd ∘ fun i : Nat => (i, i + 1)) = Nat.succ from rfl]
      conv_rhs => rw [show G.X.length = (G.X.length - 1) + 1 by omega, List.range_succ_eq_map]
    rw [e1.count_eq v, e2]

theorem against_along {G : Curve 2} (hn : Numbered G) : against G (along G) = [(G.X.length - 1, 0)] := by
  have h3 := hn.three
  have hz : ∀ l : List (Nat × Nat),
      ((l.zip (l.map (fun e => if e = (0, G.X.length - 1) then e.swap else e))).filter (fun p => decide (p.1 ≠ p.2))).map Prod.snd =
        (l.filter (fun e => decide (e = (0, G.X.length - 1)))).map Prod.swap := by
    intro l
    induction l with
    | nil => rfl
    | cons e l ih =>
      rw [List.map_cons, List.zip_cons_cons, List.filter_cons, List.filter_cons]
      by_cases he : e = (0, G.X.length - 1)
      · subst he
        rw [if_pos (by simp; omega), if_pos rfl, if_pos (decide_eq_true rfl), List.map_cons, List.map_cons, ih]
      · rw [if_neg (by simp [he]), if_neg (by simp [he]), ih]
  unfold against along
  rw [hz, List.filter_eq]
  have hcount : G.cells.count (0, G.X.length - 1) = 1 := by
    rw [hn.cells.count_eq, List.count_cons_self, List.count_eq_zero.2]
    intro h
    obtain ⟨i, _, hi⟩ := List.mem_map.1 h
    simp at hi
    omega
  rw [hcount]
  rfl

end Verif.Tangent
