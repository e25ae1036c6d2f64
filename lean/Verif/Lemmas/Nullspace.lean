import Verif.Spec.Nullspace
/-! # Lemmas about the nullspace -/
namespace Verif.Nullspace
open Verif
open scoped InnerProductSpace

variable {E : Type} [NormedAddCommGroup E] [InnerProductSpace ℝ E]

/-- Orthonormality in the form used by inductions. -/
structure ON (B : List E) : Prop where
  unit : ∀ b ∈ B, ⟪b, b⟫_ℝ = 1
  orth : B.Pairwise (fun a b => ⟪a, b⟫_ℝ = 0)

theorem on_iff (B : List E) : OrthonormalList B ↔ ON B := by
  constructor
  · intro h
    refine ⟨?_, ?_⟩
    · intro b hb
      obtain ⟨i, hi, rfl⟩ := List.getElem_of_mem hb
      simpa using h i i hi hi
    · rw [List.pairwise_iff_getElem]
      intro i j hi hj hij
      rw [h i j hi hj, if_neg (by omega)]
  · rintro ⟨h1, h2⟩ i j hi hj
    rw [List.pairwise_iff_getElem] at h2
    rcases lt_trichotomy i j with h | h | h
    · rw [h2 i j hi hj h, if_neg (by omega)]
    · subst h
      rw [if_pos rfl]; exact h1 _ (List.getElem_mem hi)
    · rw [real_inner_comm, h2 j i hj hi h, if_neg (by omega)]

theorem ON.tail {b : E} {B : List E} (h : ON (b :: B)) : ON B :=
  ⟨fun c hc => h.unit c (by simp [hc]), (List.pairwise_cons.mp h.orth).2⟩

theorem ON.head {b : E} {B : List E} (h : ON (b :: B)) : ∀ c ∈ B, ⟪b, c⟫_ℝ = 0 :=
  (List.pairwise_cons.mp h.orth).1

theorem mem_span {b : E} {B : List E} (h : b ∈ B) : b ∈ spanOf B := Submodule.subset_span h

theorem span_cons_le {b : E} {B : List E} : spanOf B ≤ spanOf (b :: B) :=
  Submodule.span_mono (fun v hv => by simp only [Set.mem_ofPred_eq] at hv ⊢; simp [hv])

theorem angles_step {b : E} {B : List E} (h : ON (b :: B)) (v : E) :
    angles B (v - ⟪v, b⟫_ℝ • b) = angles B v := by
  refine List.map_congr_left (fun c hc => ?_)
  rw [inner_sub_left, inner_smul_left, h.head c hc]
  simp

/-- What is left after removing the components. -/
theorem orthogonalize_cons {b : E} {B : List E} (h : ON (b :: B)) (v : E) :
    orthogonalize (b :: B) v = orthogonalize B (v - ⟪v, b⟫_ℝ • b) := by
  rw [orthogonalize, orthogonalize, angles_step h]
  rfl

theorem addLoop_cons (tol : ℝ) {b : E} {B : List E} (h : ON (b :: B)) (v : E) (h0 : ‖v‖ ≠ 0)
    (hc : tol < |(|⟪v, b⟫_ℝ / ‖v‖| - 1)|) :
    addLoop tol ((b :: B).zip (angles (b :: B) v)) v =
      addLoop tol (B.zip (angles B (v - ⟪v, b⟫_ℝ • b))) (v - ⟪v, b⟫_ℝ • b) := by
  rw [angles_step h]
  simp only [angles, List.map_cons, List.zip_cons_cons, addLoop]
  rw [if_neg h0, if_pos hc]

theorem sub_norm_sq {b v : E} (h : ⟪b, b⟫_ℝ = 1) :
    ‖v - ⟪v, b⟫_ℝ • b‖ ^ 2 = ‖v‖ ^ 2 - ⟪v, b⟫_ℝ ^ 2 := by
  rw [norm_sub_sq_real, inner_smul_right, norm_smul, mul_pow]
  have : ‖b‖ ^ 2 = 1 := by rw [← real_inner_self_eq_norm_sq, h]
  rw [this, Real.norm_eq_abs, sq_abs]
  ring

theorem orthogonalize_spec : ∀ {B : List E}, ON B → ∀ v : E,
    (∀ b ∈ B, ⟪orthogonalize B v, b⟫_ℝ = 0) ∧ v - orthogonalize B v ∈ spanOf B
  | [], _, v => by simp [orthogonalize, angles]
  | b :: B, h, v => by
      obtain ⟨ih1, ih2⟩ := orthogonalize_spec h.tail (v - ⟪v, b⟫_ℝ • b)
      rw [orthogonalize_cons h]
      refine ⟨?_, ?_⟩
      · intro c hc
        rcases List.mem_cons.mp hc with rfl | hc
        · have key : ∀ u ∈ spanOf B, ⟪u, c⟫_ℝ = 0 := by
            intro u hu
            induction hu using Submodule.span_induction with
            | mem x hx => rw [real_inner_comm]; exact h.head x hx
            | zero => simp
            | add x y _ _ hx hy => rw [inner_add_left, hx, hy, add_zero]
            | smul a x _ hx => rw [inner_smul_left, hx, mul_zero]
          have := key _ ih2
          rw [inner_sub_left, inner_sub_left, inner_smul_left, h.unit c (by simp)] at this
          simp at this
          linarith
        · exact ih1 c hc
      · have e : v - orthogonalize B (v - ⟪v, b⟫_ℝ • b) =
            (v - ⟪v, b⟫_ℝ • b - orthogonalize B (v - ⟪v, b⟫_ℝ • b)) + ⟪v, b⟫_ℝ • b := by abel
        rw [e]
        exact Submodule.add_mem _ (span_cons_le ih2) (Submodule.smul_mem _ _ (mem_span (by simp)))

theorem addLoop_ok (tol : ℝ) : ∀ {B : List E}, ON B → ∀ {v w : E},
    addLoop tol (B.zip (angles B v)) v = .ok w → w = orthogonalize B v
  | [], _, v, w, h => by
      simp [addLoop, angles] at h
      simp [orthogonalize, angles, h]
  | b :: B, hB, v, w, h => by
      by_cases h0 : ‖v‖ = 0
      · simp only [angles, List.map_cons, List.zip_cons_cons, addLoop, if_pos h0] at h
        cases h
      · by_cases hc : tol < |(|⟪v, b⟫_ℝ / ‖v‖| - 1)|
        · rw [addLoop_cons tol hB v h0 hc] at h
          rw [orthogonalize_cons hB]
          exact addLoop_ok tol hB.tail h
        · simp only [angles, List.map_cons, List.zip_cons_cons, addLoop, if_neg h0, if_neg hc] at h
          cases h

/-- A vector in the span is its orthogonal expansion. -/
theorem span_step {b : E} {B : List E} (h : ON (b :: B)) {v : E} (hv : v ∈ spanOf (b :: B)) :
    v - ⟪v, b⟫_ℝ • b ∈ spanOf B := by
  induction hv using Submodule.span_induction with
  | mem x hx =>
      rcases List.mem_cons.mp hx with rfl | hx
      · rw [h.unit x (by simp)]; simp
      · rw [real_inner_comm, h.head x hx]; simpa using mem_span hx
  | zero => simp
  | add x y _ _ hx hy =>
      have : x + y - ⟪x + y, b⟫_ℝ • b = (x - ⟪x, b⟫_ℝ • b) + (y - ⟪y, b⟫_ℝ • b) := by
        rw [inner_add_left, add_smul]; abel
      rw [this]; exact Submodule.add_mem _ hx hy
  | smul a x _ hx =>
      have : a • x - ⟪a • x, b⟫_ℝ • b = a • (x - ⟪x, b⟫_ℝ • b) := by
        rw [inner_smul_left, smul_sub, smul_smul]; simp
      rw [this]; exact Submodule.smul_mem _ _ hx

/-- Nonzero vectors of the span are rejected by the loop. -/
theorem addLoop_span (tol : ℝ) (ht : 0 ≤ tol) : ∀ {B : List E}, ON B → ∀ {v : E}, v ∈ spanOf B → v ≠ 0 →
    addLoop tol (B.zip (angles B v)) v = .error .assertion
  | [], _, v, hv, h0 => by
      exfalso
      apply h0
      have : spanOf ([] : List E) = ⊥ := by simp [spanOf]
      rw [this] at hv
      simpa using hv
  | b :: B, hB, v, hv, h0 => by
      have hn : ‖v‖ ≠ 0 := by simpa using h0
      by_cases hc : tol < |(|⟪v, b⟫_ℝ / ‖v‖| - 1)|
      · rw [addLoop_cons tol hB v hn hc]
        refine addLoop_span tol ht hB.tail (span_step hB hv) ?_
        intro hz
        have : ‖v‖ = |⟪v, b⟫_ℝ| := by
          have hs := sub_norm_sq (v := v) (hB.unit b (by simp))
          rw [hz, norm_zero] at hs
          rw [← abs_of_nonneg (norm_nonneg v)]
          exact sq_eq_sq_iff_abs_eq_abs _ _ |>.mp (by linarith)
        rw [abs_div, abs_norm, ← this, div_self hn] at hc
        simp at hc
        linarith
      · simp only [angles, List.map_cons, List.zip_cons_cons, addLoop, if_neg hn, if_neg hc]

/-- What the loop rejects is close to the span. -/
theorem addLoop_error (tol : ℝ) (ht : 0 ≤ tol) (ht1 : tol ≤ 1) : ∀ {B : List E}, ON B → ∀ {v : E} {e},
    addLoop tol (B.zip (angles B v)) v = .error e →
    ∃ u ∈ spanOf B, ‖v - u‖ ^ 2 ≤ 2 * tol * ‖v‖ ^ 2
  | [], _, v, e, h => by simp [addLoop, angles] at h
  | b :: B, hB, v, e, h => by
      by_cases hn : ‖v‖ = 0
      · exact ⟨0, Submodule.zero_mem _, by simp [hn]⟩
      · by_cases hc : tol < |(|⟪v, b⟫_ℝ / ‖v‖| - 1)|
        · rw [addLoop_cons tol hB v hn hc] at h
          obtain ⟨u, hu, hle⟩ := addLoop_error tol ht ht1 hB.tail h
          refine ⟨u + ⟪v, b⟫_ℝ • b, Submodule.add_mem _ (span_cons_le hu)
            (Submodule.smul_mem _ _ (mem_span (by simp))), ?_⟩
          have e1 : v - (u + ⟪v, b⟫_ℝ • b) = v - ⟪v, b⟫_ℝ • b - u := by abel
          rw [e1]
          refine hle.trans ?_
          have := sub_norm_sq (v := v) (hB.unit b (by simp))
          have h2 : ‖v - ⟪v, b⟫_ℝ • b‖ ^ 2 ≤ ‖v‖ ^ 2 := by nlinarith [sq_nonneg ⟪v, b⟫_ℝ]
          exact mul_le_mul_of_nonneg_left h2 (by linarith)
        · refine ⟨⟪v, b⟫_ℝ • b, Submodule.smul_mem _ _ (mem_span (by simp)), ?_⟩
          rw [sub_norm_sq (hB.unit b (by simp))]
          have hpos : 0 < ‖v‖ := lt_of_le_of_ne (norm_nonneg v) (Ne.symm hn)
          rw [not_lt, abs_div, abs_norm, abs_le] at hc
          have h1 : (1 - tol) * ‖v‖ ≤ |⟪v, b⟫_ℝ| := by
            have : 1 - tol ≤ |⟪v, b⟫_ℝ| / ‖v‖ := by linarith [hc.1]
            rwa [le_div_iff₀ hpos] at this
          have h2 : ((1 - tol) * ‖v‖) ^ 2 ≤ ⟪v, b⟫_ℝ ^ 2 := by
            rw [← sq_abs ⟪v, b⟫_ℝ]
            exact pow_le_pow_left₀ (mul_nonneg (by linarith) hpos.le) h1 2
          nlinarith [sq_nonneg tol, sq_nonneg ‖v‖, mul_nonneg (sq_nonneg tol) (sq_nonneg ‖v‖)]

theorem on_append {B : List E} (h : ON B) {w : E} (hw : ⟪w, w⟫_ℝ = 1) (ho : ∀ b ∈ B, ⟪w, b⟫_ℝ = 0) :
    ON (B ++ [w]) := by
  refine ⟨?_, ?_⟩
  · intro b hb
    rcases List.mem_append.mp hb with hb | hb
    · exact h.unit b hb
    · have : b = w := by simpa using hb
      rw [this, hw]
  · rw [List.pairwise_append]
    refine ⟨h.orth, List.pairwise_singleton _ _, ?_⟩
    intro a ha b hb
    have : b = w := by simpa using hb
    rw [this, real_inner_comm]; exact ho a ha

/-- An accepted addition. -/
theorem addVector_ok (tol : ℝ) {B : List E} (h : ON B) {v : E} {B' : List E} (hv : addVector tol B v = .ok B') :
    orthogonalize B v ≠ 0 ∧ B' = B ++ [(1 / ‖orthogonalize B v‖) • orthogonalize B v] := by
  obtain ⟨w, h1, h2⟩ := py_bind_eq_ok.mp hv
  have := addLoop_ok tol h h1
  subst this
  split at h2
  · cases h2
  · rename_i hn
    exact ⟨by simpa using hn, (Except.ok.inj h2).symm⟩

theorem addVector_on (tol : ℝ) {B : List E} (h : ON B) {v : E} {B' : List E} (hv : addVector tol B v = .ok B') :
    ON B' ∧ spanOf B' = spanOf B ⊔ Submodule.span ℝ {v} := by
  obtain ⟨hne, rfl⟩ := addVector_ok tol h hv
  obtain ⟨s1, s2⟩ := orthogonalize_spec h v
  set w := orthogonalize B v with hw
  have hn : ‖w‖ ≠ 0 := by simpa using hne
  refine ⟨on_append h ?_ ?_, ?_⟩
  · rw [inner_smul_left, inner_smul_right, real_inner_self_eq_norm_sq]
    simp only [conj_trivial]
    field_simp
  · intro b hb
    rw [inner_smul_left, s1 b hb, mul_zero]
  · apply le_antisymm
    · refine Submodule.span_le.mpr ?_
      intro x hx
      simp only [Set.mem_ofPred_eq, List.mem_append, List.mem_singleton] at hx
      rcases hx with hx | rfl
      · exact Submodule.mem_sup_left (mem_span hx)
      · refine Submodule.smul_mem _ _ ?_
        have e : w = v - (v - w) := by abel
        rw [e]
        exact Submodule.sub_mem _ (Submodule.mem_sup_right (Submodule.mem_span_singleton_self v))
          (Submodule.mem_sup_left s2)
    · refine sup_le (Submodule.span_mono (fun x hx => by
        simp only [Set.mem_ofPred_eq] at hx ⊢; simp [hx])) ?_
      rw [Submodule.span_singleton_le_iff_mem]
      have hwm : w ∈ spanOf (B ++ [(1 / ‖w‖) • w]) := by
        have hm : (1 / ‖w‖) • w ∈ spanOf (B ++ [(1 / ‖w‖) • w]) := mem_span (by simp)
        have := Submodule.smul_mem _ ‖w‖ hm
        rwa [smul_smul, mul_one_div_cancel hn, one_smul] at this
      have e : v = (v - w) + w := by abel
      rw [e]
      exact Submodule.add_mem _ (Submodule.span_mono (fun x hx => by
        simp only [Set.mem_ofPred_eq] at hx ⊢; simp [hx]) s2) hwm

end Verif.Nullspace
