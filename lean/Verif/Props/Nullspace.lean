import Verif.Lemmas.Nullspace
import Mathlib.Analysis.InnerProductSpace.PiL2
/-!
# C15-C17: the nullspace
-/
namespace Verif.Nullspace
open Verif
open scoped InnerProductSpace

variable {E : Type} [NormedAddCommGroup E] [InnerProductSpace ℝ E]

/-- **C15** After any history of additions, starting with an orthonormal basis (the empty one for a new
object), the basis is orthonormal and spans exactly the old basis and the accepted vectors. -/
theorem nullspace_orthonormal (tol : ℝ) (vs : List E) (B : List E) (hB : OrthonormalList B) :
    OrthonormalList (runAdds tol B vs) ∧
      spanOf (runAdds tol B vs) = spanOf (B ++ accepted tol B vs) := by
  induction vs generalizing B with
  | nil => exact ⟨hB, by simp [runAdds, accepted]⟩
  | cons v vs ih =>
      simp only [runAdds, accepted]
      cases hv : addVector tol B v with
      | error e => exact ih B hB
      | ok B' =>
          obtain ⟨h1, h2⟩ := addVector_on tol ((on_iff B).mp hB) hv
          obtain ⟨i1, i2⟩ := ih B' ((on_iff B').mpr h1)
          refine ⟨i1, ?_⟩
          simp only
          rw [i2]
          have app : ∀ (a b : List E), spanOf (a ++ b) = spanOf a ⊔ spanOf b := by
            intro a b
            rw [spanOf, spanOf, spanOf, ← Submodule.span_union]
            congr 1
            ext x; simp
          have con : ∀ (a : E) (b : List E), spanOf (a :: b) = Submodule.span ℝ {a} ⊔ spanOf b := by
            intro a b
            rw [spanOf, spanOf, ← Submodule.span_union]
            congr 1
            ext x; simp
          rw [app, app, con, h2, sup_assoc]

/-- **C15**, the constructor: if it does not raise, its basis is orthonormal and spans the given
vectors. -/
theorem construct_orthonormal (tol : ℝ) (vs : List E) (B : List E) (h : construct tol [] vs = .ok B) :
    OrthonormalList B ∧ spanOf B = spanOf vs := by
  have key : ∀ (vs B B' : List E), construct tol B vs = .ok B' →
      B' = runAdds tol B vs ∧ accepted tol B vs = vs := by
    intro vs
    induction vs with
    | nil => intro B B' h; simp only [construct, Except.ok.injEq] at h; simp [runAdds, accepted, h]
    | cons v vs ih =>
        intro B B' h
        obtain ⟨C, h1, h2⟩ := py_bind_eq_ok.mp h
        obtain ⟨i1, i2⟩ := ih C B' h2
        simp [runAdds, accepted, h1, i1, i2]
  obtain ⟨h1, h2⟩ := key vs [] B h
  have := nullspace_orthonormal tol vs [] (by intro i j hi; simp at hi)
  rw [← h1, h2] at this
  simpa using this

/-- **C16**, one direction: vectors in the span of the basis are rejected (zero by a division by zero,
others by the assertion). -/
theorem dependent_rejected (tol : ℝ) (ht : 0 ≤ tol) (B : List E) (hB : OrthonormalList B) (v : E)
    (hv : v ∈ spanOf B) : ∃ e, addVector tol B v = .error e := by
  have hB := (on_iff B).mp hB
  by_cases h0 : v = 0
  · subst h0
    cases B with
    | nil => exact ⟨.zeroDivision, by simp [addVector, addLoop, angles]⟩
    | cons b B => exact ⟨.zeroDivision, by simp [addVector, addLoop, angles]⟩
  · exact ⟨.assertion, by rw [addVector, addLoop_span tol ht hB hv h0]; rfl⟩

/-- **C16**, the other direction up to the tolerance: a rejected vector has a relative distance of at most
`sqrt(2*tol)` from the span.  Missing: rejected vectors need not be in the span
(`independent_rejected`), unless `tol = 0` (`rejected_iff_exact`). -/
theorem rejected_near_span_partial (tol : ℝ) (ht : 0 ≤ tol) (ht1 : tol ≤ 1) (B : List E)
    (hB : OrthonormalList B) (v : E) (e : PyErr) (hv : addVector tol B v = .error e) :
    ∃ u ∈ spanOf B, ‖v - u‖ ^ 2 ≤ 2 * tol * ‖v‖ ^ 2 := by
  have hB := (on_iff B).mp hB
  rw [addVector] at hv
  cases hl : addLoop tol (B.zip (angles B v)) v with
  | error e' => exact addLoop_error tol ht ht1 hB hl
  | ok w =>
      rw [hl, py_bind_ok] at hv
      split at hv
      · rename_i hw
        have := addLoop_ok tol hB hl
        obtain ⟨_, s2⟩ := orthogonalize_spec hB v
        rw [← this] at s2
        refine ⟨v - w, s2, ?_⟩
        rw [sub_sub_cancel, hw]
        have := mul_nonneg ht (sq_nonneg ‖v‖)
        linarith
      · cases hv

/-- **C16** with exact comparison: rejected iff in the span. -/
theorem rejected_iff_exact (B : List E) (hB : OrthonormalList B) (v : E) :
    (∃ e, addVector 0 B v = .error e) ↔ v ∈ spanOf B := by
  constructor
  · rintro ⟨e, he⟩
    obtain ⟨u, hu, hle⟩ := rejected_near_span_partial 0 le_rfl zero_le_one B hB v e he
    have : ‖v - u‖ = 0 := by
      have h : ‖v - u‖ ^ 2 ≤ 0 := by simpa using hle
      exact pow_eq_zero_iff two_ne_zero |>.mp (le_antisymm h (sq_nonneg _))
    rw [norm_eq_zero, sub_eq_zero] at this
    rw [this]; exact hu
  · exact dependent_rejected 0 le_rfl B hB v

/-- **C16** is false for the tolerance of the code: `e1 + 1E-6*e2` is not in the span of `e1` but rejected. -/
theorem independent_rejected (e1 e2 : E) (h : OrthonormalList [e1, e2]) :
    e1 + (1e-6 : ℝ) • e2 ∉ spanOf [e1] ∧
      addVector 1e-10 [e1] (e1 + (1e-6 : ℝ) • e2) = .error .assertion := by
  have h := (on_iff _).mp h
  have h11 := h.unit e1 (by simp)
  have h22 := h.unit e2 (by simp)
  have h12 : ⟪e1, e2⟫_ℝ = 0 := h.head e2 (by simp)
  have h21 : ⟪e2, e1⟫_ℝ = 0 := by rw [real_inner_comm]; exact h12
  constructor
  · intro hm
    have hs : spanOf [e1] = Submodule.span ℝ {e1} := by simp [spanOf]
    rw [hs, Submodule.mem_span_singleton] at hm
    obtain ⟨a, ha⟩ := hm
    have := congrArg (fun x => ⟪x, e2⟫_ℝ) ha
    simp only [inner_smul_left, inner_add_left, h12, h22] at this
    norm_num at this
  · set v := e1 + (1e-6 : ℝ) • e2 with hv
    have hin : ⟪v, e1⟫_ℝ = 1 := by
      rw [hv, inner_add_left, inner_smul_left, h11, h21]; simp
    have hn2 : ‖v‖ ^ 2 = 1 + 1e-12 := by
      rw [← real_inner_self_eq_norm_sq, hv]
      simp only [inner_add_left, inner_add_right, inner_smul_left, inner_smul_right, h11, h12, h21, h22]
      norm_num
    have hlow : 1 ≤ ‖v‖ := by
      by_contra hcon
      push Not at hcon
      nlinarith [norm_nonneg v]
    have hup : ‖v‖ ≤ 1 + 1e-12 := by
      by_contra hcon
      push Not at hcon
      nlinarith [norm_nonneg v]
    have hn : ‖v‖ ≠ 0 := by linarith
    have hc : ¬ (1e-10 < |(|⟪v, e1⟫_ℝ / ‖v‖| - 1)|) := by
      rw [hin, abs_of_nonneg (div_nonneg zero_le_one (norm_nonneg v)), not_lt, abs_le]
      constructor
      · have : (1 : ℝ) - 1e-10 ≤ 1 / ‖v‖ := by
          rw [le_div_iff₀ (by linarith)]
          nlinarith
        linarith
      · have : 1 / ‖v‖ ≤ 1 := by
          rw [div_le_one (by linarith)]; exact hlow
        linarith [show (0 : ℝ) ≤ 1e-10 by norm_num]
    simp only [addVector, angles, List.map_cons, List.map_nil, List.zip_cons_cons, List.zip_nil_right, addLoop,
      if_neg hn, if_neg hc, py_bind_error]

/-- Block vectors with constants, numbers or tuples can never be added: `NameError`. -/
theorem constants_not_accepted {α : Type} (mk : List α → E) (tol : ℝ) (B : List E) (es : List (Entry α))
    (h : ∃ e ∈ es, ∀ v, e ≠ .vec v) : addEntries mk tol B es = .error .nameError := by
  have : substitute es = .error .nameError := by
    induction es with
    | nil => simp at h
    | cons e es ih =>
        obtain ⟨x, hx, hne⟩ := h
        cases e with
        | vec v =>
            rcases List.mem_cons.mp hx with rfl | hx
            · exact absurd rfl (hne v)
            · simp [substitute, ih ⟨x, hx, hne⟩]
        | _ => rfl
  simp [addEntries, this]

/-- Block vectors of vectors are added as they are. -/
theorem vectors_added {α : Type} (mk : List α → E) (tol : ℝ) (B : List E) (vs : List α) :
    addEntries mk tol B (vs.map .vec) = addVector tol B (mk vs) := by
  have : substitute (vs.map .vec) = .ok vs := by
    induction vs with
    | nil => rfl
    | cons v vs ih => simp [substitute, ih]
  simp [addEntries, this]

/-- **C17** The result is orthogonal to the basis, differs from the input by an element of the span, and
orthogonalising again changes nothing. -/
theorem orthogonalize_projects (B : List E) (hB : OrthonormalList B) (v : E) :
    (∀ b ∈ B, ⟪orthogonalize B v, b⟫_ℝ = 0) ∧ v - orthogonalize B v ∈ spanOf B ∧
      orthogonalize B (orthogonalize B v) = orthogonalize B v := by
  have hB := (on_iff B).mp hB
  obtain ⟨h1, h2⟩ := orthogonalize_spec hB v
  refine ⟨h1, h2, ?_⟩
  have key : ∀ (C : List E) (w : E), (∀ b ∈ C, ⟪w, b⟫_ℝ = 0) → orthogonalize C w = w := by
    intro C
    induction C with
    | nil => intro w _; rfl
    | cons c C ih =>
        intro w hw
        have hc := hw c (by simp)
        have : orthogonalize (c :: C) w = orthogonalize C w := by
          simp only [orthogonalize, angles, List.map_cons, List.zip_cons_cons, List.foldl_cons, hc, zero_smul, sub_zero]
        rw [this]
        exact ih w (fun b hb => hw b (by simp [hb]))
  exact key B _ h1

/-! Nontrivial cases: an orthonormal pair, and a history with an accepted and a rejected vector. -/
example : OrthonormalList [EuclideanSpace.single (0 : Fin 2) (1 : ℝ), EuclideanSpace.single (1 : Fin 2) (1 : ℝ)] := by
  rw [on_iff]
  refine ⟨?_, ?_⟩
  · intro b hb
    simp at hb
    rcases hb with rfl | rfl <;> simp
  · refine .cons ?_ (List.pairwise_singleton _ _)
    intro b hb
    have : b = EuclideanSpace.single (1 : Fin 2) (1 : ℝ) := by simpa using hb
    rw [this, EuclideanSpace.inner_single_left]
    simp

example (v : EuclideanSpace ℝ (Fin 2)) (hv : v ≠ 0) : accepted 1e-10 [] [v, (2 : ℝ) • v] = [v] := by
  have hn : ‖v‖ ≠ 0 := by simpa using hv
  have e1 : addVector 1e-10 [] v = .ok [(1 / ‖v‖) • v] := by
    simp [addVector, addLoop, angles, hv]
  obtain ⟨hon, hs⟩ := addVector_on 1e-10 (B := []) ⟨by simp, .nil⟩ e1
  obtain ⟨e, e2⟩ := dependent_rejected 1e-10 (by norm_num) _ ((on_iff _).mpr hon) ((2 : ℝ) • v) (by
    rw [hs]
    exact Submodule.mem_sup_right (Submodule.smul_mem _ _ (Submodule.mem_span_singleton_self v)))
  simp only [accepted, e1, e2]

end Verif.Nullspace
