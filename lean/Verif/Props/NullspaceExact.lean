import Verif.Props.Nullspace
import Verif.Spec.NullspaceExact
import Verif.Lemmas.NullspaceExact
/-!
# C98: which vectors `BlockNullspace.add_vector` accepts
-/
namespace Verif.Nullspace
open Verif
open scoped InnerProductSpace

variable {E : Type} [NormedAddCommGroup E] [InnerProductSpace ℝ E]

/-- **C98**.  For every orthonormal list, vector and tolerance not below 0: the vector is accepted exactly if it
is not zero and, for each vector `b` of the list, its component along `b` is less than `1 - tol` times
the norm of what is left of it after the vectors before `b`.  Then the list is extended by the normalised rest. -/
theorem accepted_iff (tol : ℝ) (ht : 0 ≤ tol) (B : List E) (hB : OrthonormalList B) (v : E) :
    (addVector tol B v = .ok (B ++ [(1 / ‖rest B v‖) • rest B v]) ↔
      v ≠ 0 ∧ ∀ (i : Nat) (b : E), B[i]? = some b → |⟪v, b⟫_ℝ| < (1 - tol) * ‖rest (B.take i) v‖) ∧
    ((∃ B', addVector tol B v = .ok B') ↔ addVector tol B v = .ok (B ++ [(1 / ‖rest B v‖) • rest B v])) := by
  have h := (on_iff B).mp hB
  have key : (∃ B', addVector tol B v = .ok B') ↔
      addVector tol B v = .ok (B ++ [(1 / ‖rest B v‖) • rest B v]) := by
    constructor
    · rintro ⟨B', h1⟩
      obtain ⟨_, h2⟩ := addVector_ok tol h h1
      rw [h1, h2, orthogonalize_rest h]
    · exact fun h1 => ⟨_, h1⟩
  refine ⟨?_, key⟩
  rw [← key, ← addLoop_iff tol h]
  constructor
  · rintro ⟨B', h1⟩
    obtain ⟨w, h2, h3⟩ := py_bind_eq_ok.mp h1
    refine ⟨?_, w, h2⟩
    rintro rfl
    obtain ⟨e, he⟩ := dependent_rejected tol ht B hB 0 (Submodule.zero_mem _)
    rw [h1] at he
    cases he
  · rintro ⟨hv, w, hw⟩
    have hr : w = rest B v := by rw [addLoop_ok tol h hw, orthogonalize_rest h]
    have hne : rest B v ≠ 0 := by
      intro hz
      have hmem : v ∈ spanOf B := by
        have := (orthogonalize_spec h v).2
        rw [orthogonalize_rest h, hz, sub_zero] at this
        exact this
      have := addLoop_span tol ht h hmem hv
      rw [hw] at this
      cases this
    refine ⟨B ++ [(1 / ‖w‖) • w], ?_⟩
    rw [addVector, hw, py_bind_ok, if_neg]
    rw [hr, norm_eq_zero]
    exact hne

/-- A vector at a right angle to the list is accepted. -/
example (e1 e2 : E) (h : OrthonormalList [e1, e2]) : ∃ B', addVector 1e-10 [e1] e2 = .ok B' := by
  have hon := (on_iff _).mp h
  have h1 : OrthonormalList [e1] := by
    refine (on_iff _).mpr ⟨fun b hb => hon.unit b (by simp at hb ⊢; exact Or.inl hb), List.pairwise_singleton _ _⟩
  have h12 : ⟪e2, e1⟫_ℝ = 0 := by rw [real_inner_comm]; exact hon.head e2 (by simp)
  have h2 : ‖e2‖ ≠ 0 := by
    have := hon.unit e2 (by simp)
    rw [real_inner_self_eq_norm_sq] at this
    intro h0
    rw [h0] at this
    norm_num at this
  obtain ⟨a, b⟩ := accepted_iff 1e-10 (by norm_num) [e1] h1 e2
  refine b.2 (a.2 ⟨by simpa using h2, ?_⟩)
  intro i b hi
  rcases i with _ | i
  · obtain rfl : e1 = b := by simpa using hi
    rw [h12]
    have : 0 < ‖e2‖ := lt_of_le_of_ne (norm_nonneg _) (Ne.symm h2)
    simp [rest]
    exact mul_pos (by norm_num) this
  · simp at hi

end Verif.Nullspace
