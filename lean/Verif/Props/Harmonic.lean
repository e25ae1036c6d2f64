import Verif.Spec.Harmonic
import Verif.Props.MatFree
import Mathlib.Algebra.Order.Field.Rat
import Mathlib.Tactic.Linarith
import Mathlib.Tactic.NormNum
import Mathlib.LinearAlgebra.Matrix.Notation
/-!
# C77: the harmonic extension
-/
namespace Verif.Harmonic
open Verif Verif.MatFree Matrix
variable {K : Type} [CommRing K] {n t v x q : Nat}

/-- The matrix returned applies to every `f` as: solve the screened problem (not the one which is documented) with
    the load `f`, take the trace on the extended mesh. -/
theorem harmonic_solves_screened_partial {solve : Solver K} (hs : SolvesRegular solve) {F : Forms K n t v x q}
    (h1 : IsUnit (F.stiffness + F.mass).det) (h2 : IsUnit F.extMass.det) (hv : 0 < v) {marks : List Nat}
    (hm : 1 ∈ marks) :
    ∃ E, harmonicExtension solve 2 2 2 marks F 0 = .ok E ∧
      ∀ f, ∃ u, SolvesScreened F f u ∧ IsTraceOf F (E *ᵥ f) u := by
  have hsol : ∀ (k : Nat) (A : Matrix (Fin k) (Fin k) K) b, IsUnit A.det → solve k A b = .ok (A⁻¹ *ᵥ b) := by
    intro k A b hA
    obtain ⟨y, hy, e⟩ := hs k A b hA
    rw [hy, ← e, mulVec_mulVec, nonsing_inv_mul A hA, one_mulVec]
  let W : Matrix (Fin q) (Fin v) K :=
    F.extMass⁻¹ * (F.ext * (F.traceExt * ((F.stiffness + F.mass)⁻¹ * (F.traceCurveᵀ * F.curve))))
  have hop : ∀ f, matvec solve F f = .ok (Matrix.toLin' W f) := by
    intro f
    rw [matvec, hsol _ _ _ h1, py_bind_ok, hsol _ _ _ h2, toLin'_apply]
    simp only [W, mulVec_mulVec, Matrix.mul_assoc]
  obtain ⟨E, hE, hc⟩ := femCollapse_acts_partial hv (matvec solve F) (Matrix.toLin' W) hop
  have hc0 := hc []
  rw [FemOp.calls] at hc0
  obtain ⟨r, hr, hrest⟩ := py_bind_eq_ok.1 hc0
  rw [FemOp.calls, py_bind_ok] at hrest
  have hrE : r.1 = E := by simpa using hrest
  refine ⟨E, ?_, fun f => ⟨(F.stiffness + F.mass)⁻¹ *ᵥ load F f, ?_, ?_⟩⟩
  · have hm' : marks.contains 1 = true := by simpa using hm
    rw [harmonicExtension, hm']
    simp only [decide_true, Bool.and_self, pyAssert_true, py_bind_ok, hr, hrE]
  · rw [SolvesScreened, ← add_mulVec, mulVec_mulVec, mul_nonsing_inv _ h1, one_mulVec]
  · have := hE f
    rw [hop f] at this
    have hEf : E *ᵥ f = W *ᵥ f := by simpa using this
    rw [IsTraceOf, hEf, mulVec_mulVec, load]
    simp only [W, mulVec_mulVec, ← Matrix.mul_assoc]
    rw [mul_nonsing_inv _ h2, Matrix.one_mul]

/-- The marking of the facets has no influence, besides that some facet must be marked by 1. -/
theorem harmonic_ignores_marks (solve : Solver K) (F : Forms K n t v x q) (x0 : Fin v → K) {marks marks' : List Nat}
    (h : 1 ∈ marks) (h' : 1 ∈ marks') :
    harmonicExtension solve 2 2 2 marks F x0 = harmonicExtension solve 2 2 2 marks' F x0 := by
  have h1 : marks.contains 1 = true := by simpa using h
  have h2 : marks'.contains 1 = true := by simpa using h'
  rw [harmonicExtension, harmonicExtension, h1, h2]

theorem harmonic_refuses (solve : Solver K) (F : Forms K n t v x q) (x0 : Fin v → K) (a b c : Nat) (marks : List Nat)
    (h : ¬ (a = 2 ∧ b = 2 ∧ c = 2 ∧ 1 ∈ marks)) :
    harmonicExtension solve a b c marks F x0 = .error .assertion := by
  rw [harmonicExtension]
  by_cases ha : a = 2
  · by_cases hb : b = 2
    · by_cases hc : c = 2
      · have hm : 1 ∉ marks := fun hm => h ⟨ha, hb, hc, hm⟩
        simp [ha, hb, hc, hm]
      · simp [ha, hb, hc]
    · simp [ha, hb]
  · simp [ha]

/-- Matrices of linear elements on an interval of length one; all the other ones are identities. -/
def sampleForms : Forms ℚ 2 2 2 2 2 :=
  ⟨!![1, -1; -1, 1], !![1 / 3, 1 / 6; 1 / 6, 1 / 3], 1, 1, 1, 1, 1⟩

/-- Solution by the inverse matrix. -/
noncomputable def inverseSolver : Solver ℚ := fun _ A b => .ok (A⁻¹ *ᵥ b)

theorem inverseSolver_ok : SolvesRegular inverseSolver := by
  intro k A b hA
  exact ⟨_, rfl, by rw [mulVec_mulVec, mul_nonsing_inv _ hA, one_mulVec]⟩

theorem sampleForms_regular :
    IsUnit (sampleForms.stiffness + sampleForms.mass).det ∧ IsUnit sampleForms.extMass.det := by
  constructor
  · rw [isUnit_iff_ne_zero, det_fin_two]
    simp [sampleForms]
    norm_num
  · simp [sampleForms]

/-- The result is not the trace of a solution of the documented problem. -/
theorem harmonic_not_documented :
    ∃ (E : Matrix (Fin 2) (Fin 2) ℚ) (f : Fin 2 → ℚ),
      harmonicExtension inverseSolver 2 2 2 [0, 1] sampleForms 0 = .ok E ∧
      ¬ ∃ u, SolvesDocumented sampleForms (fun i => i = 0) f u ∧ IsTraceOf sampleForms (E *ᵥ f) u := by
  obtain ⟨E, hE, hf⟩ := harmonic_solves_screened_partial inverseSolver_ok sampleForms_regular.1
    sampleForms_regular.2 (by decide) (marks := [0, 1]) (by simp)
  refine ⟨E, ![0, 1], hE, ?_⟩
  rintro ⟨u, ⟨hd, _⟩, hu⟩
  obtain ⟨w, hw, hwu⟩ := hf ![0, 1]
  have e : w = u := by
    have h1 : E *ᵥ ![0, 1] = u := by simpa [IsTraceOf, sampleForms] using hu
    have h2 : E *ᵥ ![0, 1] = w := by simpa [IsTraceOf, sampleForms] using hwu
    exact h2.symm.trans h1
  subst e
  have h0 : w 0 = 0 := hd 0 rfl
  have r0 := congrFun hw 0
  have r1 := congrFun hw 1
  simp [load, sampleForms, mulVec, dotProduct, Fin.sum_univ_two, h0] at r0 r1
  linarith

end Verif.Harmonic
