import Mathlib.Algebra.Ring.Defs
import Verif.Spec.PetscWrap
import Verif.Lemmas.BlockOps
/-! # Lemmas on the operators handed to PETSc -/
namespace Verif.PetscWrap
open Verif BlockOps

variable {K : Type} [Semiring K]

theorem addVec_zero {y z : List K} (h : y.length = z.length) : addVec (y.map (fun v => v * 0)) z = .ok z := by
  unfold addVec
  rw [if_pos (by simpa using h)]
  congr 1
  induction y generalizing z with
  | nil =>
      cases z with
      | nil => rfl
      | cons b z => simp at h
  | cons a y ih =>
      cases z with
      | nil => simp at h
      | cons b z =>
          simp only [List.map_cons, List.zipWith_cons_cons, mul_zero, zero_add]
          simp only [mul_zero] at ih
          rw [ih (by simpa using h)]

theorem addNest_zero {y z : List (List K)} (h : SameShape y z) :
    addNest (y.map (fun b => b.map (fun v => v * 0))) z = .ok z := by
  induction y generalizing z with
  | nil =>
      cases z with
      | nil => rfl
      | cons b z => simp [SameShape] at h
  | cons a y ih =>
      cases z with
      | nil => simp [SameShape] at h
      | cons b z =>
          simp only [SameShape, List.map_cons, List.cons.injEq] at h
          simp only [List.map_cons, addNest, addVec_zero h.1, ih h.2, py_bind_ok]

theorem act_block {prod : List (List K) → Py (List (List K))} {x y z : List (List K)} (hp : prod x = .ok z)
    (hy : SameShape y z) : act true prod (.nest x) (.nest y) = .ok (.nest z) := by
  simp [act, subVecs, hp, scaleZero, axpyBlock, -mul_zero, addNest_zero hy]

theorem act_plain {prod : List (List K) → Py (List (List K))} {x y z : List K} (hp : prod [x] = .ok [z])
    (hy : y.length = z.length) : act false prod (.plain x) (.plain y) = .ok (.plain z) := by
  simp [act, wholeVec, hp, scaleZero, axpyPlain, -mul_zero, addVec_zero hy]

end Verif.PetscWrap
