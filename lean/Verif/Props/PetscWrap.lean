import Mathlib.Algebra.Ring.Int.Defs
import Mathlib.Data.Matrix.Mul
import Mathlib.Tactic.NormNum
import Mathlib.Data.Fin.VecNotation
import Verif.Lemmas.PetscWrap
/-! # Properties of the operators handed to PETSc -/
namespace Verif.PetscWrap
open Verif BlockOps

variable {K : Type} [Semiring K]

/-- Multiplication by an operator on block vectors overwrites `y` by the product, whatever `y` was. -/
theorem mult_block_partial {A : Op K} (hb : A.isBlock = true) {x y z : List (List K)} (hp : A.apply x = .ok z)
    (hy : SameShape y z) : mult A (.nest x) (.nest y) = .ok (.nest z) := by
  rw [mult, hb]
  exact act_block hp hy

/-- The same for the transpose. -/
theorem multTranspose_block {A : Op K} (hb : A.isBlock = true) {x y z : List (List K)} (hp : A.applyT x = .ok z)
    (hy : SameShape y z) : multTranspose A (.nest x) (.nest y) = .ok (.nest z) := by
  rw [multTranspose, hb]
  exact act_block hp hy

/-- Multiplication by an operator on vectors overwrites `y` by the product. -/
theorem mult_plain {A : Op K} (hb : A.isBlock = false) {x y z : List K} (hp : A.apply [x] = .ok [z])
    (hy : y.length = z.length) : mult A (.plain x) (.plain y) = .ok (.plain z) := by
  rw [mult, hb]
  exact act_plain hp hy

/-- The same for the transpose. -/
theorem multTranspose_plain {A : Op K} (hb : A.isBlock = false) {x y z : List K} (hp : A.applyT [x] = .ok [z])
    (hy : y.length = z.length) : multTranspose A (.plain x) (.plain y) = .ok (.plain z) := by
  rw [multTranspose, hb]
  exact act_plain hp hy

/-- The operator which reverses the blocks and doubles them. -/
def exampleOp (isBlock : Bool) : Op Int where
  isBlock := isBlock
  apply bs := .ok (bs.reverse.map (fun b => b.map (fun v => 2 * v)))
  applyT bs := .ok (bs.reverse.map (fun b => b.map (fun v => 2 * v)))

example : mult (exampleOp true) (.nest [[1], [2, 3]]) (.nest [[7, 7], [7]]) = .ok (.nest [[4, 6], [2]]) :=
  mult_block_partial rfl rfl (by simp [SameShape])

example : multTranspose (exampleOp false) (.plain [1, 2]) (.plain [7, 7]) = .ok (.plain [2, 4]) :=
  multTranspose_plain rfl rfl rfl

/-- Operators on block vectors refuse vectors which are not nested. -/
theorem mult_not_nested {A : Op K} (hb : A.isBlock = true) (x : List K) (y : PVec K) :
    mult A (.plain x) y = .error .runtimeError := by
  simp [mult, hb, act, subVecs]

/-- Without the argument no null space is attached. -/
theorem no_nullspace {n : Nat} : attachedNullspace (n := n) none = none := rfl

/-- The null space attached is one of the operator exactly when the vectors are in its kernel and constants are,
too. -/
theorem nullspace_correct_iff {n m : Nat} (A : (Fin n → ℝ) →ₗ[ℝ] (Fin m → ℝ)) (vs : List (Fin n → ℝ)) :
    (∃ Z, attachedNullspace (some vs) = some Z ∧ ∀ x ∈ Z, A x = 0) ↔ (∀ v ∈ vs, A v = 0) ∧ A (fun _ => 1) = 0 := by
  constructor
  · rintro ⟨Z, hZ, h⟩
    simp only [attachedNullspace, Option.some.injEq] at hZ
    subst hZ
    exact ⟨fun v hv => h v (Submodule.subset_span (Or.inr hv)), h _ (Submodule.subset_span (Or.inl rfl))⟩
  · rintro ⟨hv, h1⟩
    refine ⟨_, rfl, fun x hx => ?_⟩
    have : Submodule.span ℝ ({fun _ => 1} ∪ {v | v ∈ vs}) ≤ LinearMap.ker A := by
      rw [Submodule.span_le]
      rintro v (rfl | hm)
      · exact h1
      · exact hv v hm
    exact this hx

/-- False of operators whose kernel does not contain constants: with its own kernel as the argument, vectors
are declared to be null which are not. -/
theorem nullspace_wrong :
    ∃ (A : (Fin 2 → ℝ) →ₗ[ℝ] (Fin 2 → ℝ)) (vs : List (Fin 2 → ℝ)) (Z : Submodule ℝ (Fin 2 → ℝ)),
      (∀ x, A x = 0 ↔ x ∈ Submodule.span ℝ {v | v ∈ vs}) ∧ attachedNullspace (some vs) = some Z ∧
      ∃ x ∈ Z, A x ≠ 0 := by
  refine ⟨LinearMap.pi ![LinearMap.proj 0, 0], [![0, 1]], _, ?_, rfl, fun _ => 1,
    Submodule.subset_span (Or.inl rfl), ?_⟩
  · intro x
    have he : {v : Fin 2 → ℝ | v ∈ [![(0 : ℝ), 1]]} = {![0, 1]} := by
      ext v
      simp
    rw [he, Submodule.mem_span_singleton]
    constructor
    · intro h
      have h0 := congrFun h 0
      simp at h0
      refine ⟨x 1, ?_⟩
      ext i
      fin_cases i <;> simp [h0]
    · rintro ⟨a, rfl⟩
      ext i
      fin_cases i <;> simp
  · intro h
    have h0 := congrFun h 0
    simp at h0

end Verif.PetscWrap
