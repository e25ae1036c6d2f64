import Verif.Lemmas.Convertible
import Verif.Props.Collapse
/-!
# C05: exactly which composite expressions are converted
-/
namespace Verif.Collapse
open Verif

variable {K : Type} [CommRing K]

/-- **C05** (exact): an expression built by cbc.block is converted to an `m × n` matrix if and
only if it is in `Conv` with this size, i.e. sizes agree, operators which are no matrices give
one, transposes are of matrices, and numbers are factors or tiny summands. -/
theorem collapse_returns_iff (tiny : Tiny K) (e : Expr K) (hb : e.Built) (m n : Nat) :
    (∃ fuel M, collapse tiny fuel e = .ok (.mat M) ∧ M.rows = m ∧ M.cols = n) ↔
      Conv tiny e (some (m, n)) := by
  constructor
  · rintro ⟨f, M, h, rfl, rfl⟩
    exact (conv_of_collapse f f le_rfl).1 e _ hb h
  · intro h
    obtain ⟨v, ⟨f, hf⟩, hv⟩ := conv_total e.sz e _ le_rfl h
    obtain ⟨M, rfl, h1, h2⟩ := dims_mat hv
    exact ⟨f, M, hf f le_rfl, h1, h2⟩

/-- **C05** (exact): conversion returns a number only for a number. -/
theorem collapse_number_iff (tiny : Tiny K) (e : Expr K) (hb : e.Built) (c : K) :
    (∃ fuel, collapse tiny fuel e = .ok (.num c)) ↔ e = .num c := by
  constructor
  · rintro ⟨f, h⟩
    obtain ⟨c', rfl⟩ := ((conv_of_collapse f f le_rfl).1 e _ hb h : Conv tiny e none).none_num
    cases f with
    | zero => simp [collapse] at h
    | succ f => simp only [collapse, Except.ok.injEq, Val.num.injEq] at h; rw [h]
  · rintro rfl
    exact ⟨1, by simp [collapse]⟩

/-- The sample expression is built, and so is `A*2*B + 0`, which is converted. -/
example : sampleExpr.Built := by
  simp [sampleExpr, Expr.Built, builtChain, Expr.IsNum, Expr.IsMul]

example : Conv ratTiny (.add (.mul [.mat (Mat.lit 1 2 [[1, 2]]), .num 2,
    .op (.ok (Mat.lit 2 1 [[5], [7]]))]) (.num 0)) (some (1, 1)) :=
  .addNum (.mul (.cons (.mat _) (.cons (.num _) (.single (.op _)) rfl) rfl) rfl)
    (by simp [ratTiny])

/-- A difference with a number, the transpose of a product and a product of matrices whose
sizes do not agree are built but not converted. -/
example : ¬ ∃ m n, Conv ratTiny (.sub (.mat (Mat.lit 1 1 [[1]])) (.num 0)) (some (m, n)) := by
  rintro ⟨m, n, h⟩
  cases h with
  | sub _ h => cases h

example : ¬ ∃ m n, Conv ratTiny (.tr (.mul [.mat (Mat.lit 1 1 [[1]]), .num 2])) (some (m, n)) := by
  rintro ⟨m, n, h⟩
  cases h

open Classical in
/-- **C04** (without a condition on the numbers): what is returned acts as the expression in
which tiny numbers that are summands are zero. -/
theorem collapse_acts_dropped (tiny : Tiny K) (fuel : Nat) (e : Expr K) (hb : e.Built) (v : Val K)
    (h : collapse tiny fuel e = .ok v) : v.ActsAs (e.dropTiny tiny) := by
  have hz := (collapse_dropTiny (tz := fun c => decide (c = 0)) (by simp) fuel).1 e v hb h
  refine collapse_acts (fun c => decide (c = 0)) ⊤ (by simp) fuel _ ?_ v hz
  exact numsIn_top _

/-- `A*2 + 1E-15` is converted and acts as `A*2 + 0`. -/
example : (.add (.mul [.mat (Mat.lit 1 1 [[1]]), .num 2]) (.num (1 / 10 ^ 15)) : Expr ℚ).Built ∧
    ∃ fuel M, collapse ratTiny fuel (.add (.mul [.mat (Mat.lit 1 1 [[1]]), .num 2]) (.num (1 / 10 ^ 15)))
      = .ok (.mat M) ∧ M.rows = 1 ∧ M.cols = 1 := by
  have hb : (.add (.mul [.mat (Mat.lit 1 1 [[1]]), .num 2]) (.num (1 / 10 ^ 15)) : Expr ℚ).Built := by
    simp [Expr.Built, builtChain, Expr.IsNum, Expr.IsMul]
  refine ⟨hb, (collapse_returns_iff ratTiny _ hb 1 1).mpr ?_⟩
  refine .addNum (.mul (.cons (.mat _) (.single (.num _)) rfl) rfl) ?_
  simp only [ratTiny, decide_eq_true_eq]
  rw [abs_of_pos (by norm_num)]; norm_num

end Verif.Collapse
