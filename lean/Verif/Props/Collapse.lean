import Verif.Lemmas.Convert
import Mathlib.Tactic.NormNum
import Mathlib.Data.Rat.Defs
import Mathlib.Algebra.Order.Ring.Rat
import Mathlib.Algebra.Order.AbsoluteValue.Basic
/-!
# C04, C05, C08, C52: conversion of composites and block matrices
-/
namespace Verif.Collapse
open Verif

variable {K : Type} [CommRing K]

/-! ### C04 -/

/-- **C04** `ii_convert` of a composite.  Whatever is returned acts on every vector as the
expression does.  `tiny` is the test `abs(c) < 1E-14` of `collapse_add`; the numbers in the
expression come from a set `S`, closed under products, with no tiny member but zero. -/
theorem collapse_acts (tiny : Tiny K) (S : Submonoid K) (hS : ∀ c ∈ S, tiny c = true → c = 0)
    (fuel : Nat) (e : Expr K) (he : e.NumsIn (· ∈ S)) (v : Val K)
    (h : collapse tiny fuel e = .ok v) : v.ActsAs e :=
  (actsAs_iff v e).mpr ((collapse_good tiny S hS fuel).1 e v h he).1

/-- The test of the code over the rationals. -/
def ratTiny : Tiny ℚ := fun c => decide (|c| < 1 / 10 ^ 14)

/-- The integers as numbers without tiny members. -/
def intNums : Submonoid ℚ where
  carrier := {c | ∃ n : ℤ, c = n}
  mul_mem' := by
    rintro a b ⟨m, rfl⟩ ⟨n, rfl⟩
    exact ⟨m * n, by push_cast; rfl⟩
  one_mem' := ⟨1, by norm_num⟩

theorem intNums_not_tiny : ∀ c ∈ intNums, ratTiny c = true → c = 0 := by
  rintro c ⟨n, rfl⟩ h
  simp only [ratTiny, decide_eq_true_eq] at h
  have h1 : |(n : ℚ)| < 1 := lt_trans h (by norm_num)
  have h2 : |n| < 1 := by exact_mod_cast h1
  have : n = 0 := Int.abs_lt_one_iff.mp h2
  simp [this]

/-- A sample expression `A*3*B' - C`. -/
def sampleExpr : Expr ℚ :=
  .sub (.mul [.mat (Mat.lit 1 2 [[1, 2]]), .num 3, .tr (.mat (Mat.lit 1 2 [[5, 7]]))])
    (.mat (Mat.lit 1 1 [[4]]))

theorem sampleExpr_dims : HasDims sampleExpr (some (1, 1)) :=
  .sub (.mul (.cons (.mat _) (.cons (.num _) (.single (.trmat _)) rfl) rfl) rfl) (.mat _)

example : sampleExpr.NumsIn (· ∈ intNums) ∧ ∃ fuel v, collapse ratTiny fuel sampleExpr = .ok v := by
  refine ⟨?_, ?_⟩
  · simp only [sampleExpr, Expr.NumsIn, numsInChain]
    exact ⟨⟨trivial, ⟨3, by norm_num⟩, trivial, trivial⟩, trivial⟩
  · obtain ⟨v, hv, _⟩ := collapse_conforming sampleExpr_dims
    obtain ⟨f, hf⟩ := hv ratTiny
    exact ⟨f, v, hf f le_rfl⟩

/-- The hypothesis on tiny numbers is needed: `A + 1E-15` is converted to `A`, which acts
differently. -/
theorem collapse_drops_tiny :
    ∃ (e : Expr ℚ) (v : Val ℚ), collapse ratTiny 5 e = .ok v ∧ ¬ v.ActsAs e := by
  refine ⟨.add (.mat (Mat.lit 1 1 [[1]])) (.num (1 / 10 ^ 15)), .mat (Mat.lit 1 1 [[1]]), ?_, ?_⟩
  · have ht : ratTiny (1 / 10 ^ 15) = true := by
      simp only [ratTiny, decide_eq_true_eq]
      rw [abs_of_pos (by norm_num)]; norm_num
    simp only [collapse, collapseAdd, ht, if_true]
  · intro h
    have := h (fun _ => 1) 0
    simp only [Expr.act] at this
    norm_num at this

/-! ### C05 -/

/-- **C05** (a part): every conforming expression, of any depth, in which numbers are
factors and transposes are of matrices, is converted to a matrix of the right size and
action. -/
theorem collapse_returns_partial (tiny : Tiny K) (e : Expr K) (m n : Nat)
    (h : HasDims e (some (m, n))) :
    ∃ M : Mat K, M.rows = m ∧ M.cols = n ∧ (Val.mat M).ActsAs e ∧
      ∃ f, ∀ g, f ≤ g → collapse tiny g e = .ok (.mat M) := by
  obtain ⟨v, hv, hd, ha⟩ := collapse_conforming h
  obtain ⟨M, rfl, hr, hc⟩ := dims_mat hd
  exact ⟨M, hr, hc, (actsAs_iff _ _).mpr ha, hv tiny⟩

example : HasDims (.sub (.mul [.num 2, .mat (Mat.lit 1 2 [[1, 2]]), .tr (.mat (Mat.lit 1 2 [[5, 7]]))])
    (.mat (Mat.lit 1 1 [[4]])) : Expr ℚ) (some (1, 1)) :=
  .sub (.mul (.cons (.num _) (.cons (.mat _) (.single (.trmat _)) rfl) rfl) rfl) (.mat _)

/-- **C05** is false: the transpose of anything which is not already a matrix is never
converted, `collapse_tr` recurses on the same expression (convert.py:149). -/
theorem collapse_transpose_diverges (tiny : Tiny K) (e : Expr K) (h : ∀ M, e ≠ .mat M) :
    ∀ fuel, collapse tiny fuel (.tr e) = .error .outOfFuel := by
  intro fuel
  induction fuel using Nat.strong_induction_on with
  | _ fuel ih =>
    match fuel with
    | 0 => simp [collapse]
    | 1 => simp [collapse, collapseTr]
    | fuel + 2 =>
        have := ih fuel (by omega)
        simp only [collapse]
        rw [collapseTr]
        · rw [this]
        · exact fun M hM => h M hM

/-- **C05** is false: a matrix plus a number (not tiny) is never converted
(convert.py:169). -/
theorem collapse_add_number_diverges (tiny : Tiny K) (M : Mat K) (c : K) (h : tiny c = false) :
    ∀ fuel, collapse tiny fuel (.add (.mat M) (.num c)) = .error .outOfFuel ∧
      collapse tiny fuel (.add (.num c) (.mat M)) = .error .outOfFuel := by
  have key : ∀ fuel, collapseAdd tiny fuel (.mat M) (.num c) = .error .outOfFuel ∧
      collapseAdd tiny fuel (.num c) (.mat M) = .error .outOfFuel := by
    intro fuel
    induction fuel using Nat.strong_induction_on with
    | _ fuel ih =>
      match fuel with
      | 0 => simp [collapseAdd]
      | 1 => simp [collapseAdd, h, collapseAddRec]
      | 2 => simp [collapseAdd, h, collapseAddRec, collapse]
      | fuel + 3 =>
          have h1 := ih (fuel + 1) (by omega)
          constructor
          · rw [collapseAdd, if_neg (by simp [h])]
            simp only [collapseAddRec, collapse, py_bind_ok, Val.expr]
            exact h1.1
          · rw [collapseAdd, if_neg (by simp [h])]
            simp only [collapseAddRec, collapse, py_bind_ok, Val.expr]
            exact h1.2
  intro fuel
  cases fuel with
  | zero => simp [collapse]
  | succ fuel => simpa only [collapse] using key fuel

/-- **C05** is false: a matrix minus a number, even minus zero, is never converted
(convert.py:185). -/
theorem collapse_sub_number_diverges (tiny : Tiny K) (M : Mat K) (c : K) :
    ∀ fuel, collapse tiny fuel (.sub (.mat M) (.num c)) = .error .outOfFuel := by
  have key : ∀ fuel, collapseSub tiny fuel (.mat M) (.num c) = .error .outOfFuel := by
    intro fuel
    induction fuel with
    | zero => simp [collapseSub]
    | succ fuel ih =>
        match fuel with
        | 0 => simp [collapseSub, collapse]
        | fuel + 1 =>
            rw [collapseSub]
            · simp only [collapse, py_bind_ok, Val.expr]
              exact ih
            · intro M N _ h2; cases h2
  intro fuel
  cases fuel with
  | zero => simp [collapse]
  | succ fuel => simpa only [collapse] using key fuel

/-! ### C08 -/

/-- **C08** (numbers off the diagonal must be zero): a conforming block matrix is converted
to a matrix whose product with the concatenation of the blocks of `x` is the
concatenation of the blocks of `A*x`. -/
theorem convert_acts_partial (tiny : Tiny K) (rs cs : List Nat) (blocks : List (List (Expr K)))
    (h : Conforming rs cs blocks) :
    ∃ M : Mat K, M.rows = rs.sum ∧ M.cols = cs.sum ∧
      (∃ f, ∀ g, f ≤ g → convertMat tiny g rs cs blocks = .ok M) ∧
      ∀ xs : List (List K), xs.map List.length = cs →
        ∀ i, M.act (fnOf (convertVec xs)) i = fnOf (convertVec (blockAct rs blocks xs)) i := by
  obtain ⟨ms, h1, h2, _, h4⟩ := convertRows_ok cs blocks rs 0 h.1 (by
    intro q row r hq hr
    obtain ⟨a, b⟩ := h.2 q row r hq hr
    exact ⟨a, by simpa using b⟩)
  refine ⟨vcat cs.sum ms, by rw [vcat_rows, h2], by rw [vcat_cols], ?_, fun xs hxs i => h4 xs hxs i⟩
  obtain ⟨f, hf⟩ := h1 tiny
  exact ⟨f, fun g hg => by simp [convertMat, hf g hg]⟩

example : Conforming [1, 2] [1, 2]
    [[.num 5, .mul [.num 2, .mat (Mat.lit 1 2 [[1, 2]])]],
     [.num 0, .num (7 : ℚ)]] := by
  refine ⟨rfl, ?_⟩
  intro i row r hi hr
  match i with
  | 0 =>
      simp only [List.getElem?_cons_zero, Option.some.injEq] at hi hr
      subst hi hr
      refine ⟨rfl, fun j e c he hc => ?_⟩
      match j with
      | 0 =>
          simp only [List.getElem?_cons_zero, Option.some.injEq] at he hc
          subst he hc
          exact Or.inr (Or.inr ⟨⟨5, rfl⟩, rfl, rfl⟩)
      | 1 =>
          simp only [List.getElem?_cons_zero, List.getElem?_cons_succ, Option.some.injEq] at he hc
          subst he hc
          exact Or.inl (.mul (.cons (.num _) (.single (.mat _)) rfl) rfl)
      | j + 2 => simp at he
  | 1 =>
      simp only [List.getElem?_cons_zero, List.getElem?_cons_succ, Option.some.injEq] at hi hr
      subst hi hr
      refine ⟨rfl, fun j e c he hc => ?_⟩
      match j with
      | 0 =>
          simp only [List.getElem?_cons_zero, Option.some.injEq] at he hc
          subst he hc
          exact Or.inr (Or.inl rfl)
      | 1 =>
          simp only [List.getElem?_cons_zero, List.getElem?_cons_succ, Option.some.injEq] at he hc
          subst he hc
          exact Or.inr (Or.inr ⟨⟨7, rfl⟩, rfl, rfl⟩)
      | j + 2 => simp at he
  | i + 2 => simp at hi

/-- **C08** is false for nonzero numbers off the diagonal: `[[I, 2], [0, I]]` is converted
without error to the identity (convert.py:52-54). -/
theorem convert_drops_offdiagonal :
    ∃ (blocks : List (List (Expr ℚ))) (M : Mat ℚ) (xs : List (List ℚ)),
      convertMat ratTiny 5 [1, 1] [1, 1] blocks = .ok M ∧ xs.map List.length = [1, 1] ∧
      M.act (fnOf (convertVec xs)) 0 ≠ fnOf (convertVec (blockAct [1, 1] blocks xs)) 0 := by
  refine ⟨[[.num 1, .num 2], [.num 0, .num 1]],
    vcat 2 [hcat 1 [Mat.diag 1 1, Mat.zero 1 1], hcat 1 [Mat.zero 1 1, Mat.diag 1 1]],
    [[0], [1]], ?_, rfl, ?_⟩
  · simp [convertMat, convertRows, convertRow, collapse, blockMatrix, bmatRow, Mat.diag, Mat.zero]
  · rw [vcat_act _ _ _ (by simp [hcat_cols, Mat.diag, Mat.zero]), hcat_rows, if_pos (by norm_num),
      hcat_act _ _ _ (by simp [Mat.diag]), hcat_act _ _ _ (by simp [Mat.zero])]
    simp [hcat, Mat.diag_act, Mat.zero_act, convertVec, fnOf, blockAct, rowAct, Expr.act]

/-! ### C52 -/

/-- **C52** (products have their numbers last, or are a number times one operator):
`get_dims` returns the size of the matrix to which the expression is converted. -/
theorem get_dims_partial (e : Expr K) (m n : Nat) (hd : HasDims e (some (m, n))) (hn : NumsLast e) :
    (∀ fuel, e.sz ≤ fuel → getDims fuel e = .ok (some (m, n))) ∧
    ∃ M : Mat K, M.rows = m ∧ M.cols = n ∧
      ∀ tiny, ∃ f, ∀ g, f ≤ g → collapse tiny g e = .ok (.mat M) := by
  refine ⟨fun fuel hf => getDims_conforming e.sz e _ le_rfl hn hd fuel hf, ?_⟩
  obtain ⟨v, hv, hdim, _⟩ := collapse_conforming hd
  obtain ⟨M, rfl, hr, hc⟩ := dims_mat hdim
  exact ⟨M, hr, hc, hv⟩

example : NumsLast (.sub (.mul [.mat (Mat.lit 1 2 [[1, 2]]), .tr (.mat (Mat.lit 1 2 [[5, 7]])), .num 2])
    (.mul [.num 3, .mat (Mat.lit 1 1 [[4]])]) : Expr ℚ) :=
  .sub (.mul (.cons (.mat _) (.cons (.tr (.mat _)) (.cons (.num _) .nil))) (by simp [OpsThenNums])
    (by simp)) (.scale (.mat _))

/-- **C52** is false in general: for `2*A*B` the size of `A` is returned, and for
`2*(3*A)` none (convert.py:314-317). -/
theorem get_dims_wrong (A B : Mat K) (hAB : A.cols = B.rows) (hne : B.cols ≠ B.rows) (c d : K) :
    (∃ m n, HasDims (.mul [.num c, .mat A, .mat B]) (some (m, n)) ∧ ∀ fuel,
      getDims (fuel + 2) (.mul [.num c, .mat A, .mat B]) ≠ .ok (some (m, n))) ∧
    (HasDims (.mul [.num c, .num d, .mat A]) (some (A.rows, A.cols)) ∧
      ∀ fuel, getDims (fuel + 2) (.mul [.num c, .num d, .mat A]) = .ok none) := by
  refine ⟨⟨A.rows, B.cols, ?_, ?_⟩, ?_, ?_⟩
  · exact .mul (.cons (.num c) (.cons (.mat A) (.single (.mat B)) (by simp [Dims.comb, hAB])) rfl) rfl
  · intro fuel
    simp only [getDims, py_bind_ok, ne_eq, Except.ok.injEq, Option.some.injEq, Prod.mk.injEq, true_and]
    intro h
    exact hne (by rw [← h, hAB])
  · exact .mul (.cons (.num c) (.cons (.num d) (.single (.mat A)) rfl) rfl) rfl
  · intro fuel
    simp only [getDims, py_bind_ok]

end Verif.Collapse
