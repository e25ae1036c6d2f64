import Verif.Props.ApplyBc
import Verif.Props.UpdaterExact
/-!
# A system with boundary conditions

The theorems on `apply_bc` (C10 - C14, C89) for blocks of sizes 1 and 2, with conditions on both.
-/
namespace Verif.ApplyBc.Examples
open Verif BlockOps Collapse ApplyBc

/-- Matrices and numbers: the rows are `1 2 3`, `0 7 0` and `0 0 7`. -/
def blocks : List (List (Expr ℚ)) :=
  [[.mat (Mat.lit 1 1 [[1]]), .mat (Mat.lit 1 2 [[2, 3]])], [.num 0, .num 7]]

theorem conforming : Conforming [1, 2] [1, 2] blocks := by
  refine ⟨rfl, ?_⟩
  intro i row r hi hr
  match i with
  | 0 =>
      simp only [blocks, List.getElem?_cons_zero, Option.some.injEq] at hi hr
      subst hi hr
      refine ⟨rfl, ?_⟩
      intro j e c he hc
      match j with
      | 0 => simp only [List.getElem?_cons_zero, Option.some.injEq] at he hc; subst he hc
             exact Or.inl (.mat _)
      | 1 => simp at he hc; subst he hc; exact Or.inl (.mat _)
      | j + 2 => simp at he
  | 1 =>
      simp [blocks] at hi hr
      subst hi hr
      refine ⟨rfl, ?_⟩
      intro j e c he hc
      match j with
      | 0 => simp at he hc; subst he hc; exact Or.inr (Or.inl rfl)
      | 1 => simp at he hc; subst he hc; exact Or.inr (Or.inr ⟨⟨7, rfl⟩, rfl, rfl⟩)
      | j + 2 => simp at he
  | i + 2 => simp [blocks] at hi

/-- A `DirichletBC` for the first block, a `DirichletBC` and a dictionary for the second. -/
def bcs : BcArg ℚ := .list [.dir [(0, 5)], .list [.dir [(1, 6)], .dict [(1, 7)]]]

def data : List (List (Nat × ℚ)) := [[(0, 5)], [(1, 6), (1, 7)]]

theorem blockBcs : BlockBcs 2 bcs data :=
  .list rfl (.cons (.dir _) (.cons (.list (ds := [[(1, 6)], [(1, 7)]]) (.cons (.dir _) (.cons (.dict _) .nil))) .nil))

theorem inRange : InRange [1, 2] data := by
  intro k d v n h1 h2
  match k with
  | 0 => simp [data] at h1 h2; omega
  | 1 => simp [data] at h1 h2; omega
  | k + 2 => simp at h2

theorem constrains : Constrains data := ⟨[(0, 5)], by simp [data], by simp⟩

theorem vec : VecIs [1, 2] (.block [[1], [2, 3]]) [[(1 : ℚ)], [2, 3]] := .block rfl

example := applyBc_solutions noTiny [1, 2] blocks conforming _ _ vec bcs data blockBcs inRange constrains 2 (by norm_num) true
example := applyBc_solutions noTiny [1, 2] blocks conforming _ _ .none bcs data blockBcs inRange constrains 1 (by norm_num) false
example := applyBc_imposes noTiny [1, 2] blocks conforming _ _ vec bcs data blockBcs inRange constrains 2 (by norm_num) true
example := applyBc_contract_partial noTiny [1, 2] blocks conforming _ _ vec bcs data blockBcs inRange constrains 2 true
example := return_apply_b_unbound noTiny [1, 2] blocks conforming _ _ vec bcs data blockBcs inRange constrains 2
example := applyBc_no_dofs noTiny [1, 2] blocks conforming [[1], [2, 3]] rfl 1 rfl 2 true false
example := applyBc_nothing noTiny 0 (.block [1, 2] [1, 2] blocks) (.block [[1], [2, 3]]) 2 true true (.list [.list [], .list []])
  (.inr (.inr (.inr ⟨2, rfl⟩)))

/-- A right-hand side of another size is refused. -/
example := applyBc_rejects_sizes noTiny [1, 2] [1, 2] blocks conforming [[1], [2]] rfl bcs data blockBcs constrains (by decide) 1
  true false

/-- The values at the same dofs change from 5 and 6 to 8 and 9. -/
theorem sameDofs : SameDofs [[[(0, (5 : ℚ))]], [[(1, 6)]]] [[[(0, 8)]], [[(1, 9)]]] := rfl

theorem inRange' : InRange [1, 2] (([[[(0, (5 : ℚ))]], [[(1, 6)]]] : List (List (List (Nat × ℚ)))).map List.flatten) := by
  intro k d v n h1 h2
  match k with
  | 0 => simp at h1 h2; omega
  | 1 => simp at h1 h2; omega
  | k + 2 => simp at h2

example := updater_agrees_partial noTiny [1, 2] blocks conforming [[1], [2, 3]] [[4], [5, 6]] rfl rfl _ _ rfl sameDofs inRange'
  ⟨[(0, 5)], by simp, by simp⟩
example := updater_entries noTiny [1, 2] blocks conforming [[1], [2, 3]] [[4], [5, 6]] rfl rfl _ _ rfl sameDofs inRange'
  ⟨[(0, 5)], by simp, by simp⟩ 3

/-- A matrix. -/
example := applyBc_plain_solutions noTiny 2 (Mat.lit 2 2 [[1, 2], [3, 4]]) ⟨rfl, rfl⟩ [5, 6] rfl (.dir [(1, 7)]) _ (.group (.dir _))
  (by simp) (by simp) 2 (by norm_num) true false
example := return_apply_b_plain_ignored noTiny 2 (Mat.lit 2 2 [[1, 2], [3, 4]]) ⟨rfl, rfl⟩ [5, 6] rfl (.dir [(1, 7)]) _
  (.group (.dir _)) (by simp) (by simp) true

/-- A symmetric and positive definite matrix. -/
def spd : List (List (Expr ℚ)) := [[.num 3, .mat (Mat.lit 1 1 [[1]])], [.mat (Mat.lit 1 1 [[1]]), .num 2]]

theorem spd_conforming : Conforming [1, 1] [1, 1] spd := by
  refine ⟨rfl, ?_⟩
  intro i row r hi hr
  match i with
  | 0 =>
      simp only [spd, List.getElem?_cons_zero, Option.some.injEq] at hi hr
      subst hi hr
      refine ⟨rfl, ?_⟩
      intro j e c he hc
      match j with
      | 0 => simp at he hc; subst he hc; exact Or.inr (Or.inr ⟨⟨3, rfl⟩, rfl, rfl⟩)
      | 1 => simp at he hc; subst he hc; exact Or.inl (.mat _)
      | j + 2 => simp at he
  | 1 =>
      simp [spd] at hi hr
      subst hi hr
      refine ⟨rfl, ?_⟩
      intro j e c he hc
      match j with
      | 0 => simp at he hc; subst he hc; exact Or.inl (.mat _)
      | 1 => simp at he hc; subst he hc; exact Or.inr (Or.inr ⟨⟨2, rfl⟩, rfl, rfl⟩)
      | j + 2 => simp at he
  | i + 2 => simp [spd] at hi

theorem spd_symmetric : SymmetricBlock [1, 1] spd := by
  intro xs ys hx hy
  match xs, ys, hx, hy with
  | [[a], [b]], [[c], [d]], _, _ =>
    simp [spd, blockAct, rowAct, Expr.act, bdot, dot, fnOf, Mat.lit, Mat.act]; ring

theorem spd_posDef : PosDefBlock [1, 1] spd := by
  intro xs hx hne
  match xs, hx with
  | [[a], [b]], _ =>
    simp [spd, blockAct, rowAct, Expr.act, bdot, dot, fnOf, Mat.lit, Mat.act, Mat.of]
    simp at hne
    rcases hne with h | h
    · nlinarith [mul_self_pos.mpr h, mul_self_nonneg (a + b)]
    · nlinarith [mul_self_pos.mpr h, mul_self_nonneg (a + b)]

theorem spd_bcs : BlockBcs 2 (.list [.dir [(0, 5)], .list []]) [[(0, (5 : ℚ))], []] :=
  .list rfl (.cons (.dir _) (.cons (.list (ds := []) .nil) .nil))

theorem spd_inRange : InRange [1, 1] [[(0, (5 : ℚ))], []] := by
  intro k d v n h1 h2
  match k with
  | 0 => simp at h1 h2; omega
  | 1 => simp at h1
  | k + 2 => simp at h2

example := applyBc_symmetric noTiny [1, 1] spd spd_conforming _ _ .none _ _ spd_bcs spd_inRange ⟨_, List.mem_cons_self, by simp⟩ 2
  spd_symmetric
example := applyBc_posDef noTiny [1, 1] spd spd_conforming _ _ .none _ _ spd_bcs spd_inRange ⟨_, List.mem_cons_self, by simp⟩ 2
  (by norm_num) spd_posDef

end Verif.ApplyBc.Examples
