import Verif.Props.Collapse
import Verif.Spec.ConvertExact
import Verif.Lemmas.ConvertExact
/-! # Conversion of block matrices with any numbers as blocks (C88) -/
namespace Verif.Collapse
open Verif

variable {K : Type} [CommRing K]

/-- **C88** A block matrix of conforming expressions and any numbers is converted; the matrix acts as the block matrix in
which numbers count only in square blocks on the diagonal. -/
theorem convert_numbers (tiny : Tiny K) {rs cs : List Nat} {blocks : List (List (Expr K))}
    (h : WithNumbers rs cs blocks) :
    ∃ M : Mat K, M.rows = rs.sum ∧ M.cols = cs.sum ∧
      (∃ f, ∀ g, f ≤ g → convertMat tiny g rs cs blocks = .ok M) ∧
      ∀ xs : List (List K), xs.map List.length = cs →
        ∀ i, M.act (fnOf (convertVec xs)) i = fnOf (convertVec (blockAct rs (kept rs cs blocks) xs)) i := by
  obtain ⟨M, h1, h2, ⟨f, hf⟩, h4⟩ := convert_acts_partial tiny rs cs _ (kept_conforming h)
  exact ⟨M, h1, h2, ⟨f, fun g hg => by rw [← convertMat_keep]; exact hf g hg⟩, h4⟩

/-- **C88** The matrix acts as the block matrix if and only if numbers in other blocks are zero. -/
theorem convert_numbers_iff (tiny : Tiny K) {rs cs : List Nat} {blocks : List (List (Expr K))}
    (h : WithNumbers rs cs blocks) {M : Mat K} {g : Nat} (hg : ∀ g', g ≤ g' → convertMat tiny g' rs cs blocks = .ok M) :
    (∀ xs : List (List K), xs.map List.length = cs →
      ∀ i, M.act (fnOf (convertVec xs)) i = fnOf (convertVec (blockAct rs blocks xs)) i) ↔
    OnlyDiagonal rs cs blocks := by
  obtain ⟨M', _, _, ⟨f, hf⟩, h4⟩ := convert_numbers tiny h
  have hM : M' = M := by
    have a := hf (max f g) (le_max_left _ _)
    rw [hg (max f g) (le_max_right _ _)] at a
    injection a with a
    exact a.symm
  subst hM
  constructor
  · intro hact i j row r c a hi hr hc hj hr0 hc0
    by_contra hne
    push Not at hne
    have hx := unitAt_sizes (K := K) cs j
    have heq : blockAct rs (kept rs cs blocks) (unitAt cs j) = blockAct rs blocks (unitAt cs j) := by
      have hk : (kept rs cs blocks).length = rs.length := by simp [kept, h.1]
      have e1 : (blockAct rs (kept rs cs blocks) (unitAt cs j)).flatten = (blockAct rs blocks (unitAt cs j)).flatten := by
        apply List.ext_getElem
        · rw [blockAct_length _ _ _ hk, blockAct_length _ _ _ h.1]
        · intro n h1 h2
          have := (h4 _ hx n).symm.trans (hact _ hx n)
          simpa [fnOf, convertVec, List.getD_eq_getElem?_getD, List.getElem?_eq_getElem h1,
            List.getElem?_eq_getElem h2] using this
      have l1 : ∀ B : List (List (Expr K)), B.length = rs.length → (blockAct rs B (unitAt cs j)).map List.length = rs := by
        intro B hB
        simp only [blockAct, List.map_map, Function.comp_def, List.length_map, List.length_range]
        exact List.map_fst_zip (by omega)
      have := List.eq_iff_flatten_eq.2 ⟨e1, (l1 _ hk).trans (l1 _ h.1).symm⟩
      exact this
    have hk : (kept rs cs blocks)[i]? = some (row.mapIdx (fun j e => keep i j rs[i]? cs[j]? e)) := by
      rw [kept, List.getElem?_mapIdx, hi]; rfl
    have := congrArg (fun l => l[i]?) heq
    simp only [blockAct_get hk hr, blockAct_get hi hr] at this
    injection this with this
    have h0 := congrArg (fun l => l[0]?) this
    simp only [List.getElem?_map, List.getElem?_range hr0, Option.map_some] at h0
    injection h0 with h0
    obtain ⟨hl, _⟩ := h.2 i row r hi hr
    have hxl : (unitAt (K := K) cs j).length = cs.length := by simp [unitAt]
    have hu := rowAct_unit i rs[i]? j row (unitAt cs j) cs 0 hl hxl (by
      intro q x hq hne
      rw [unitAt_get cs j q x hq, if_neg (fun h => hne h.1)])
    simp only [Nat.zero_add] at hu
    rw [h0, sub_self, hj] at hu
    obtain ⟨x, hxj⟩ : ∃ x, (unitAt (K := K) cs j)[j]? = some x := by
      rw [unitAt, List.getElem?_mapIdx, hc]; exact ⟨_, rfl⟩
    have hval := unitAt_get cs j j _ hxj
    rw [if_pos ⟨rfl, by rw [hc]; simp; omega⟩] at hval
    rw [hxj] at hu
    simp only at hu
    rw [hr, hc, keep, if_neg (by simpa using hne.1)] at hu
    simp only [Expr.act] at hu
    rw [hval] at hu
    exact hne.2 (by simpa using hu.symm)
  · intro ho xs hx i
    rw [h4 xs hx i, kept_act h ho hx]

/-- Numbers on and off the diagonal. -/
example : WithNumbers [1, 2] [1, 2]
    [[.num 5, .mul [.num 2, .mat (Mat.lit 1 2 [[1, 2]])]], [.num (3 : ℚ), .num 7]] ∧
    ¬ OnlyDiagonal [1, 2] [1, 2]
    [[.num 5, .mul [.num 2, .mat (Mat.lit 1 2 [[1, 2]])]], [.num (3 : ℚ), .num 7]] := by
  constructor
  · refine ⟨rfl, ?_⟩
    intro i row r hi hr
    match i with
    | 0 =>
        simp only [List.getElem?_cons_zero, Option.some.injEq] at hi hr
        subst hi hr
        refine ⟨rfl, fun j e c he hc => ?_⟩
        match j with
        | 0 => simp at he; exact .inr ⟨5, he.symm⟩
        | 1 =>
            simp at he hc
            subst he hc
            exact .inl (.mul (.cons (.num _) (.single (.mat _)) rfl) rfl)
        | j + 2 => simp at he
    | 1 =>
        simp only [List.getElem?_cons_zero, List.getElem?_cons_succ, Option.some.injEq] at hi hr
        subst hi hr
        refine ⟨rfl, fun j e c he hc => ?_⟩
        match j with
        | 0 => simp at he; exact .inr ⟨3, he.symm⟩
        | 1 => simp at he; exact .inr ⟨7, he.symm⟩
        | j + 2 => simp at he
    | i + 2 => simp at hi
  · intro h
    have := h 1 0 _ 2 1 3 rfl rfl rfl rfl (by decide) (by decide)
    norm_num at this

end Verif.Collapse
