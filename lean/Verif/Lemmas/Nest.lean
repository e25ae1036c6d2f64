import Verif.Spec.Nest
import Verif.Lemmas.BlockOps
import Verif.Lemmas.CenterVec
import Mathlib.Algebra.Order.BigOperators.Group.Finset
import Mathlib.Analysis.InnerProductSpace.Basic
import Mathlib.Tactic.Linarith
/-!
# Lemmas on nested matrices and field splits
-/
namespace Verif.Nest
open Verif Verif.BlockOps

section
variable {p q : Nat} {rows : Fin p → Nat} {cols : Fin q → Nat}

theorem nest_some {tol : ℝ} {A : ∀ i j, Block (rows i) (cols j)} (h : Plain A) :
    nest tol A = some (fun i j => nestBlock tol (decide (i.val = j.val)) (A i j)) := by
  unfold nest
  rw [if_neg]
  rintro ⟨i, j, e⟩
  rcases h i j with h | ⟨M, h⟩ <;> rw [h] at e <;> simp [Block.isPre] at e

/-- One term of the sums. -/
theorem term_close {m n : Nat} {tol : ℝ} (ht : 0 ≤ tol) (d : Bool) {b : Block m n} (h : b = .num 0 ∨ ∃ M, b = .mat M) (x : Fin n → ℝ) (k : Fin m) :
    |optApply (nestBlock tol d b) x k - blockAct b x k| ≤ tol * Real.sqrt (∑ l, x l ^ 2) := by
  have h0 : 0 ≤ tol * Real.sqrt (∑ l, x l ^ 2) := mul_nonneg ht (Real.sqrt_nonneg _)
  rcases h with rfl | ⟨M, rfl⟩
  · simp [optApply, nestBlock, blockAct, h0]
  · unfold nestBlock
    dsimp only
    by_cases hc : d = false ∧ frobenius M < tol
    · rw [if_pos hc]
      simp only [optApply, Pi.zero_apply, blockAct, zero_sub, abs_neg]
      have h1 : |∑ l, M k l * x l| ≤ Real.sqrt (∑ l, M k l ^ 2) * Real.sqrt (∑ l, x l ^ 2) := by
        rw [← Real.sqrt_sq_eq_abs, ← Real.sqrt_mul (Finset.sum_nonneg (fun l _ => sq_nonneg _))]
        exact Real.sqrt_le_sqrt (Finset.sum_mul_sq_le_sq_mul_sq _ _ _)
      have h2 : Real.sqrt (∑ l, M k l ^ 2) ≤ frobenius M := by
        unfold frobenius
        apply Real.sqrt_le_sqrt
        exact Finset.single_le_sum (f := fun i => ∑ l, M i l ^ 2) (fun i _ => Finset.sum_nonneg (fun l _ => sq_nonneg _)) (Finset.mem_univ k)
      exact h1.trans (mul_le_mul_of_nonneg_right (h2.trans hc.2.le) (Real.sqrt_nonneg _))
    · rw [if_neg hc]
      simp [optApply, Matrix.mulVec, dotProduct, blockAct, h0]

theorem term_exact {m n : Nat} {tol : ℝ} (d : Bool) {b : Block m n} (h : b = .num 0 ∨ ∃ M, b = .mat M)
    (hn : ∀ M, b = .mat M → d = true ∨ M = 0 ∨ tol ≤ frobenius M) (x : Fin n → ℝ) (k : Fin m) :
    optApply (nestBlock tol d b) x k = blockAct b x k := by
  rcases h with rfl | ⟨M, rfl⟩
  · simp [optApply, nestBlock, blockAct]
  · unfold nestBlock
    dsimp only
    by_cases hc : d = false ∧ frobenius M < tol
    · rw [if_pos hc]
      rcases hn M rfl with h | rfl | h
      · rw [hc.1] at h
        cases h
      · simp [optApply, blockAct]
      · exact absurd hc.2 (not_lt.2 h)
    · rw [if_neg hc]
      simp [optApply, Matrix.mulVec, dotProduct, blockAct]

end

section
variable {M : Type}

theorem pcMat_ok (size : M → Nat) {b : PcBlock M} (h : Supported b) : ∃ s, pcMat size b = .ok s := by
  match b, h with
  | .pre k A, h => cases k <;> first | exact absurd rfl h | exact ⟨_, rfl⟩
  | .add (.pre k A) (.pre l B), h =>
      cases k <;> first | exact absurd rfl h.1 | (cases l <;> first | exact absurd rfl h.2 | exact ⟨_, rfl⟩)

theorem pcMat_supported (size : M → Nat) {b : PcBlock M} {s} (h : pcMat size b = .ok s) : Supported b := by
  match b, h with
  | .pre k A, h =>
      rintro rfl
      cases h
  | .add (.pre k A) (.pre l B), h =>
      refine ⟨?_, ?_⟩
      · rintro rfl
        cases h
      · rintro rfl
        cases k <;> cases h

theorem isDiagonal_iff {blocks : List (List (PcBlock M))} : isDiagonal blocks = true ↔ Diagonal blocks := by
  unfold isDiagonal Diagonal
  simp only [List.all_eq_true, Bool.or_eq_true, decide_eq_true_eq]
  constructor
  · intro h i j r b hr hb hij
    have := h (r, i) (List.mem_zipIdx_iff_getElem?.2 hr) (b, j) (List.mem_zipIdx_iff_getElem?.2 hb)
    rcases this with e | e
    · exact absurd e hij
    · cases b <;> simp [isZero] at e
      rw [e]
  · rintro h ⟨r, i⟩ hr ⟨b, j⟩ hb
    by_cases hij : i = j
    · exact Or.inl hij
    · right
      rw [h i j r b (List.mem_zipIdx_iff_getElem?.1 hr) (List.mem_zipIdx_iff_getElem?.1 hb) hij]
      simp [isZero]

theorem groupFrom_ok {union : List Nat → List Nat → List Nat} (hu : Union union) (isets : List (List Nat)) :
    ∀ (is : List Nat) (g : List Nat), (∀ i ∈ is, i < isets.length) → ∃ r, groupFrom union isets g is = .ok r ∧
      ∀ a, a ∈ r ↔ a ∈ g ∨ ∃ i ∈ is, ∃ s, isets[i]? = some s ∧ a ∈ s
  | [], g, _ => ⟨g, rfl, fun a => by simp⟩
  | i :: is, g, h => by
      have hi := h i (by simp)
      obtain ⟨r, h1, h2⟩ := groupFrom_ok hu isets is (union g isets[i]) (fun k hk => h k (by simp [hk]))
      refine ⟨r, ?_, fun a => ?_⟩
      · unfold groupFrom
        rw [pyGet_ok hi]
        exact h1
      · rw [h2, hu]
        simp [hi, or_assoc]

theorem group_ok {union : List Nat → List Nat → List Nat} (hu : Union union) {isets : List (List Nat)} {f l : Nat} (hf : f < l)
    (hl : l ≤ isets.length) : ∃ r, group union isets (f, l) = .ok r ∧ ∀ a, a ∈ r ↔ ∃ i, f ≤ i ∧ i < l ∧ ∃ s, isets[i]? = some s ∧ a ∈ s := by
  have hlt : f < isets.length := by omega
  obtain ⟨r, h1, h2⟩ := groupFrom_ok hu isets (List.range' (f + 1) (l - (f + 1))) isets[f] (fun i hi => by
    rw [List.mem_range'_1] at hi
    omega)
  have key : ∀ a, a ∈ r ↔ ∃ i, f ≤ i ∧ i < l ∧ ∃ s, isets[i]? = some s ∧ a ∈ s := by
    intro a
    rw [h2]
    constructor
    · rintro (h | ⟨i, hi, h⟩)
      · exact ⟨f, le_rfl, hf, _, List.getElem?_eq_getElem hlt, h⟩
      · rw [List.mem_range'_1] at hi
        exact ⟨i, by omega, by omega, h⟩
    · rintro ⟨i, hi1, hi2, s, hs, ha⟩
      rcases Nat.eq_or_lt_of_le hi1 with rfl | hi
      · rw [List.getElem?_eq_getElem hlt] at hs
        injection hs with hs
        exact Or.inl (hs ▸ ha)
      · exact Or.inr ⟨i, by rw [List.mem_range'_1]; omega, s, hs, ha⟩
  refine ⟨r, ?_, key⟩
  unfold group
  rw [pyGet_ok hlt]
  dsimp only [bind, Except.bind]
  by_cases e : l = f + 1
  · rw [if_pos e]
    subst e
    simp [groupFrom] at h1
    rw [h1]
  · rw [if_neg e, h1]

theorem offsetPairs_le : ∀ (offs : List Nat) (f : Nat), isIncreasing offs = true → ∀ n ∈ offs.getLast?, ∀ fl ∈ offsetPairs f offs, fl.2 ≤ n
  | [], f, h, _, _ => by simp [isIncreasing] at h
  | [l], f, _, n, hn => by
      simp at hn
      simp [offsetPairs, hn]
  | l :: m :: rest, f, h, n, hn => by
      simp only [isIncreasing, Bool.and_eq_true, decide_eq_true_eq] at h
      intro fl hfl
      have ih := offsetPairs_le (m :: rest) l h.2 n (by simpa using hn)
      rw [offsetPairs, List.mem_cons] at hfl
      rcases hfl with rfl | hfl
      · have := ih (l, m) (by simp [offsetPairs])
        dsimp only at this ⊢
        omega
      · exact ih fl hfl

theorem offsetPairs_length : ∀ (offs : List Nat) (f : Nat), (offsetPairs f offs).length = offs.length
  | [], _ => rfl
  | l :: rest, f => by simp [offsetPairs, offsetPairs_length rest l]

/-- Each number below the last offset is in exactly one of the intervals. -/
theorem offsetPairs_unique : ∀ (offs : List Nat) (f : Nat), isIncreasing offs = true → (∀ l ∈ offs.head?, f < l) → ∀ n ∈ offs.getLast?,
    ∀ i, f ≤ i → i < n → ∃! k : Nat, ∃ fl : Nat × Nat, (offsetPairs f offs)[k]? = some fl ∧ fl.1 ≤ i ∧ i < fl.2
  | [], f, h, _, _, _ => by simp [isIncreasing] at h
  | [l], f, _, _, n, hn => by
      intro i h1 h2
      simp at hn
      subst hn
      refine ⟨0, ⟨(f, l), rfl, h1, h2⟩, ?_⟩
      rintro k ⟨fl, hk, -⟩
      match k with
      | 0 => rfl
      | k + 1 => simp [offsetPairs] at hk
  | l :: m :: rest, f, h, hf, n, hn => by
      intro i h1 h2
      simp only [isIncreasing, Bool.and_eq_true, decide_eq_true_eq] at h
      have hlow : ∀ (offs : List Nat) (l : Nat), isIncreasing offs = true → (∀ m ∈ offs.head?, l < m) →
          ∀ fl ∈ offsetPairs l offs, l ≤ fl.1 := by
        intro offs
        induction offs with
        | nil => intro l _ _ fl hfl; simp [offsetPairs] at hfl
        | cons m offs ih =>
          intro l hi hm fl hfl
          rw [offsetPairs, List.mem_cons] at hfl
          rcases hfl with rfl | hfl
          · exact le_rfl
          · cases offs with
            | nil => simp [offsetPairs] at hfl
            | cons m' offs =>
              simp only [isIncreasing, Bool.and_eq_true, decide_eq_true_eq] at hi
              have := ih m hi.2 (by simpa using hi.1) fl hfl
              have := hm m (by simp)
              omega
      have hm : ∀ l' ∈ (m :: rest).head?, l < l' := by simpa using h.1
      by_cases hil : i < l
      · refine ⟨0, ⟨(f, l), rfl, h1, hil⟩, ?_⟩
        rintro k ⟨fl, hk, h3, h4⟩
        match k with
        | 0 => rfl
        | k + 1 =>
          rw [offsetPairs, List.getElem?_cons_succ] at hk
          have := hlow (m :: rest) l h.2 hm fl (List.mem_of_getElem? hk)
          omega
      · obtain ⟨k, ⟨fl, hk, h3⟩, hun⟩ := offsetPairs_unique (m :: rest) l h.2 hm n (by simpa using hn) i (by omega) h2
        refine ⟨k + 1, ⟨fl, by rw [offsetPairs, List.getElem?_cons_succ]; exact hk, h3⟩, ?_⟩
        rintro k' ⟨fl', hk', h5, h6⟩
        match k' with
        | 0 =>
          simp [offsetPairs] at hk'
          subst hk'
          dsimp only at h6
          omega
        | k' + 1 =>
          rw [offsetPairs, List.getElem?_cons_succ] at hk'
          rw [hun k' ⟨fl', hk', h5, h6⟩]

/-- The part of `pc_nest` after the choice of fields. -/
theorem split_ok (size : M → Nat) {g : List (List Nat)} {blocks : List (List (PcBlock M))} (hs : Square g.length blocks) (hd : Diagonal blocks)
    (hb : ∀ (i : Nat) r b, blocks[i]? = some r → r[i]? = some b → Supported b) :
    ∃ F, split size g blocks = .ok F ∧ F.length = g.length ∧ ∀ (i : Nat) s r b, g[i]? = some s → blocks[i]? = some r → r[i]? = some b →
      ∃ f, F[i]? = some f ∧ f.indices = s ∧ pcMat size b = .ok (f.setting, f.operator) := by
  have hall : ∀ i ∈ List.range g.length, ∃ s, block size blocks i = .ok s := by
    intro i hi
    rw [List.mem_range, ← hs.1] at hi
    have hr : i < blocks[i].length := by
      rw [hs.2 _ (List.getElem_mem hi), ← hs.1]
      exact hi
    obtain ⟨s, h⟩ := pcMat_ok size (hb i _ _ (List.getElem?_eq_getElem hi) (List.getElem?_eq_getElem hr))
    refine ⟨s, ?_⟩
    unfold block
    rw [pyGet_ok hi]
    dsimp only [bind, Except.bind]
    rw [pyGet_ok hr]
    exact h
  obtain ⟨l, hl, -⟩ := CenterVec.pyMap_exists (R := fun _ _ => True) (fun i hi => (hall i hi).imp (fun _ h => ⟨h, trivial⟩))
  have h2 := pyMap_eq_ok.1 hl
  have hlen : l.length = g.length := by
    rw [← h2.length_eq, List.length_range]
  refine ⟨List.zipWith (fun x (y : Setting M × OpMat M) => ⟨x, y.1, y.2⟩) g l, ?_, by simp [hlen], ?_⟩
  · unfold split
    rw [isDiagonal_iff.2 hd, hl]
    have : (decide (blocks.length = g.length) && blocks.all (fun r => decide (r.length = g.length))) = true := by
      rw [Bool.and_eq_true, decide_eq_true_eq, List.all_eq_true]
      exact ⟨hs.1, fun r hr => decide_eq_true (hs.2 r hr)⟩
    rw [this]
    rfl
  · intro i s r b hg hr hrb
    have hi : i < g.length := (List.getElem?_eq_some_iff.1 hg).1
    have hil : i < l.length := by omega
    refine ⟨⟨s, l[i].1, l[i].2⟩, ?_, rfl, ?_⟩
    · rw [List.getElem?_zipWith, hg, List.getElem?_eq_getElem hil]
    · have := List.Forall₂.get h2 (i := i) (by simpa using hi) hil
      simp only [List.get_eq_getElem, List.getElem_range] at this
      unfold block at this
      rw [pyGet_eq_ok.2 hr] at this
      dsimp only [bind, Except.bind] at this
      rw [pyGet_eq_ok.2 hrb] at this
      exact this

end
end Verif.Nest
