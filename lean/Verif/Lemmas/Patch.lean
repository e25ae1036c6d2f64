import Verif.Spec.Patch
import Verif.Lemmas.Trace
import Verif.Lemmas.Mat
import Verif.Lemmas.BlockOps
import Mathlib.Algebra.Order.Field.Basic
import Mathlib.Algebra.BigOperators.Ring.List
import Mathlib.Data.List.Perm.Basic
import Mathlib.Tactic.Ring
import Mathlib.Tactic.Linarith
/-! Lemmas about patch averages. -/
namespace Verif.Patch
open Verif Verif.BlockOps Verif.Trace Finset
variable {K G : Type}

section acc
variable [CommRing K]

/-- The triples of the three lists. -/
def triples (acc : Triples K) : List (Nat × Nat × K) := acc.1.zip (acc.2.1.zip acc.2.2)

/-- The lists describe an `m × n` matrix which acts as `F`. -/
structure Acc (m n : Nat) (acc : Triples K) (F : (Nat → K) → Nat → K) : Prop where
  len1 : acc.1.length = acc.2.2.length
  len2 : acc.2.1.length = acc.2.2.length
  rows : ∀ r ∈ acc.1, r < m
  cols : ∀ c ∈ acc.2.1, c < n
  act : ∀ u d, actTriples u (triples acc) d = F u d

theorem Acc.nil (m n : Nat) : Acc m n (([], [], []) : Triples K) (fun _ _ => 0) :=
  ⟨rfl, rfl, by simp, by simp, fun u d => by simp [triples, actTriples]⟩

theorem actTriples_row (u : Nat → K) (row d : Nat) : ∀ (cols : List Nat) (vals : List K),
    actTriples u ((List.replicate cols.length row).zip (cols.zip vals)) d =
      if d = row then ((cols.zip vals).map (fun p => p.2 * u p.1)).sum else 0
  | [], vals => by simp [actTriples]
  | c :: cs, [] => by simp [actTriples]
  | c :: cs, v :: vs => by
      have ih := actTriples_row u row d cs vs
      rw [List.length_cons, List.replicate_succ, List.zip_cons_cons, List.zip_cons_cons]
      by_cases h : d = row
      · subst h
        simp only [if_true] at ih ⊢
        rw [actTriples, List.filter_cons_of_pos (by simp)]
        simp only [List.map_cons, List.sum_cons]
        rw [← ih, actTriples]
      · rw [if_neg h] at ih ⊢
        rw [actTriples, List.filter_cons_of_neg (by simpa using fun h' => h h'.symm)]
        exact ih

theorem Acc.extend {m n : Nat} {acc : Triples K} {F} (h : Acc m n acc F) {row : Nat} (hr : row < m)
    {cols : List Nat} (hc : ∀ c ∈ cols, c < n) {vals : List K} (hl : vals.length = cols.length) :
    Acc m n (extend acc row cols vals)
      (fun u d => F u d + if d = row then ((cols.zip vals).map (fun p => p.2 * u p.1)).sum else 0) := by
  refine ⟨?_, ?_, ?_, ?_, ?_⟩
  · simp [Patch.extend, h.len1, hl]
  · simp [Patch.extend, h.len2, hl]
  · intro r hr'
    simp only [Patch.extend, List.mem_append] at hr'
    rcases hr' with hr' | hr'
    · exact h.rows r hr'
    · rw [List.eq_of_mem_replicate hr']; exact hr
  · intro c hc'
    simp only [Patch.extend, List.mem_append] at hc'
    rcases hc' with hc' | hc'
    · exact h.cols c hc'
    · exact hc c hc'
  · intro u d
    have e : triples (Patch.extend acc row cols vals) =
        triples acc ++ (List.replicate cols.length row).zip (cols.zip vals) := by
      simp only [triples, Patch.extend]
      rw [List.zip_append (l₁ := acc.2.1) h.len2, List.zip_append]
      simp [h.len1, h.len2]
    rw [e, actTriples_append, h.act, actTriples_row]

theorem Acc.csr {m n : Nat} {acc : Triples K} {F} (h : Acc m n acc F) :
    ∃ M, csr m n acc.1 acc.2.1 acc.2.2 = .ok M ∧ M.rows = m ∧ M.cols = n ∧
      ∀ u d, d < m → M.act u d = F u d := by
  rw [Trace.csr, if_pos ⟨h.len1, h.len2, h.rows, h.cols⟩]
  refine ⟨_, rfl, rfl, rfl, fun u d hd => ?_⟩
  rw [Mat.of_act, if_pos hd, csr_act m n u d hd]
  · exact h.act u d
  · intro p hp
    exact h.cols _ (List.of_mem_zip (List.of_mem_zip hp).2).1

theorem Acc.congr {m n : Nat} {acc : Triples K} {F F'} (h : Acc m n acc F) (e : ∀ u d, F u d = F' u d) :
    Acc m n acc F' := ⟨h.len1, h.len2, h.rows, h.cols, fun u d => (h.act u d).trans (e u d)⟩

/-! ## Sums -/

theorem sum_zip_map (f : Nat → K) (u : Nat → K) : ∀ cols : List Nat,
    ((cols.zip (cols.map f)).map (fun p => p.2 * u p.1)).sum = (cols.map (fun j => f j * u j)).sum
  | [] => rfl
  | c :: cs => by simp [sum_zip_map f u cs]

theorem sum_swap {α β : Type} (f : α → β → K) (C : List β) : ∀ L : List α,
    (L.map (fun a => (C.map (f a)).sum)).sum = (C.map (fun b => (L.map (fun a => f a b)).sum)).sum
  | [] => by simp
  | a :: L => by
      simp only [List.map_cons, List.sum_cons, sum_swap f C L]
      induction C with
      | nil => simp
      | cons b C ih => simp only [List.map_cons, List.sum_cons] at ih ⊢; rw [add_add_add_comm, ih]

theorem sum_delta (x : Nat) (f : Nat → K) : ∀ cols : List Nat, cols.Nodup →
    (cols.map (fun j => if x = j then f j else 0)).sum = if x ∈ cols then f x else 0
  | [], _ => by simp
  | c :: cs, h => by
      rw [List.nodup_cons] at h
      simp only [List.map_cons, List.sum_cons, sum_delta x f cs h.2]
      by_cases hx : x = c
      · subst hx; simp [h.1]
      · simp [hx]

theorem elementVec_eq (V : Space K) (c j : Nat) : elementVec V c j =
    ((V.cellDofs c).zipIdx.map (fun q => if q.1 = j then V.loc c q.2 else 0)).sum := by
  unfold elementVec
  generalize (V.cellDofs c).zipIdx = L
  induction L with
  | nil => simp
  | cons q L ih =>
      rw [List.map_cons, List.sum_cons, ← ih]
      by_cases h : q.1 = j <;> simp [h]

theorem sum_element (V : Space K) (u : Nat → K) (c : Nat) {cols : List Nat} (hn : cols.Nodup) :
    (cols.map (fun j => elementVec V c j * u j)).sum =
      ((V.cellDofs c).zipIdx.map (fun q => if q.1 ∈ cols then V.loc c q.2 * u q.1 else 0)).sum := by
  simp only [elementVec_eq, ← List.sum_map_mul_right]
  rw [sum_swap]
  congr 1
  refine List.map_congr_left (fun q _ => ?_)
  simp only [ite_mul, zero_mul]
  exact sum_delta q.1 (fun j => V.loc c q.2 * u j) cols hn

theorem sum_filter_ite (a b : Nat → Bool) (f : Nat → K) : ∀ L : List Nat, (∀ c ∈ L, b c = true → a c = true) →
    ((L.filter a).map (fun c => if b c then f c else 0)).sum = ((L.filter b).map f).sum
  | [], _ => by simp
  | c :: L, h => by
      have ih := sum_filter_ite a b f L (fun c hc => h c (by simp [hc]))
      by_cases hb : b c = true
      · have ha := h c (by simp) hb
        simp [ha, hb, ih]
      · by_cases ha : a c = true
        · simp [ha, hb, ih]
        · simp [ha, hb, ih]

/-- Integration against an assembled vector restricted to the dofs of a patch. -/
theorem sum_patch (V : Space K) (pf : Nat → Nat) (p : Nat) (chi : Nat → Nat) (u : Nat → K) {cols : List Nat}
    (hn : cols.Nodup) (hin : ∀ c ∈ patch V pf p, chi c = 1 ∧ ∀ j ∈ V.cellDofs c, j ∈ cols)
    (hout : ∀ c, c < V.numCells → chi c = 1 → pf c ≠ p → ∀ j ∈ V.cellDofs c, j ∉ cols) :
    (cols.map (fun j => assemble V chi j * u j)).sum = ((patch V pf p).map (cellIntegral V u)).sum := by
  simp only [assemble, ← List.sum_map_mul_right]
  rw [sum_swap]
  simp only [sum_element V u _ hn]
  rw [patch, ← sum_filter_ite (fun c => decide (chi c = 1)) (fun c => decide (pf c = p)) (cellIntegral V u)]
  · congr 1
    refine List.map_congr_left (fun c hc => ?_)
    rw [List.mem_filter, List.mem_range] at hc
    by_cases h : pf c = p
    · simp only [h, decide_true, if_true, cellIntegral]
      congr 1
      refine List.map_congr_left (fun q hq => ?_)
      rw [if_pos ((hin c (by simp [patch, hc.1, h])).2 q.1 (List.fst_mem_of_mem_zipIdx hq))]
    · simp only [h, decide_false, Bool.false_eq_true, if_false]
      refine List.sum_eq_zero (fun x hx => ?_)
      obtain ⟨q, hq, rfl⟩ := List.mem_map.1 hx
      exact if_neg (hout c hc.1 (by simpa using hc.2) h q.1 (List.fst_mem_of_mem_zipIdx hq))
  · intro c hc hb
    have := (hin c (by simp only [patch, List.mem_filter]; exact ⟨hc, hb⟩)).1
    simpa using this

end acc

/-! ## Patches -/

theorem patchDofs_ok {V : Space K} (hV : V.WF) {cs : List Nat} (hne : cs ≠ []) (hlt : ∀ c ∈ cs, c < V.numCells) :
    ∃ cols, patchDofs V cs = .ok cols ∧ cols.Nodup ∧ (∀ j, j ∈ cols ↔ ∃ c ∈ cs, j ∈ V.cellDofs c) ∧
      ∀ j ∈ cols, j < V.dim := by
  have hm : ∀ j, j ∈ (cs.flatMap V.cellDofs).dedup.insertionSort (· ≤ ·) ↔ ∃ c ∈ cs, j ∈ V.cellDofs c := by
    intro j
    rw [(List.perm_insertionSort (· ≤ ·) _).mem_iff, List.mem_dedup, List.mem_flatMap]
  refine ⟨_, by rw [patchDofs, if_neg hne], ?_, hm, ?_⟩
  · exact (List.perm_insertionSort (· ≤ ·) _).nodup_iff.2 (List.nodup_dedup _)
  · intro j hj
    obtain ⟨c, hc, hjc⟩ := (hm j).1 hj
    exact hV.lt c (hlt c hc) j hjc

theorem patchCells_nat [Field K] [LinearOrder K] [IsStrictOrderedRing K] (V : Space K) (pf : Nat → Nat) (p : Nat) :
    patchCells V pf (p : K) = patch V pf p := by
  simp [patchCells, patch]

theorem patch_lt {V : Space K} {pf : Nat → Nat} {p c : Nat} (h : c ∈ patch V pf p) : c < V.numCells := by
  simp [patch] at h; exact h.1

theorem patch_pf {V : Space K} {pf : Nat → Nat} {p c : Nat} (h : c ∈ patch V pf p) : pf c = p := by
  simp [patch] at h; exact h.2

/-! ## argmin -/

theorem argminFrom_spec [LinearOrder K] : ∀ (xs : List K) (i best : Nat) (v : K) (pre : List K),
    pre.length = i → pre[best]? = some v → (∀ k x, pre[k]? = some x → v ≤ x ∧ (k < best → v < x)) →
    ∃ w, (pre ++ xs)[argminFrom i best v xs]? = some w ∧
      ∀ k x, (pre ++ xs)[k]? = some x → w ≤ x ∧ (k < argminFrom i best v xs → w < x)
  | [], i, best, v, pre, _, hb, hm => ⟨v, by simpa [argminFrom] using hb, by simpa [argminFrom] using hm⟩
  | x :: xs, i, best, v, pre, hl, hb, hm => by
      have hbl : best < i := by
        rw [← hl]; exact (List.getElem?_eq_some_iff.1 hb).1
      rw [argminFrom]
      have e : pre ++ x :: xs = (pre ++ [x]) ++ xs := by simp
      rw [e]
      split
      · rename_i h
        refine argminFrom_spec xs (i + 1) i x (pre ++ [x]) (by simp [hl]) (by simp [← hl]) ?_
        intro k y hk
        rcases Nat.lt_trichotomy k i with h1 | h1 | h1
        · rw [List.getElem?_append_left (by omega)] at hk
          have := (hm k y hk).1
          exact ⟨(h.trans_le this).le, fun _ => h.trans_le this⟩
        · subst h1
          rw [← hl] at hk
          simp at hk
          subst hk
          exact ⟨le_refl _, fun h => absurd h (lt_irrefl _)⟩
        · rw [List.getElem?_eq_none (by simp; omega)] at hk
          cases hk
      · rename_i h
        refine argminFrom_spec xs (i + 1) best v (pre ++ [x]) (by simp [hl])
          (by rw [List.getElem?_append_left (by omega)]; exact hb) ?_
        intro k y hk
        rcases Nat.lt_trichotomy k i with h1 | h1 | h1
        · rw [List.getElem?_append_left (by omega)] at hk
          exact hm k y hk
        · subst h1
          rw [← hl] at hk
          simp at hk
          subst hk
          exact ⟨not_lt.1 h, fun h => by omega⟩
        · rw [List.getElem?_eq_none (by simp; omega)] at hk
          cases hk

theorem argmin_ok [LinearOrder K] {l : List K} (h : l ≠ []) : ∃ i w, argmin l = .ok i ∧ l[i]? = some w ∧
    ∀ (k : Nat) x, l[k]? = some x → w ≤ x ∧ (k < i → w < x) := by
  match l, h with
  | x :: xs, _ =>
      obtain ⟨w, h1, h2⟩ := argminFrom_spec xs 1 0 x [x] rfl rfl (by
        intro k y hk
        match k with
        | 0 => simp at hk; subst hk; simp
        | k + 1 => simp at hk)
      exact ⟨_, w, rfl, h1, h2⟩

end Verif.Patch
