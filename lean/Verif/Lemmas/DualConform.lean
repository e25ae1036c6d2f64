import Verif.Spec.DualConform
import Verif.Lemmas.Dual4
import Mathlib.Tactic.Linarith
import Mathlib.Tactic.Module
import Mathlib.Tactic.LinearCombination
/-!
# Parts of conforming meshes are conforming
-/
namespace Verif.Dual
open Verif Verif.BlockOps
variable {K E : Type} [Field K] [LinearOrder K] [IsStrictOrderedRing K] [AddCommGroup E] [Module K E]

/-- Weights on three numbers. -/
def wt (i j l : Nat) (x y z : K) (n : Nat) : K := if n = i then x else if n = j then y else if n = l then z else 0

omit [LinearOrder K] [IsStrictOrderedRing K] in
theorem wt_1 (i j l : Nat) (x y z : K) : wt i j l x y z i = x := by simp [wt]
omit [LinearOrder K] [IsStrictOrderedRing K] in
theorem wt_2 {i j : Nat} (l : Nat) (x y z : K) (h : i ≠ j) : wt i j l x y z j = y := by simp [wt, h.symm]
omit [LinearOrder K] [IsStrictOrderedRing K] in
theorem wt_3 {i j l : Nat} (x y z : K) (h1 : i ≠ l) (h2 : j ≠ l) : wt i j l x y z l = z := by simp [wt, h1.symm, h2.symm]

omit [IsStrictOrderedRing K] in
theorem Coords_cell {M : TMesh E} {k : Nat} {p : E} {w : Nat → K} (h : M.Coords k p w) {i j l : Nat} {cell : List Nat} {a b c : E}
    (hk : M.cells[k]? = some cell) (hp : cell.Perm [i, j, l]) (hi : M.verts[i]? = some a) (hj : M.verts[j]? = some b)
    (hl : M.verts[l]? = some c) :
    (∀ n, 0 ≤ w n) ∧ (∀ n, n ≠ i → n ≠ j → n ≠ l → w n = 0) ∧ w i + w j + w l = 1 ∧ p = w i • a + w j • b + w l • c := by
  obtain ⟨i', j', l', a', b', c', h1, h2, h3, h4, h5, h6, h7, h8⟩ := h
  rw [hk] at h1
  injection h1 with h1
  subst h1
  have e : ∀ {n : Nat} {u v : E}, M.verts[n]? = some u → M.verts[n]? = some v → u = v := by
    intro n u v h1 h2
    rw [h1] at h2
    injection h2
  refine ⟨h5, ?_, ?_, ?_⟩
  · intro n hn1 hn2 hn3
    have : n ∉ [i', j', l'] := fun hm => by
      have := hp.mem_iff.1 hm
      simp only [List.mem_cons, List.not_mem_nil, or_false] at this
      rcases this with h | h | h
      · exact hn1 h
      · exact hn2 h
      · exact hn3 h
    simp only [List.mem_cons, List.not_mem_nil, or_false, not_or] at this
    exact h6 n this.1 this.2.1 this.2.2
  · rcases perm3 hp with ⟨rfl, rfl, rfl⟩ | ⟨rfl, rfl, rfl⟩ | ⟨rfl, rfl, rfl⟩ | ⟨rfl, rfl, rfl⟩ | ⟨rfl, rfl, rfl⟩ |
      ⟨rfl, rfl, rfl⟩ <;> linear_combination h7
  · rcases perm3 hp with ⟨rfl, rfl, rfl⟩ | ⟨rfl, rfl, rfl⟩ | ⟨rfl, rfl, rfl⟩ | ⟨rfl, rfl, rfl⟩ | ⟨rfl, rfl, rfl⟩ |
      ⟨rfl, rfl, rfl⟩
    · rw [h8, e h2 hi, e h3 hj, e h4 hl]
    · rw [h8, e h2 hi, e h3 hl, e h4 hj]; module
    · rw [h8, e h2 hj, e h3 hi, e h4 hl]; module
    · rw [h8, e h2 hj, e h3 hl, e h4 hi]; module
    · rw [h8, e h2 hl, e h3 hi, e h4 hj]; module
    · rw [h8, e h2 hl, e h3 hj, e h4 hi]; module

omit [IsStrictOrderedRing K] in
theorem Coords_of {M : TMesh E} {k : Nat} {p : E} {w : Nat → K} {i j l : Nat} {cell : List Nat} {a b c : E}
    (hk : M.cells[k]? = some cell) (hp : cell.Perm [i, j, l]) (hi : M.verts[i]? = some a) (hj : M.verts[j]? = some b)
    (hl : M.verts[l]? = some c) (h0 : ∀ n, 0 ≤ w n) (hs : ∀ n, n ≠ i → n ≠ j → n ≠ l → w n = 0)
    (h1 : w i + w j + w l = 1) (h2 : p = w i • a + w j • b + w l • c) : M.Coords k p w := by
  match cell, hp with
  | [i', j', l'], hp =>
      have hs' : ∀ n, n ≠ i' → n ≠ j' → n ≠ l' → w n = 0 := by
        intro n hn1 hn2 hn3
        have : n ∉ [i, j, l] := fun hm => by
          have := hp.mem_iff.2 hm
          simp only [List.mem_cons, List.not_mem_nil, or_false] at this
          rcases this with h | h | h
          · exact hn1 h
          · exact hn2 h
          · exact hn3 h
        simp only [List.mem_cons, List.not_mem_nil, or_false, not_or] at this
        exact hs n this.1 this.2.1 this.2.2
      rcases perm3 hp with ⟨rfl, rfl, rfl⟩ | ⟨rfl, rfl, rfl⟩ | ⟨rfl, rfl, rfl⟩ | ⟨rfl, rfl, rfl⟩ | ⟨rfl, rfl, rfl⟩ |
        ⟨rfl, rfl, rfl⟩
      · exact ⟨_, _, _, _, _, _, hk, hi, hj, hl, h0, hs', by linear_combination h1, by rw [h2]⟩
      · exact ⟨_, _, _, _, _, _, hk, hi, hl, hj, h0, hs', by linear_combination h1, by rw [h2]; module⟩
      · exact ⟨_, _, _, _, _, _, hk, hj, hi, hl, h0, hs', by linear_combination h1, by rw [h2]; module⟩
      · exact ⟨_, _, _, _, _, _, hk, hj, hl, hi, h0, hs', by linear_combination h1, by rw [h2]; module⟩
      · exact ⟨_, _, _, _, _, _, hk, hl, hi, hj, h0, hs', by linear_combination h1, by rw [h2]; module⟩
      · exact ⟨_, _, _, _, _, _, hk, hl, hj, hi, h0, hs', by linear_combination h1, by rw [h2]; module⟩
  | [], hp => have := hp.length_eq; simp at this
  | [_], hp => have := hp.length_eq; simp at this
  | [_, _], hp => have := hp.length_eq; simp at this
  | _ :: _ :: _ :: _ :: _, hp => have := hp.length_eq; simp at this

omit [IsStrictOrderedRing K] in
theorem has_coords {M : TMesh E} (hM : M.OK) {k : Nat} {p : E} : M.Has K k p ↔ ∃ w : Nat → K, M.Coords k p w := by
  constructor
  · rintro ⟨a, b, c, ⟨i, j, l, h1, h2, h3, h4⟩, s, t, u, hs, ht, hu, h5, h6⟩
    obtain ⟨i', j', l', he, hij, hil, hjl, _⟩ := hM.2 _ (List.mem_of_getElem? h1)
    simp only [List.cons.injEq, and_true] at he
    obtain ⟨rfl, rfl, rfl⟩ := he
    refine ⟨wt i j l s t u, i, j, l, a, b, c, h1, h2, h3, h4, ?_, ?_, ?_, ?_⟩
    · intro n
      unfold wt
      split_ifs <;> first | assumption | exact le_refl _
    · intro n h1 h2 h3
      simp [wt, h1, h2, h3]
    · rw [wt_1, wt_2 _ _ _ _ hij, wt_3 _ _ _ hil hjl, h5]
    · rw [wt_1, wt_2 _ _ _ _ hij, wt_3 _ _ _ hil hjl, h6]
  · rintro ⟨w, i, j, l, a, b, c, h1, h2, h3, h4, h5, h6, h7, h8⟩
    exact ⟨a, b, c, ⟨i, j, l, h1, h2, h3, h4⟩, w i, w j, w l, h5 _, h5 _, h5 _, h7, h8⟩

/-- All points have at most one set of coordinates. -/
def Inj (K : Type) [Field K] [LinearOrder K] [Module K E] (M : TMesh E) : Prop :=
  ∀ (k k' : Nat) (p : E) (w w' : Nat → K), M.Coords k p w → M.Coords k' p w' → w = w'

omit [IsStrictOrderedRing K] in
theorem Conforming.inj {M : TMesh E} (hM : M.OK) (h : Conforming K M) : Inj K M := by
  intro k k' p w w' h1 h2
  obtain ⟨w0, h3, h4⟩ := h.meet k k' p ((has_coords hM).2 ⟨w, h1⟩) ((has_coords hM).2 ⟨w', h2⟩)
  rw [h.simplex k p w w0 h1 h3, h.simplex k' p w' w0 h2 h4]

omit [IsStrictOrderedRing K] in
theorem Inj.conforming {M : TMesh E} (hM : M.OK) (h : Inj K M)
    (hd : ∀ (k k' : Nat) (c c' : List Nat), M.cells[k]? = some c → M.cells[k']? = some c' → c.Perm c' → k = k') :
    Conforming K M := by
  refine ⟨fun k p w w' => h k k p w w', ?_, hd⟩
  intro k k' p h1 h2
  obtain ⟨w, h1⟩ := (has_coords hM).1 h1
  obtain ⟨w', h2⟩ := (has_coords hM).1 h2
  have := h k k' p w w' h1 h2
  subst this
  exact ⟨w, h1, h2⟩

/-- Coordinates in a part are determined by those in the parent: `s`, `t`, `u` are the coordinates of the centre. -/
theorem parts_zero {k k' f f' a b c a' b' c' : Nat} {σ : Nat → Nat → K} {α β γ α' β' γ' : K} (hab : a ≠ b) (hac : a ≠ c)
    (hbc : b ≠ c) (hab' : a' ≠ b') (hac' : a' ≠ c') (hbc' : b' ≠ c') (hα : 0 ≤ α) (hβ : 0 ≤ β) (hγ : 0 ≤ γ) (hα' : 0 ≤ α')
    (hβ' : 0 ≤ β') (hγ' : 0 ≤ γ') (hsa : 0 < σ k a) (hsb : 0 < σ k b) (hsc : 0 < σ k c) (hsa' : 0 < σ k' a')
    (hsb' : 0 < σ k' b') (hsc' : 0 < σ k' c') (h0 : 0 = α) (hs : α + β + γ = 1) (hs' : α' + β' + γ' = 1)
    (hk : [a, b, c].Perm [a', b', c'] → k = k') (hf : [a, b].Perm [a', b'] → f = f')
    (h : wt a b c (α * σ k a + β / 2 + γ) (α * σ k b + β / 2) (α * σ k c) =
      wt a' b' c' (α' * σ k' a' + β' / 2 + γ') (α' * σ k' b' + β' / 2) (α' * σ k' c')) :
    α = α' ∧ (α = 0 ∨ k = k') ∧ β = β' ∧ (β = 0 ∨ f = f') ∧ γ = γ' ∧ (γ = 0 ∨ a = a') := by
  have ha := congrFun h a
  have hb := congrFun h b
  have hc := congrFun h c
  have ha' := congrFun h a'
  have hb' := congrFun h b'
  have hc' := congrFun h c'
  rw [wt_1] at ha ha'
  rw [wt_2 _ _ _ _ hab] at hb
  rw [wt_2 _ _ _ _ hab'] at hb'
  rw [wt_3 _ _ _ hac hbc] at hc
  rw [wt_3 _ _ _ hac' hbc'] at hc'
  subst h0
  simp only [zero_mul, zero_add] at *
  have hα0 : α' = 0 := by
    by_contra hne
    have hpos : 0 < α' := lt_of_le_of_ne hα' (Ne.symm hne)
    have p1 : 0 < α' * σ k' a' := mul_pos hpos hsa'
    have p2 : 0 < α' * σ k' b' := mul_pos hpos hsb'
    have p3 : 0 < α' * σ k' c' := mul_pos hpos hsc'
    have q1 : a' = a ∨ a' = b := by
      by_contra hq
      rw [not_or] at hq
      simp only [wt, if_neg hq.1, if_neg hq.2, ite_self] at ha'
      linarith
    have q2 : b' = a ∨ b' = b := by
      by_contra hq
      rw [not_or] at hq
      simp only [wt, if_neg hq.1, if_neg hq.2, ite_self] at hb'
      linarith
    have q3 : c' = a ∨ c' = b := by
      by_contra hq
      rw [not_or] at hq
      simp only [wt, if_neg hq.1, if_neg hq.2, ite_self] at hc'
      linarith
    omega
  subst hα0
  simp only [zero_mul, zero_add, true_and, true_or] at *
  rcases hβ.eq_or_lt with h1 | h1
  · subst h1
    have hβ0 : β' = 0 := by
      by_contra hne
      have hpos : 0 < β' := lt_of_le_of_ne hβ' (Ne.symm hne)
      have q1 : a' = a := by
        by_contra hq
        simp only [wt, if_neg hq, zero_div, ite_self] at ha'
        linarith
      have q2 : b' = a := by
        by_contra hq
        simp only [wt, if_neg hq, zero_div, ite_self] at hb'
        linarith
      omega
    subst hβ0
    simp only [zero_div, zero_add, true_and, true_or] at *
    refine ⟨by rw [hs, hs'], .inr ?_⟩
    by_contra hq
    simp only [wt, if_neg hq, ite_self] at ha
    rw [hs] at ha
    exact one_ne_zero ha
  · have q1 : a = a' ∨ a = b' := by
      by_contra hq
      rw [not_or] at hq
      simp only [wt, if_neg hq.1, if_neg hq.2, ite_self] at ha
      linarith
    have q2 : b = a' ∨ b = b' := by
      by_contra hq
      rw [not_or] at hq
      simp only [wt, if_neg hq.1, if_neg hq.2, ite_self] at hb
      linarith
    rcases q1 with rfl | rfl
    · have : b = b' := by omega
      subst this
      rw [wt_1] at ha
      rw [wt_2 _ _ _ _ hab] at hb
      refine ⟨by linarith, .inr (hf (List.Perm.refl _)), by linarith, .inr rfl⟩
    · have : b = a' := by omega
      subst this
      rw [wt_2 _ _ _ _ hab'] at ha
      rw [wt_1] at hb
      refine ⟨by linarith, .inr (hf (List.Perm.swap _ _ _)), by linarith, .inl (by linarith)⟩

theorem half_nonneg' {x : K} (h : 0 ≤ x) : 0 ≤ x / 2 := by positivity

omit [IsStrictOrderedRing K] in
theorem support_perm {a b c a' b' c' : Nat} {x y z x' y' z' : K} (hab : a ≠ b) (hac : a ≠ c) (hbc : b ≠ c) (hx : 0 < x)
    (hy : 0 < y) (hz : 0 < z) (h : wt a b c x y z = wt a' b' c' x' y' z') :
    (a = a' ∧ b = b' ∧ c = c') ∨ (a = b' ∧ b = a' ∧ c = c') ∨ (a = a' ∧ b = c' ∧ c = b') ∨
      (a = c' ∧ b = b' ∧ c = a') ∨ (a = b' ∧ b = c' ∧ c = a') ∨ (a = c' ∧ b = a' ∧ c = b') := by
  have ha := congrFun h a
  have hb := congrFun h b
  have hc := congrFun h c
  rw [wt_1] at ha
  rw [wt_2 _ _ _ _ hab] at hb
  rw [wt_3 _ _ _ hac hbc] at hc
  have q1 : a = a' ∨ a = b' ∨ a = c' := by
    by_contra hq
    rw [not_or, not_or] at hq
    simp only [wt, if_neg hq.1, if_neg hq.2.1, if_neg hq.2.2] at ha
    exact hx.ne' ha
  have q2 : b = a' ∨ b = b' ∨ b = c' := by
    by_contra hq
    rw [not_or, not_or] at hq
    simp only [wt, if_neg hq.1, if_neg hq.2.1, if_neg hq.2.2] at hb
    exact hy.ne' hb
  have q3 : c = a' ∨ c = b' ∨ c = c' := by
    by_contra hq
    rw [not_or, not_or] at hq
    simp only [wt, if_neg hq.1, if_neg hq.2.1, if_neg hq.2.2] at hc
    exact hz.ne' hc
  clear ha hb hc h
  rcases q1 with q1 | q1 | q1 <;> rcases q2 with q2 | q2 | q2 <;> rcases q3 with q3 | q3 | q3 <;>
    first
    | exact absurd (q1.trans q2.symm) hab
    | exact absurd (q1.trans q3.symm) hac
    | exact absurd (q2.trans q3.symm) hbc
    | simp only [q1, q2, q3, and_self, true_or, or_true]

/-- Coordinates in a part are determined by those in the parent: `s`, `t`, `u` are the coordinates of the centre. -/
theorem parts_pos {k k' f f' a b c a' b' c' : Nat} {σ : Nat → Nat → K} {α β γ α' β' γ' : K} (hab : a ≠ b) (hac : a ≠ c)
    (hbc : b ≠ c) (hab' : a' ≠ b') (hac' : a' ≠ c') (hbc' : b' ≠ c') (hα : 0 ≤ α) (hβ : 0 ≤ β) (hγ : 0 ≤ γ) (hα' : 0 ≤ α')
    (hβ' : 0 ≤ β') (hγ' : 0 ≤ γ') (hsa : 0 < σ k a) (hsb : 0 < σ k b) (hsc : 0 < σ k c) (hsa' : 0 < σ k' a')
    (hsb' : 0 < σ k' b') (hsc' : 0 < σ k' c') (h0 : 0 < α) (hs : α + β + γ = 1) (hs' : α' + β' + γ' = 1)
    (hk : [a, b, c].Perm [a', b', c'] → k = k') (hf : [a, b].Perm [a', b'] → f = f')
    (h : wt a b c (α * σ k a + β / 2 + γ) (α * σ k b + β / 2) (α * σ k c) =
      wt a' b' c' (α' * σ k' a' + β' / 2 + γ') (α' * σ k' b' + β' / 2) (α' * σ k' c')) :
    α = α' ∧ (α = 0 ∨ k = k') ∧ β = β' ∧ (β = 0 ∨ f = f') ∧ γ = γ' ∧ (γ = 0 ∨ a = a') := by
  have hcases := support_perm hab hac hbc
    (add_pos_of_pos_of_nonneg (add_pos_of_pos_of_nonneg (mul_pos h0 hsa) (half_nonneg' hβ)) hγ)
    (add_pos_of_pos_of_nonneg (mul_pos h0 hsb) (half_nonneg' hβ)) (mul_pos h0 hsc) h
  have key : ∀ {x y s : K}, 0 < s → x * s ≤ y * s → x ≤ y := fun hs h => le_of_mul_le_mul_right h hs
  have ha := congrFun h a
  have hb := congrFun h b
  have hc := congrFun h c
  rw [wt_1] at ha
  rw [wt_2 _ _ _ _ hab] at hb
  rw [wt_3 _ _ _ hac hbc] at hc
  clear h hs hs' hα hα' hsa' hsb' hsc'
  rcases hcases with ⟨rfl, rfl, rfl⟩ | ⟨rfl, rfl, rfl⟩ | ⟨rfl, rfl, rfl⟩ | ⟨rfl, rfl, rfl⟩ | ⟨rfl, rfl, rfl⟩ |
    ⟨rfl, rfl, rfl⟩
  · obtain rfl := hk (List.Perm.refl _)
    rw [wt_1] at ha
    rw [wt_2 _ _ _ _ hab'] at hb
    rw [wt_3 _ _ _ hac' hbc'] at hc
    have e : α = α' := mul_right_cancel₀ hsc.ne' hc
    subst e
    exact ⟨rfl, .inr rfl, by linarith only [ha, hb, hc, hβ, hβ', hγ, hγ'], .inr (hf (List.Perm.refl _)), by linarith only [ha, hb, hc, hβ, hβ', hγ, hγ'], .inr rfl⟩
  · obtain rfl := hk (List.Perm.swap _ _ _)
    rw [wt_2 _ _ _ _ hab'] at ha
    rw [wt_1] at hb
    rw [wt_3 _ _ _ hac' hbc'] at hc
    have e : α = α' := mul_right_cancel₀ hsc.ne' hc
    subst e
    exact ⟨rfl, .inr rfl, by linarith only [ha, hb, hc, hβ, hβ', hγ, hγ'], .inr (hf (List.Perm.swap _ _ _)), by linarith only [ha, hb, hc, hβ, hβ', hγ, hγ'], .inl (by linarith only [ha, hb, hc, hβ, hβ', hγ, hγ'])⟩
  · obtain rfl := hk (List.Perm.cons _ (List.Perm.swap _ _ _))
    rw [wt_1] at ha
    rw [wt_3 _ _ _ hac' hbc'] at hb
    rw [wt_2 _ _ _ _ hab'] at hc
    have e : α = α' := le_antisymm (key hsb (by linarith only [ha, hb, hc, hβ, hβ', hγ, hγ'])) (key hsc (by linarith only [ha, hb, hc, hβ, hβ', hγ, hγ']))
    subst e
    exact ⟨rfl, .inr rfl, by linarith only [ha, hb, hc, hβ, hβ', hγ, hγ'], .inl (by linarith only [ha, hb, hc, hβ, hβ', hγ, hγ']), by linarith only [ha, hb, hc, hβ, hβ', hγ, hγ'], .inr rfl⟩
  all_goals
    obtain rfl := hk (by
      first
      | exact (List.Perm.swap _ _ _).trans ((List.Perm.cons _ (List.Perm.swap _ _ _)).trans (List.Perm.swap _ _ _))
      | exact (List.Perm.cons _ (List.Perm.swap _ _ _)).trans (List.Perm.swap _ _ _)
      | exact (List.Perm.swap _ _ _).trans (List.Perm.cons _ (List.Perm.swap _ _ _)))
    simp only [wt_1, wt_2 _ _ _ _ hab', wt_3 _ _ _ hac' hbc'] at ha hb hc
    have e : α = α' := le_antisymm (by first | exact key hsa (by linarith only [ha, hb, hc, hβ, hβ', hγ, hγ']) | exact key hsb (by linarith only [ha, hb, hc, hβ, hβ', hγ, hγ']))
        (key hsc (by linarith only [ha, hb, hc, hβ, hβ', hγ, hγ']))
    subst e
    exact ⟨rfl, .inr rfl, by linarith only [ha, hb, hc, hβ, hβ', hγ, hγ'], .inl (by linarith only [ha, hb, hc, hβ, hβ', hγ, hγ']), by linarith only [ha, hb, hc, hβ, hβ', hγ, hγ'], .inl (by linarith only [ha, hb, hc, hβ, hβ', hγ, hγ'])⟩

/-- Coordinates in a part are determined by those in the parent: `s`, `t`, `u` are the coordinates of the centre. -/
theorem parts_core {k k' f f' a b c a' b' c' : Nat} {σ : Nat → Nat → K} {α β γ α' β' γ' : K} (hab : a ≠ b) (hac : a ≠ c)
    (hbc : b ≠ c) (hab' : a' ≠ b') (hac' : a' ≠ c') (hbc' : b' ≠ c') (hα : 0 ≤ α) (hβ : 0 ≤ β) (hγ : 0 ≤ γ) (hα' : 0 ≤ α')
    (hβ' : 0 ≤ β') (hγ' : 0 ≤ γ') (hsa : 0 < σ k a) (hsb : 0 < σ k b) (hsc : 0 < σ k c) (hsa' : 0 < σ k' a')
    (hsb' : 0 < σ k' b') (hsc' : 0 < σ k' c') (hs : α + β + γ = 1) (hs' : α' + β' + γ' = 1)
    (hk : [a, b, c].Perm [a', b', c'] → k = k') (hf : [a, b].Perm [a', b'] → f = f')
    (h : wt a b c (α * σ k a + β / 2 + γ) (α * σ k b + β / 2) (α * σ k c) =
      wt a' b' c' (α' * σ k' a' + β' / 2 + γ') (α' * σ k' b' + β' / 2) (α' * σ k' c')) :
    α = α' ∧ (α = 0 ∨ k = k') ∧ β = β' ∧ (β = 0 ∨ f = f') ∧ γ = γ' ∧ (γ = 0 ∨ a = a') := by
  rcases hα.eq_or_lt with h0 | h0
  · exact parts_zero hab hac hbc hab' hac' hbc' hα hβ hγ hα' hβ' hγ' hsa hsb hsc hsa' hsb' hsc' h0 hs hs' hk hf h
  · exact parts_pos hab hac hbc hab' hac' hbc' hα hβ hγ hα' hβ' hγ' hsa hsb hsc hsa' hsb' hsc' h0 hs hs' hk hf h

section
variable {topo : TMesh E → Topo} {order : List Nat → List Nat} {center : List E → Py E} {M M' : TMesh E} {cmap : List Nat}

/-- `σ k` are coordinates of the centre of the cell `k`. -/
def CenterCoords (M : TMesh E) (center : List E → Py E) (σ : Nat → Nat → K) : Prop :=
  ∀ (k i j l : Nat) (a b c z : E), M.cells[k]? = some [i, j, l] → M.verts[i]? = some a → M.verts[j]? = some b →
    M.verts[l]? = some c → center [a, b, c] = .ok z →
    0 < σ k i ∧ 0 < σ k j ∧ 0 < σ k l ∧ σ k i + σ k j + σ k l = 1 ∧ z = σ k i • a + σ k j • b + σ k l • c

omit [IsStrictOrderedRing K] in
theorem exists_centerCoords (hM : M.OK)
    (hc : ∀ k a b c z, M.At k a b c → center [a, b, c] = .ok z → Inside K z a b c) :
    ∃ σ : Nat → Nat → K, CenterCoords M center σ := by
  have : ∀ k : Nat, ∃ w : Nat → K, ∀ (i j l : Nat) (a b c z : E), M.cells[k]? = some [i, j, l] → M.verts[i]? = some a →
      M.verts[j]? = some b → M.verts[l]? = some c → center [a, b, c] = .ok z →
      0 < w i ∧ 0 < w j ∧ 0 < w l ∧ w i + w j + w l = 1 ∧ z = w i • a + w j • b + w l • c := by
    intro k
    by_cases hex : ∃ (i j l : Nat) (a b c z : E), M.cells[k]? = some [i, j, l] ∧ M.verts[i]? = some a ∧
      M.verts[j]? = some b ∧ M.verts[l]? = some c ∧ center [a, b, c] = .ok z
    · obtain ⟨i, j, l, a, b, c, z, h1, h2, h3, h4, h5⟩ := hex
      obtain ⟨s, t, u, hs, ht, hu, h6, h7⟩ := hc k a b c z ⟨i, j, l, h1, h2, h3, h4⟩ h5
      obtain ⟨i', j', l', he, hij, hil, hjl, _⟩ := hM.2 _ (List.mem_of_getElem? h1)
      simp only [List.cons.injEq, and_true] at he
      obtain ⟨rfl, rfl, rfl⟩ := he
      refine ⟨wt i j l s t u, ?_⟩
      intro i' j' l' a' b' c' z' h1' h2' h3' h4' h5'
      rw [h1] at h1'
      simp only [Option.some.injEq, List.cons.injEq, and_true] at h1'
      obtain ⟨rfl, rfl, rfl⟩ := h1'
      rw [h2] at h2'
      rw [h3] at h3'
      rw [h4] at h4'
      injection h2' with h2'
      injection h3' with h3'
      injection h4' with h4'
      subst h2' h3' h4'
      rw [h5] at h5'
      injection h5' with h5'
      subst h5'
      rw [wt_1, wt_2 _ _ _ _ hij, wt_3 _ _ _ hil hjl]
      exact ⟨hs, ht, hu, h6, h7⟩
    · refine ⟨fun _ => 0, ?_⟩
      intro i j l a b c z h1 h2 h3 h4 h5
      exact absurd ⟨i, j, l, a, b, c, z, h1, h2, h3, h4, h5⟩ hex
  choose σ hσ using this
  exact ⟨σ, hσ⟩

/-- A part: the centre of the cell `k`, the midpoint of the facet `f` and the vertex `a`; `b` is the other vertex of the facet
    and `c` the third vertex of the cell. -/
structure Part (topo : TMesh E → Topo) (M M' : TMesh E) (σ : Nat → Nat → K) (cell : List Nat) (k f a b c : Nat) (x y z : E) :
    Prop where
  parent : ∃ c0, M.cells[k]? = some c0 ∧ c0.Perm [a, b, c]
  hab : a ≠ b
  hac : a ≠ c
  hbc : b ≠ c
  ha : M.verts[a]? = some x
  hb : M.verts[b]? = some y
  hc : M.verts[c]? = some z
  facet : f < (topo M).nf
  verts : ((topo M).f2v f).Perm [a, b]
  cell : cell.Perm [M.verts.length + k, M.verts.length + M.cells.length + f, a]
  pa : 0 < σ k a
  pb : 0 < σ k b
  pc : 0 < σ k c
  sum : σ k a + σ k b + σ k c = 1
  center : M'.verts[M.verts.length + k]? = some (σ k a • x + σ k b • y + σ k c • z)
  mid : M'.verts[M.verts.length + M.cells.length + f]? = some ((1 / 2 : K) • (x + y))
  vert : M'.verts[a]? = some x

omit [IsStrictOrderedRing K] in
theorem exists_part (hT : TopoOK M (topo M)) (hM : M.OK) (ho : ∀ l, (order l).Perm l) {σ : Nat → Nat → K}
    (hσ : CenterCoords M center σ) (h : Made K topo order center M M' cmap) {cell : List Nat} (hj : cell ∈ M'.cells) :
    ∃ k f a b c x y z, Part topo M M' σ cell k f a b c x y z := by
  rw [h.cells] at hj
  obtain ⟨c0, hc0, rfl⟩ := List.mem_map.1 hj
  rw [List.mem_flatMap] at hc0
  obtain ⟨k, hk, hc0⟩ := hc0
  rw [List.mem_range] at hk
  obtain ⟨ia, ib, ic, he, hab, hac, hbc, ha, hb, hc⟩ := hM.2 _ (List.getElem_mem hk)
  have hk' : M.cells[k]? = some [ia, ib, ic] := by rw [List.getElem?_eq_getElem hk, he]
  obtain ⟨_, hp1, _⟩ := mem_parts hT hk'
  obtain ⟨f, v, w, rfl, hf1, hf2, hf3⟩ := hp1 c0 hc0
  have hcp := ho [M.verts.length + k, M.verts.length + M.cells.length + f, v]
  have ga := List.getElem?_eq_getElem ha
  have gb := List.getElem?_eq_getElem hb
  have gc := List.getElem?_eq_getElem hc
  have go : ∀ {v w : Nat} {x y : E}, ((topo M).f2v f).Perm [v, w] → M.verts[v]? = some x → M.verts[w]? = some y → _ :=
    fun h1 h2 h3 => part_points hT h hk' ga gb gc hf1 h1 h2 h3
  rcases pair_cases hab hac hbc hf3 with ⟨rfl, rfl⟩ | ⟨rfl, rfl⟩ | ⟨rfl, rfl⟩ | ⟨rfl, rfl⟩ | ⟨rfl, rfl⟩ | ⟨rfl, rfl⟩
  · obtain ⟨z, hz, hz', hm, hv⟩ := go hf2 gb gc
    obtain ⟨s1, s2, s3, s4, rfl⟩ := hσ k _ _ _ _ _ _ z hk' ga gb gc hz
    exact ⟨k, f, v, w, ia, _, _, _, ⟨_, hk', (List.Perm.swap _ _ _).trans (List.Perm.cons _ (List.Perm.swap _ _ _))⟩, hbc,
      hab.symm, hac.symm, gb, gc, ga, hf1, hf2, hcp, s2, s3, s1, by rw [← s4]; ring, by rw [hz']; congr 1; module, hm, hv⟩
  · obtain ⟨z, hz, hz', hm, hv⟩ := go hf2 gc gb
    obtain ⟨s1, s2, s3, s4, rfl⟩ := hσ k _ _ _ _ _ _ z hk' ga gb gc hz
    exact ⟨k, f, v, w, ia, _, _, _, ⟨_, hk', (List.Perm.swap _ _ _).trans ((List.Perm.cons _ (List.Perm.swap _ _ _)).trans
      (List.Perm.swap _ _ _))⟩, hbc.symm,
      hac.symm, hab.symm, gc, gb, ga, hf1, hf2, hcp, s3, s2, s1, by rw [← s4]; ring, by rw [hz']; congr 1; module, hm, hv⟩
  · obtain ⟨z, hz, hz', hm, hv⟩ := go hf2 ga gc
    obtain ⟨s1, s2, s3, s4, rfl⟩ := hσ k _ _ _ _ _ _ z hk' ga gb gc hz
    exact ⟨k, f, v, w, ib, _, _, _, ⟨_, hk', List.Perm.cons _ (List.Perm.swap _ _ _)⟩, hac,
      hab, hbc.symm, ga, gc, gb, hf1, hf2, hcp, s1, s3, s2, by rw [← s4]; ring, by rw [hz']; congr 1; module, hm, hv⟩
  · obtain ⟨z, hz, hz', hm, hv⟩ := go hf2 gc ga
    obtain ⟨s1, s2, s3, s4, rfl⟩ := hσ k _ _ _ _ _ _ z hk' ga gb gc hz
    exact ⟨k, f, v, w, ib, _, _, _, ⟨_, hk', (List.Perm.cons _ (List.Perm.swap _ _ _)).trans (List.Perm.swap _ _ _)⟩, hac.symm,
      hbc.symm, hab, gc, ga, gb, hf1, hf2, hcp, s3, s1, s2, by rw [← s4]; ring, by rw [hz']; congr 1; module, hm, hv⟩
  · obtain ⟨z, hz, hz', hm, hv⟩ := go hf2 ga gb
    obtain ⟨s1, s2, s3, s4, rfl⟩ := hσ k _ _ _ _ _ _ z hk' ga gb gc hz
    exact ⟨k, f, v, w, ic, _, _, _, ⟨_, hk', List.Perm.refl _⟩, hab,
      hac, hbc, ga, gb, gc, hf1, hf2, hcp, s1, s2, s3, by rw [← s4], hz', hm, hv⟩
  · obtain ⟨z, hz, hz', hm, hv⟩ := go hf2 gb ga
    obtain ⟨s1, s2, s3, s4, rfl⟩ := hσ k _ _ _ _ _ _ z hk' ga gb gc hz
    exact ⟨k, f, v, w, ic, _, _, _, ⟨_, hk', List.Perm.swap _ _ _⟩, hab.symm,
      hbc, hac, gb, ga, gc, hf1, hf2, hcp, s2, s1, s3, by rw [← s4]; ring, by rw [hz']; congr 1; module, hm, hv⟩

/-- Coordinates in a part give coordinates in the parent. -/
theorem Part.coords {σ : Nat → Nat → K} {j k f a b c : Nat} {cell : List Nat} {x y z p : E} {w : Nat → K}
    (hj : M'.cells[j]? = some cell) (P : Part topo M M' σ cell k f a b c x y z) (h : M'.Coords j p w) :
    M.Coords k p (wt a b c (w (M.verts.length + k) * σ k a + w (M.verts.length + M.cells.length + f) / 2 + w a)
      (w (M.verts.length + k) * σ k b + w (M.verts.length + M.cells.length + f) / 2) (w (M.verts.length + k) * σ k c)) := by
  obtain ⟨h0, _, h1, h2⟩ := Coords_cell h hj P.cell P.center P.mid P.vert
  obtain ⟨c0, hc0, hp⟩ := P.parent
  have q1 := P.pa.le
  have q2 := P.pb.le
  have q3 := P.pc.le
  have r1 := h0 (M.verts.length + k)
  have r2 := h0 (M.verts.length + M.cells.length + f)
  have r3 := h0 a
  refine Coords_of hc0 hp P.ha P.hb P.hc ?_ ?_ ?_ ?_
  · intro n
    unfold wt
    split_ifs <;> positivity
  · intro n h1 h2 h3
    simp [wt, h1, h2, h3]
  · rw [wt_1, wt_2 _ _ _ _ P.hab, wt_3 _ _ _ P.hac P.hbc]
    linear_combination h1 + w (M.verts.length + k) * P.sum
  · rw [wt_1, wt_2 _ _ _ _ P.hab, wt_3 _ _ _ P.hac P.hbc, h2]
    module

theorem made_inj (hT : TopoOK M (topo M)) (hM : M.OK) (hS : SharedFacets (topo M)) (ho : ∀ l, (order l).Perm l)
    (hc : ∀ k a b c z, M.At k a b c → center [a, b, c] = .ok z → Inside K z a b c)
    (h : Made K topo order center M M' cmap) (hC : Conforming K M) : Inj K M' := by
  obtain ⟨σ, hσ⟩ := exists_centerCoords hM hc
  intro j j' p w w' h1 h2
  have hex : ∀ {j : Nat} {w : Nat → K}, M'.Coords j p w → ∃ cell, M'.cells[j]? = some cell := by
    rintro j w ⟨_, _, _, _, _, _, h, _⟩
    exact ⟨_, h⟩
  obtain ⟨cell, hj⟩ := hex h1
  obtain ⟨cell', hj'⟩ := hex h2
  obtain ⟨k, f, a, b, c, x, y, z, P⟩ := exists_part hT hM ho hσ h (List.mem_of_getElem? hj)
  obtain ⟨k', f', a', b', c', x', y', z', P'⟩ := exists_part hT hM ho hσ h (List.mem_of_getElem? hj')
  have hw := hC.inj hM k k' p _ _ (P.coords hj h1) (P'.coords hj' h2)
  obtain ⟨r1, r2, r3, _⟩ := Coords_cell h1 hj P.cell P.center P.mid P.vert
  obtain ⟨r1', r2', r3', _⟩ := Coords_cell h2 hj' P'.cell P'.center P'.mid P'.vert
  obtain ⟨c0, hc0, hp⟩ := P.parent
  obtain ⟨c0', hc0', hp'⟩ := P'.parent
  obtain ⟨e1, e2, e3, e4, e5, e6⟩ := parts_core (f := f) (f' := f') P.hab P.hac P.hbc P'.hab P'.hac P'.hbc (r1 _) (r1 _) (r1 _) (r1' _) (r1' _)
    (r1' _) P.pa P.pb P.pc P'.pa P'.pb P'.pc r3 r3'
    (fun hq => hC.distinct k k' c0 c0' hc0 hc0' ((hp.trans hq).trans hp'.symm))
    (fun hq => hS f f' P.facet P'.facet ((P.verts.trans hq).trans P'.verts.symm)) hw
  have hk := (List.getElem?_eq_some_iff.1 hc0).1
  have hk' := (List.getElem?_eq_some_iff.1 hc0').1
  have hal := (List.getElem?_eq_some_iff.1 P.ha).1
  have hal' := (List.getElem?_eq_some_iff.1 P'.ha).1
  -- a weight which is zero on one side is zero on the other
  have z1 : k ≠ k' → w (M.verts.length + k) = 0 ∧ w' (M.verts.length + k') = 0 := fun hne => by
    rcases e2 with e2 | e2
    · exact ⟨e2, by rw [← e1, e2]⟩
    · exact absurd e2 hne
  have z2 : f ≠ f' → w (M.verts.length + M.cells.length + f) = 0 ∧ w' (M.verts.length + M.cells.length + f') = 0 :=
    fun hne => by
      rcases e4 with e4 | e4
      · exact ⟨e4, by rw [← e3, e4]⟩
      · exact absurd e4 hne
  have z3 : a ≠ a' → w a = 0 ∧ w' a' = 0 := fun hne => by
    rcases e6 with e6 | e6
    · exact ⟨e6, by rw [← e5, e6]⟩
    · exact absurd e6 hne
  funext n
  by_cases n1 : n = M.verts.length + k
  · subst n1
    by_cases hne : k = k'
    · subst hne; exact e1
    · rw [(z1 hne).1, r2' _ (by omega) (by omega) (by omega)]
  by_cases n1' : n = M.verts.length + k'
  · subst n1'
    have hne : k ≠ k' := fun e => n1 (by rw [e])
    rw [(z1 hne).2, r2 _ (by omega) (by omega) (by omega)]
  by_cases n2 : n = M.verts.length + M.cells.length + f
  · subst n2
    by_cases hne : f = f'
    · subst hne; exact e3
    · rw [(z2 hne).1, r2' _ (by omega) (by omega) (by omega)]
  by_cases n2' : n = M.verts.length + M.cells.length + f'
  · subst n2'
    have hne : f ≠ f' := fun e => n2 (by rw [e])
    rw [(z2 hne).2, r2 _ (by omega) (by omega) (by omega)]
  by_cases n3 : n = a
  · subst n3
    by_cases hne : n = a'
    · subst hne; exact e5
    · rw [(z3 hne).1, r2' _ (by omega) (by omega) (by omega)]
  by_cases n3' : n = a'
  · subst n3'
    have hne : a ≠ n := fun e => n3 e.symm
    rw [(z3 hne).2, r2 _ (by omega) (by omega) (by omega)]
  rw [r2 n n1 n2 n3, r2' n n1' n2' n3']

omit [AddCommGroup E] in
/-- Parts are listed once. -/
theorem nodup_parts (hT : TopoOK M (topo M)) (hM : M.OK) :
    ((List.range M.cells.length).flatMap (cellParts (topo M) M.verts.length M.cells.length)).Nodup := by
  rw [List.nodup_flatMap]
  constructor
  · intro k hk
    rw [List.mem_range] at hk
    obtain ⟨ia, ib, ic, he, hab, hac, hbc, _⟩ := hM.2 _ (List.getElem_mem hk)
    have hk' : M.cells[k]? = some [ia, ib, ic] := by rw [List.getElem?_eq_getElem hk, he]
    obtain ⟨hp, hf⟩ := hT k ia ib ic hk'
    unfold cellParts
    rw [List.nodup_flatMap]
    have hd : ((topo M).c2f k).Nodup := by
      have hd : [({ib, ic} : Finset Nat), {ia, ic}, {ia, ib}].Nodup := by
        have n1 : ({ib, ic} : Finset Nat) ≠ {ia, ic} := fun e => by
          have : ia ∈ ({ib, ic} : Finset Nat) := by rw [e]; simp
          simp only [Finset.mem_insert, Finset.mem_singleton] at this
          omega
        have n2 : ({ib, ic} : Finset Nat) ≠ {ia, ib} := fun e => by
          have : ia ∈ ({ib, ic} : Finset Nat) := by rw [e]; simp
          simp only [Finset.mem_insert, Finset.mem_singleton] at this
          omega
        have n3 : ({ia, ic} : Finset Nat) ≠ {ia, ib} := fun e => by
          have : ic ∈ ({ia, ib} : Finset Nat) := by rw [← e]; simp
          simp only [Finset.mem_insert, Finset.mem_singleton] at this
          omega
        simp [n1, n2, n3]
      exact List.Nodup.of_map _ (hp.nodup_iff.2 hd)
    constructor
    · intro f hfm
      have hfin : (topo M).f2v f |>.Nodup := by
        have hmem : ((topo M).f2v f).toFinset ∈ ([{ib, ic}, {ia, ic}, {ia, ib}] : List (Finset Nat)) :=
          hp.mem_iff.1 (List.mem_map.2 ⟨f, hfm, rfl⟩)
        have hcard : ((topo M).f2v f).toFinset.card = 2 := by
          simp only [List.mem_cons, List.not_mem_nil, or_false] at hmem
          rcases hmem with e | e | e <;> rw [e]
          · exact Finset.card_pair hbc
          · exact Finset.card_pair hac
          · exact Finset.card_pair hab
        rw [← Multiset.coe_nodup, ← Multiset.toFinset_card_eq_card_iff_nodup]
        exact hcard.trans (hf f hfm).2.symm
      refine List.Nodup.map ?_ hfin
      intro v w e
      simpa using e
    · refine hd.imp ?_
      intro f g hne
      simp only [Function.onFun, List.Disjoint]
      intro l h1 h2
      obtain ⟨v, _, rfl⟩ := List.mem_map.1 h1
      obtain ⟨w, _, e⟩ := List.mem_map.1 h2
      simp only [List.cons.injEq, and_true] at e
      exact hne (by omega)
  · refine List.nodup_range.imp ?_
    intro k k' hne
    simp only [Function.onFun, List.Disjoint]
    intro l h1 h2
    unfold cellParts at h1 h2
    obtain ⟨f, _, h1⟩ := List.mem_flatMap.1 h1
    obtain ⟨g, _, h2⟩ := List.mem_flatMap.1 h2
    obtain ⟨v, _, rfl⟩ := List.mem_map.1 h1
    obtain ⟨w, _, e⟩ := List.mem_map.1 h2
    simp only [List.cons.injEq, and_true] at e
    exact hne (by omega)

theorem made_distinct (hT : TopoOK M (topo M)) (hM : M.OK) (ho : ∀ l, (order l).Perm l)
    (h : Made K topo order center M M' cmap) (j j' : Nat) (c c' : List Nat) (hj : M'.cells[j]? = some c)
    (hj' : M'.cells[j']? = some c') (hp : c.Perm c') : j = j' := by
  rw [h.cells, List.getElem?_map] at hj hj'
  obtain ⟨c0, h0, rfl⟩ := Option.map_eq_some_iff.1 hj
  obtain ⟨c0', h0', rfl⟩ := Option.map_eq_some_iff.1 hj'
  have hp0 : c0.Perm c0' := ((ho c0).symm.trans hp).trans (ho c0')
  have hform : ∀ {c0 : List Nat} {j : Nat},
      ((List.range M.cells.length).flatMap (cellParts (topo M) M.verts.length M.cells.length))[j]? = some c0 →
      ∃ k f v, c0 = [M.verts.length + k, M.verts.length + M.cells.length + f, v] ∧ k < M.cells.length ∧
        v < M.verts.length := by
    intro c0 j hc0
    have hc0 := List.mem_of_getElem? hc0
    rw [List.mem_flatMap] at hc0
    obtain ⟨k, hk, hc0⟩ := hc0
    rw [List.mem_range] at hk
    obtain ⟨ia, ib, ic, he, hab, hac, hbc, ha, hb, hc⟩ := hM.2 _ (List.getElem_mem hk)
    have hk' : M.cells[k]? = some [ia, ib, ic] := by rw [List.getElem?_eq_getElem hk, he]
    obtain ⟨_, hp1, _⟩ := mem_parts hT hk'
    obtain ⟨f, v, w, rfl, _, _, hf3⟩ := hp1 c0 hc0
    refine ⟨k, f, v, rfl, hk, ?_⟩
    rcases pair_cases hab hac hbc hf3 with ⟨rfl, _⟩ | ⟨rfl, _⟩ | ⟨rfl, _⟩ | ⟨rfl, _⟩ | ⟨rfl, _⟩ | ⟨rfl, _⟩ <;> assumption
  obtain ⟨k, f, v, rfl, hk, hv⟩ := hform h0
  obtain ⟨k', f', v', rfl, hk', hv'⟩ := hform h0'
  have e : [M.verts.length + k, M.verts.length + M.cells.length + f, v] =
      [M.verts.length + k', M.verts.length + M.cells.length + f', v'] := by
    rcases perm3 hp0 with ⟨e1, e2, e3⟩ | ⟨e1, e2, e3⟩ | ⟨e1, e2, e3⟩ | ⟨e1, e2, e3⟩ | ⟨e1, e2, e3⟩ | ⟨e1, e2, e3⟩
    · rw [e1, e2, e3]
    all_goals exfalso; omega
  rw [← e] at h0'
  have hl := (List.getElem?_eq_some_iff.1 h0).1
  exact (List.getElem?_inj hl (nodup_parts hT hM)).1 (by rw [h0, h0'])

theorem made_conforming (hT : TopoOK M (topo M)) (hM : M.OK) (hS : SharedFacets (topo M)) (ho : ∀ l, (order l).Perm l)
    (hc : ∀ k a b c z, M.At k a b c → center [a, b, c] = .ok z → Inside K z a b c)
    (h : Made K topo order center M M' cmap) (hC : Conforming K M) : Conforming K M' :=
  (made_inj hT hM hS ho hc h hC).conforming (made_ok hT hM ho h) (made_distinct hT hM ho h)

end

end Verif.Dual
