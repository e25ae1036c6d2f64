import Verif.Spec.Variational
import Verif.Props.BlockForm
import Verif.Lemmas.Program
/-! # Lemmas on variational problems with several spaces -/
namespace Verif.Program
open Verif Ufl BlockOps BlockForm Collapse ApplyBc IIFunction Workflow Reduced Finset

variable {S K D : Type} [DecidableEq S] [Field K] [AddCommGroup D] [Module K D]

theorem addAll_ok {σ : Type} {one : σ → Integral S → Py σ} {P : Integral S → Prop} {Inv : σ → Prop}
    (hacc : ∀ s form, Inv s → ((add one s form).2 = none ↔ form ≠ [] ∧ ∀ I ∈ form, P I) ∧ Inv (add one s form).1) :
    ∀ (fs : List (List (Integral S))) (s r : σ), Inv s → (addAll one s fs = .ok r ↔
      (∀ f ∈ fs, f ≠ [] ∧ ∀ I ∈ f, P I) ∧ r = history one s fs)
  | [], s, r, _ => by
      simp only [addAll, history, List.not_mem_nil, false_implies, implies_true, true_and]
      exact ⟨fun h => by cases h; rfl, fun h => by rw [h]⟩
  | f :: fs, s, r, hi => by
      obtain ⟨h1, h2⟩ := hacc s f hi
      rw [addAll, history]
      cases hadd : add one s f with
      | mk s' e =>
          rw [hadd] at h1 h2
          cases e with
          | none =>
              have := addAll_ok hacc fs s' r h2
              dsimp only
              rw [this]
              have hf := h1.1 rfl
              constructor
              · rintro ⟨a, b⟩
                refine ⟨fun g hg => ?_, b⟩
                rcases List.mem_cons.1 hg with rfl | hg
                · exact hf
                · exact a g hg
              · rintro ⟨a, b⟩
                exact ⟨fun g hg => a g (by simp [hg]), b⟩
          | some e =>
              dsimp only
              constructor
              · intro h; cases h
              · rintro ⟨a, _⟩
                exact absurd (h1.2 (a f (by simp))) (by simp)

theorem history_append {σ : Type} (one : σ → Integral S → Py σ) : ∀ (fs : List (List (Integral S))) (s : σ) f,
    (add one (history one s fs) f).1 = history one s (fs ++ [f])
  | [], _, _ => rfl
  | g :: fs, s, f => by rw [history, List.cons_append, history, history_append one fs]

theorem addAll2_ok {W : List S} {fs : List (List (Integral S))} {r : List (List (Entry S))} :
    addAll (addOne2 W) (start2 W) fs = .ok r ↔
      (∀ f ∈ fs, f ≠ [] ∧ ∀ I ∈ f, ∃ i j, Belongs2 W i j I) ∧ r = history (addOne2 W) (start2 W) fs := by
  refine addAll_ok (Inv := fun s => ∃ gs, s = history (addOne2 W) (start2 W) gs) ?_ fs _ r ⟨[], rfl⟩
  rintro s form ⟨gs, rfl⟩
  exact ⟨(add_accepts W gs form).1, gs ++ [form], history_append _ _ _ _⟩

theorem addAll1_ok {null : S → List (Integral S)} (hnull : ∀ V, null V ≠ [] ∧ ∀ I ∈ null V, OnlyArg 0 V I) {W : List S}
    {fs : List (List (Integral S))} {r : List (Entry S)} :
    addAll (addOne1 W) (start1 null W) fs = .ok r ↔
      (∀ f ∈ fs, f ≠ [] ∧ ∀ I ∈ f, ∃ i, Belongs1 W i I) ∧ r = history (addOne1 W) (start1 null W) fs := by
  refine addAll_ok (Inv := fun s => ∃ gs, s = history (addOne1 W) (start1 null W) gs) ?_ fs _ r ⟨[], rfl⟩
  rintro s form ⟨gs, rfl⟩
  exact ⟨add_accepts_linear null hnull W gs form, gs ++ [form], history_append _ _ _ _⟩

theorem accepted_all {P : Integral S → Prop} : ∀ {f : List (Integral S)}, (∀ I ∈ f, P I) → accepted P f = f
  | [], _ => rfl
  | I :: f, h => by
      have := accepted_all (f := f) (fun J hJ => h J (by simp [hJ]))
      rw [accepted] at this ⊢
      rw [List.takeWhile_cons, if_pos (by simpa using h I (by simp)), this]

theorem flatMap_accepted {P : Integral S → Prop} : ∀ {fs : List (List (Integral S))}, (∀ f ∈ fs, ∀ I ∈ f, P I) →
    fs.flatMap (accepted P) = fs.flatten
  | [], _ => rfl
  | f :: fs, h => by
      rw [List.flatMap_cons, flatMap_accepted (fun g hg => h g (by simp [hg])), List.flatten_cons]
      rw [accepted_all (h f (by simp))]

theorem sum_map_range {α : Type} (g : α → K) : ∀ l : List α,
    (l.map g).sum = ∑ i ∈ range l.length, ((l[i]?).map g).getD 0
  | [] => by simp
  | a :: l => by
      rw [List.map_cons, List.sum_cons, List.length_cons, sum_range_succ', sum_map_range g l, add_comm]
      simp

open Classical in
/-- A sum over integrals by the blocks they belong to. -/
theorem sum_blocks {α : Type} {n : Nat} {B : Nat → α → Prop} (huniq : ∀ x i j, B i x → B j x → i = j) (g : α → K) :
    ∀ l : List α, (∀ x ∈ l, ∃ i, i < n ∧ B i x) →
      ∑ i ∈ range n, ((l.filter (fun x => B i x)).map g).sum = (l.map g).sum
  | [], _ => by simp
  | a :: l, h => by
      have ih := sum_blocks huniq g l (fun x hx => h x (by simp [hx]))
      obtain ⟨i, hi, hb⟩ := h a (by simp)
      have : ∀ k, (((a :: l).filter (fun x => B k x)).map g).sum =
          (if k = i then g a else 0) + ((l.filter (fun x => B k x)).map g).sum := by
        intro k
        by_cases hk : B k a
        · obtain rfl := huniq a k i hk hb
          rw [List.filter_cons_of_pos (by simpa using hk), if_pos rfl, List.map_cons, List.sum_cons]
        · rw [List.filter_cons_of_neg (by simpa using hk), if_neg (by rintro rfl; exact hk hb), zero_add]
      simp only [this, sum_add_distrib, sum_ite_eq', mem_range, hi, if_true, ih, List.map_cons, List.sum_cons]

open Classical in
/-- The same for tables of blocks. -/
theorem sum_blocks2 {α : Type} {n : Nat} {B : Nat → Nat → α → Prop}
    (huniq : ∀ x i j i' j', B i j x → B i' j' x → i = i' ∧ j = j') (g : α → K) :
    ∀ l : List α, (∀ x ∈ l, ∃ i j, i < n ∧ j < n ∧ B i j x) →
      ∑ i ∈ range n, ∑ j ∈ range n, ((l.filter (fun x => B i j x)).map g).sum = (l.map g).sum
  | [], _ => by simp
  | a :: l, h => by
      have ih := sum_blocks2 huniq g l (fun x hx => h x (by simp [hx]))
      obtain ⟨i, j, hi, hj, hb⟩ := h a (by simp)
      have : ∀ k m, (((a :: l).filter (fun x => B k m x)).map g).sum =
          (if k = i then (if m = j then g a else 0) else 0) + ((l.filter (fun x => B k m x)).map g).sum := by
        intro k m
        by_cases hk : B k m a
        · obtain ⟨rfl, rfl⟩ := huniq a k m i j hk hb
          rw [List.filter_cons_of_pos (by simpa using hk), if_pos rfl, if_pos rfl, List.map_cons, List.sum_cons]
        · rw [List.filter_cons_of_neg (by simpa using hk)]
          by_cases h1 : k = i
          · rw [if_pos h1, if_neg (by rintro rfl; subst h1; exact hk hb), zero_add]
          · rw [if_neg h1, zero_add]
      have hsum : ∑ k ∈ range n, ∑ m ∈ range n, (if k = i then (if m = j then g a else 0) else 0) = g a := by
        rw [sum_eq_single i]
        · simp [hj]
        · intro k _ hk; simp [hk]
        · intro h; exact absurd (mem_range.2 hi) h
      simp only [this, sum_add_distrib, ih, hsum, List.map_cons, List.sum_cons]

/-- Test and trial functions of one integral. -/
theorem den_mixed (sem : Sem S K D) (red : Reduction S K) (env : Env S K) {v u : S → Nat → K} {v' u' : Nat → K}
    {I : Integral S} (h0 : ∀ t ∈ terms I.integrand, ∀ V, t.base = .argument 0 V → v V = v')
    (h1 : ∀ t ∈ terms I.integrand, ∀ Q, t.base = .argument 1 Q → u Q = u')
    (htwo : ∀ t ∈ terms I.integrand, ∀ n V, t.base = .argument n V → n ≤ 1) (rest : Nat) :
    den sem (mixed sem (reduced sem red) env v u rest) I.integrand = den sem (meaning sem red env v' u' rest) I.integrand := by
  refine den_congr sem _ _ _ (fun t ht => ?_)
  obtain ⟨base, attrs⟩ := t
  match base with
  | .argument 0 V => simp only [mixed, meaning]; rw [h0 _ ht V rfl]
  | .argument 1 V => simp only [mixed, meaning]; rw [h1 _ ht V rfl]
  | .argument (n + 2) V => have := htwo _ ht (n + 2) V rfl; omega
  | .other i => rfl

theorem reduced_zero (sem : Sem S K D) (red : Reduction S K) (rest : Nat) (V : S) (attrs : List (String × Nat)) :
    reduced sem red rest V attrs 0 = 0 := by
  have : ∀ V, Reduced.fn sem V 0 = 0 := by intro V; simp [Reduced.fn]
  rw [reduced]
  split
  · exact this V
  · simp only [Pi.zero_apply, mul_zero, sum_const_zero]
    exact this _

/-- The integral is zero if the test function is. -/
theorem integral_zero {sem : Sem S K D} {red : Reduction S K} {env : Env S K} {mods : List (Assembler S K)}
    {I : Integral S} (hw : WellFormed sem mods I) {V : S} (hV : OnlyArg 0 V I) {v u : S → Nat → K} (hv : v V = 0) :
    sem.integral I.rest (den sem (mixed sem (reduced sem red) env v u I.rest) I.integrand) = 0 := by
  obtain ⟨⟨t, ht, hb⟩, _⟩ := hV
  have hl := (hw.linear t ht 0 V hb (mixed sem (reduced sem red) env v u I.rest)).map_zero
  rw [← hl]
  congr 1
  refine den_congr sem _ _ _ (fun s _ => ?_)
  split
  · rename_i hs
    subst hs
    obtain ⟨base, attrs⟩ := s
    simp only at hb
    subst hb
    simp only [mixed, hv, reduced_zero]
  · rfl

end Verif.Program
