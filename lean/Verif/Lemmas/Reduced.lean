import Verif.Spec.Reduced
import Verif.Lemmas.BlockForm
import Verif.Props.Ufl
import Mathlib.Algebra.BigOperators.Module
import Mathlib.Algebra.Module.LinearMap.Basic
/-! # Lemmas about reduced assembly -/
namespace Verif.Reduced
open Verif Ufl BlockForm BlockOps Finset

variable {S K D : Type} [DecidableEq S] [CommRing K] [AddCommGroup D] [Module K D]

/-! ### Values of integrands -/
mutual
theorem den_congr (sem : Sem S K D) (f g : Term S → D) : ∀ e : UExpr S, (∀ t ∈ terms e, f t = g t) → den sem f e = den sem g e
  | .term t, h => h t (by simp [terms])
  | .node k ops, h => by rw [den, den, denAll_congr sem f g ops (fun t ht => h t (by simpa [terms] using ht))]
theorem denAll_congr (sem : Sem S K D) (f g : Term S → D) : ∀ es : List (UExpr S), (∀ t ∈ termsAll es, f t = g t) →
    denAll sem f es = denAll sem g es
  | [], _ => rfl
  | e :: es, h => by
      rw [denAll, denAll, den_congr sem f g e (fun t ht => h t (by simp [termsAll, ht])),
        denAll_congr sem f g es (fun t ht => h t (by simp [termsAll, ht]))]
end

mutual
theorem den_subst (sem : Sem S K D) (f : Term S → Term S) (val : Term S → D) : ∀ e : UExpr S,
    den sem val (subst (fun t => .term (f t)) e) = den sem (fun t => val (f t)) e
  | .term t => rfl
  | .node k ops => by simp only [subst, den, denAll_subst sem f val ops]
theorem denAll_subst (sem : Sem S K D) (f : Term S → Term S) (val : Term S → D) : ∀ es : List (UExpr S),
    denAll sem val (substAll (fun t => .term (f t)) es) = denAll sem (fun t => val (f t)) es
  | [] => rfl
  | e :: es => by simp only [substAll, denAll, den_subst sem f val e, denAll_subst sem f val es]
end

/-! ### Arguments of forms -/

theorem mem_argPairs (n : Nat) (V : S) : ∀ ts : List (Term S),
    (n, V) ∈ argPairs ts ↔ ∃ t ∈ ts, t.base = .argument n V
  | [] => by simp [argPairs]
  | ⟨.argument k Q, as⟩ :: ts => by
      simp only [argPairs, List.mem_cons, Prod.mk.injEq, exists_eq_or_imp, Base.argument.injEq, mem_argPairs n V ts]
      constructor
      · rintro (⟨rfl, rfl⟩ | h)
        · exact Or.inl ⟨rfl, rfl⟩
        · exact Or.inr h
      · rintro (⟨rfl, rfl⟩ | h)
        · exact Or.inl ⟨rfl, rfl⟩
        · exact Or.inr h
  | ⟨.other i, as⟩ :: ts => by simp [argPairs, mem_argPairs n V ts]

/-- The argument `(n, V)` occurs in the form. -/
def HasArg (F : List (Integral S)) (n : Nat) (V : S) : Prop :=
  ∃ I ∈ F, ∃ t ∈ terms I.integrand, t.base = .argument n V

theorem mem_terms_args (e : UExpr S) (n : Nat) (V : S) :
    (n, V) ∈ argPairs (arguments.terms e) ↔ ∃ t ∈ terms e, t.base = .argument n V := by
  rw [mem_argPairs, arguments.terms, traverse_terminals, argsOf_terms]
  constructor
  · rintro ⟨t, ht, hb⟩; exact ⟨t, (List.mem_filter.mp ht).1, hb⟩
  · rintro ⟨t, ht, hb⟩; exact ⟨t, List.mem_filter.mpr ⟨ht, by simp [hb]⟩, hb⟩

theorem arguments_ok {F : List (Integral S)} {args : List (Nat × S)} (h : arguments F = .ok args) :
    (∀ n V, (n, V) ∈ args ↔ HasArg F n V) ∧ (∀ n V Q, HasArg F n V → HasArg F n Q → V = Q) ∧
    args.Nodup := by
  rw [arguments] at h
  have hmem : ∀ n V, (n, V) ∈ (F.flatMap (fun I => argPairs (arguments.terms I.integrand))).dedup ↔ HasArg F n V := by
    intro n V
    rw [List.mem_dedup, List.mem_flatMap, HasArg]
    simp only [mem_terms_args]
  split at h
  · rename_i hall
    cases h
    rw [List.all_eq_true] at hall
    refine ⟨fun n V => ?_, fun n V Q hV hQ => ?_, ?_⟩
    · rw [(List.perm_insertionSort _ _).mem_iff, hmem]
    · have := hall (n, V) ((hmem n V).mpr hV)
      rw [List.all_eq_true] at this
      have := this (n, Q) ((hmem n Q).mpr hQ)
      simpa using this
    · exact (List.perm_insertionSort _ _).nodup_iff.mpr (List.nodup_dedup _)
  · cases h

/-! ### The fallback -/

theorem isLinear_sum {L : D → K} (h : IsLinearMap K L) (n : Nat) (x : Nat → K) (b : Nat → D) :
    L (∑ i ∈ range n, x i • b i) = ∑ i ∈ range n, x i * L (b i) := by
  have := map_sum (IsLinearMap.mk' L h) (fun i => x i • b i) (range n)
  simp only [IsLinearMap.mk'_apply] at this
  rw [this]
  exact sum_congr rfl (fun i _ => by rw [h.map_smul]; rfl)

/-- All arguments with number `n` are from `V`. -/
def Only (I : Integral S) (n : Nat) (V : S) : Prop := ∀ t ∈ terms I.integrand, ∀ Q, t.base = .argument n Q → Q = V

theorem linear_test (sem : Sem S K D) (I : Integral S) (hc : Consistent I.integrand) (hl : Linear sem I) (V : S) (s : Term S)
    (hs : s ∈ terms I.integrand) (hb : s.base = .argument 0 V) (ho : Only I 0 V) (env : Env S K) (y : D) :
    IsLinearMap K (fun x => sem.integral I.rest (den sem (plainVal sem env x y) I.integrand)) := by
  have h := hl s hs 0 V hb (plainVal sem env 0 y)
  have e : (fun x => sem.integral I.rest (den sem (plainVal sem env x y) I.integrand)) =
      fun d => sem.integral I.rest (den sem (fun t => if t = s then d else plainVal sem env 0 y t) I.integrand) := by
    funext d
    congr 1
    refine den_congr sem _ _ _ (fun t ht => ?_)
    by_cases hts : t = s
    · subst hts; simp [plainVal, hb]
    · rw [if_neg hts]
      unfold plainVal
      split
      · rename_i Q hQ
        have := ho t ht Q hQ
        subst this
        exact absurd (hc t ht s hs (by rw [hQ, hb])) hts
      · rfl
      · rfl
  rw [e]; exact h

theorem linear_trial (sem : Sem S K D) (I : Integral S) (hc : Consistent I.integrand) (hl : Linear sem I) (V : S) (s : Term S)
    (hs : s ∈ terms I.integrand) (hb : s.base = .argument 1 V) (ho : Only I 1 V)
    (h1 : ∀ t ∈ terms I.integrand, ∀ n V, t.base = .argument n V → n ≤ 1) (env : Env S K) (x : D) :
    IsLinearMap K (fun y => sem.integral I.rest (den sem (plainVal sem env x y) I.integrand)) := by
  have h := hl s hs 1 V hb (plainVal sem env x 0)
  have e : (fun y => sem.integral I.rest (den sem (plainVal sem env x y) I.integrand)) =
      fun d => sem.integral I.rest (den sem (fun t => if t = s then d else plainVal sem env x 0 t) I.integrand) := by
    funext d
    congr 1
    refine den_congr sem _ _ _ (fun t ht => ?_)
    by_cases hts : t = s
    · subst hts; simp [plainVal, hb]
    · rw [if_neg hts]
      unfold plainVal
      split
      · rfl
      · rename_i n Q hn hQ
        have hle := h1 t ht n Q hQ
        have : n = 1 := by
          rcases Nat.lt_or_ge n 1 with h0 | h0
          · have : n = 0 := by omega
            subst this
            exact absurd rfl (hn · )
          · omega
        subst this
        have := ho t ht Q hQ
        subst this
        exact absurd (hc t ht s hs (by rw [hQ, hb])) hts
      · rfl
  rw [e]; exact h

end Verif.Reduced
