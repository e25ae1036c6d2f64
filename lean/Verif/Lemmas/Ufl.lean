import Verif.Spec.Ufl
/-! # Lemmas about expression trees -/
namespace Verif.Ufl
open Verif

variable {S : Type} [DecidableEq S]

theorem equalTerm_iff (s t : Term S) (attributes : Option (List String)) :
    equalTerm s t attributes = true ↔ Same attributes s t := by
  unfold equalTerm Same
  by_cases hb : s.base = t.base
  · simp only [hb, ne_eq, not_true_eq_false, if_false, true_and]
    cases attributes with
    | none => simp
    | some as =>
        simp only [Option.some.injEq, forall_eq']
        constructor
        · intro h
          split at h
          · rename_i h2
            simp only [Bool.and_eq_true, List.all_eq_true] at h2
            simp only [List.all_eq_true, decide_eq_true_eq] at h
            intro a ha
            obtain ⟨v, hv⟩ := Option.isSome_iff_exists.mp (h2.1 a ha)
            exact ⟨v, hv, by rw [← h a ha, hv]⟩
          · cases h
        · intro h
          rw [if_pos]
          · simp only [List.all_eq_true, decide_eq_true_eq]
            intro a ha
            obtain ⟨v, h1, h2⟩ := h a ha
            rw [h1, h2]
          · simp only [Bool.and_eq_true, List.all_eq_true]
            constructor
            · intro a ha; obtain ⟨v, h1, h2⟩ := h a ha; simp [h1]
            · intro a ha; obtain ⟨v, h1, h2⟩ := h a ha; simp [h2]
  · simp [hb]

theorem Same.symm {attributes : Option (List String)} {s t : Term S} (h : Same attributes s t) :
    Same attributes t s :=
  ⟨h.1.symm, fun as h1 a ha => by obtain ⟨v, x, y⟩ := h.2 as h1 a ha; exact ⟨v, y, x⟩⟩

mutual
theorem traverse_terminals : ∀ e : UExpr S, traverseTerminals e = (terms e).map .term
  | .term t => rfl
  | .node k ops => by
      rw [traverseTerminals, traverse, List.filter_append, terms, ← traverseAll_terminals ops]
      simp [isTerminal]
theorem traverseAll_terminals : ∀ es : List (UExpr S), (traverseAll es).filter isTerminal = (termsAll es).map .term
  | [] => rfl
  | e :: es => by
      rw [traverseAll, List.filter_append, termsAll, List.map_append, ← traverseAll_terminals es,
        ← traverse_terminals e, traverseTerminals]
end

/-- A terminal target is contained when some terminal is the same. -/
theorem contains_term (e : UExpr S) (a : Term S) (attributes : Option (List String)) :
    contains e (.term a) attributes = true ↔ ∃ t ∈ terms e, Same attributes t a := by
  cases e with
  | term t => simp [contains, isTerminal, isEqualTerminal, equalTerm_iff, terms]
  | node k ops =>
      simp only [contains, isTerminal, if_true, Bool.false_eq_true, if_false, traverse_terminals, List.any_map,
        List.any_eq_true, Function.comp]
      constructor
      · rintro ⟨t, ht, h⟩
        simp only [pyMatches, isEqualTerminal, equalTerm_iff] at h
        exact ⟨t, ht, h.symm⟩
      · rintro ⟨t, ht, h⟩
        refine ⟨t, ht, ?_⟩
        simp only [pyMatches, isEqualTerminal, equalTerm_iff]
        exact h.symm

mutual
theorem subst_id (f : Term S → UExpr S) : ∀ e : UExpr S, (∀ t ∈ terms e, f t = .term t) → subst f e = e
  | .term t, h => h t (by simp [terms])
  | .node k ops, h => by rw [subst, substAll_id f ops (fun t ht => h t (by simpa [terms] using ht))]
theorem substAll_id (f : Term S → UExpr S) : ∀ es : List (UExpr S), (∀ t ∈ termsAll es, f t = .term t) →
    substAll f es = es
  | [], _ => rfl
  | e :: es, h => by
      rw [substAll, subst_id f e (fun t ht => h t (by simp [termsAll, ht])),
        substAll_id f es (fun t ht => h t (by simp [termsAll, ht]))]
end

mutual
theorem subst_congr (f g : Term S → UExpr S) : ∀ e : UExpr S, (∀ t ∈ terms e, f t = g t) → subst f e = subst g e
  | .term t, h => h t (by simp [terms])
  | .node k ops, h => by rw [subst, subst, substAll_congr f g ops (fun t ht => h t (by simpa [terms] using ht))]
theorem substAll_congr (f g : Term S → UExpr S) : ∀ es : List (UExpr S), (∀ t ∈ termsAll es, f t = g t) →
    substAll f es = substAll g es
  | [], _ => rfl
  | e :: es, h => by
      rw [substAll, substAll, subst_congr f g e (fun t ht => h t (by simp [termsAll, ht])),
        substAll_congr f g es (fun t ht => h t (by simp [termsAll, ht]))]
end

mutual
theorem subst_subst (f : Term S → Term S) (g : Term S → UExpr S) : ∀ e : UExpr S,
    subst g (subst (fun t => .term (f t)) e) = subst (fun t => g (f t)) e
  | .term t => rfl
  | .node k ops => by simp only [subst, substAll_subst f g ops]
theorem substAll_subst (f : Term S → Term S) (g : Term S → UExpr S) : ∀ es : List (UExpr S),
    substAll g (substAll (fun t => .term (f t)) es) = substAll (fun t => g (f t)) es
  | [] => rfl
  | e :: es => by simp only [substAll, subst_subst f g e, substAll_subst f g es]
end

mutual
theorem terms_subst (f : Term S → Term S) : ∀ e : UExpr S, terms (subst (fun t => .term (f t)) e) = (terms e).map f
  | .term t => rfl
  | .node k ops => by simp only [subst, terms, termsAll_subst f ops]
theorem termsAll_subst (f : Term S → Term S) : ∀ es : List (UExpr S),
    termsAll (substAll (fun t => .term (f t)) es) = (termsAll es).map f
  | [] => rfl
  | e :: es => by simp only [substAll, termsAll, List.map_append, terms_subst f e, termsAll_subst f es]
end

end Verif.Ufl
