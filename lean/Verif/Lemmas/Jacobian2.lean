import Verif.Lemmas.Jacobian
import Verif.Props.Ufl
import Verif.Lemmas.BlockOps
/-! # The terms which the loop of `ii_derivative` builds -/
namespace Verif.Jacobian
open Verif Ufl BlockForm BlockOps

variable {S : Type} [DecidableEq S]

mutual
theorem mapTerms_eq (g : Term S → Term S) : ∀ e : UExpr S, mapTerms g e = subst (fun t => .term (g t)) e
  | .term t => rfl
  | .node k ops => by rw [mapTerms, subst, mapTermsAll_eq g ops]
theorem mapTermsAll_eq (g : Term S → Term S) : ∀ es : List (UExpr S), mapTermsAll g es = substAll (fun t => .term (g t)) es
  | [] => rfl
  | e :: es => by rw [mapTermsAll, substAll, mapTerms_eq g e, mapTermsAll_eq g es]
end

mutual
/-- Replacing terminals gives an equal expression (for UFL) when all of them are replaced by equal ones. -/
theorem uflEq_subst (g : Term S → Term S) : ∀ e : UExpr S,
    uflEq (subst (fun t => .term (g t)) e) e = true ↔ ∀ t ∈ terms e, (g t).base = t.base
  | .term t => by simp [subst, uflEq, terms]
  | .node k ops => by
      simp only [subst, uflEq, terms, beq_self_eq_true, Bool.true_and]
      exact uflEqAll_subst g ops
theorem uflEqAll_subst (g : Term S → Term S) : ∀ es : List (UExpr S),
    uflEqAll (substAll (fun t => .term (g t)) es) es = true ↔ ∀ t ∈ termsAll es, (g t).base = t.base
  | [] => by simp [substAll, uflEqAll, termsAll]
  | e :: es => by
      simp only [substAll, uflEqAll, termsAll, Bool.and_eq_true, uflEq_subst g e, uflEqAll_subst g es, List.mem_append]
      constructor
      · rintro ⟨h1, h2⟩ t (ht | ht)
        · exact h1 t ht
        · exact h2 t ht
      · intro h
        exact ⟨fun t ht => h t (.inl ht), fun t ht => h t (.inr ht)⟩
end

/-! ## Sets of terminals -/

theorem firstOnly_mem : ∀ (l seen : List (Term S)) (t : Term S), t ∈ firstOnly seen l → t ∈ l
  | [], _, _, h => by simp [firstOnly] at h
  | x :: l, seen, t, h => by
      rw [firstOnly] at h
      split at h
      · exact List.mem_cons_of_mem _ (firstOnly_mem l seen t h)
      · rcases List.mem_cons.1 h with h | h
        · simp [h]
        · exact List.mem_cons_of_mem _ (firstOnly_mem l _ t h)

theorem firstOnly_seen : ∀ (l seen : List (Term S)) (t : Term S), t ∈ firstOnly seen l → ∀ s ∈ seen, s.base ≠ t.base
  | [], _, _, h => by simp [firstOnly] at h
  | x :: l, seen, t, h => by
      rw [firstOnly] at h
      split at h
      · exact firstOnly_seen l seen t h
      · rename_i hx
        rcases List.mem_cons.1 h with h | h
        · subst h
          intro s hs hb
          exact hx (List.any_eq_true.2 ⟨s, hs, by simp [hb]⟩)
        · intro s hs
          exact firstOnly_seen l _ t h s (List.mem_cons_of_mem _ hs)

theorem firstOnly_nodup : ∀ (l seen : List (Term S)), (firstOnly seen l).Nodup
  | [], _ => by simp [firstOnly]
  | x :: l, seen => by
      rw [firstOnly]
      split
      · exact firstOnly_nodup l seen
      · refine List.nodup_cons.2 ⟨fun h => ?_, firstOnly_nodup l _⟩
        exact firstOnly_seen l _ x h x (by simp) rfl

/-- Every terminal is represented by an equal one. -/
theorem firstOnly_covers : ∀ (l seen : List (Term S)) (t : Term S), t ∈ l → (∀ s ∈ seen, s.base ≠ t.base) →
    ∃ s ∈ firstOnly seen l, s.base = t.base
  | [], _, _, h, _ => by simp at h
  | x :: l, seen, t, h, hs => by
      rw [firstOnly]
      split
      · rename_i hx
        rcases List.mem_cons.1 h with h | h
        · subst h
          obtain ⟨s, hs1, hs2⟩ := List.any_eq_true.1 hx
          exact absurd (by simpa using hs2) (hs s hs1)
        · exact firstOnly_covers l seen t h hs
      · by_cases hb : x.base = t.base
        · exact ⟨x, by simp, hb⟩
        · rcases List.mem_cons.1 h with h | h
          · exact absurd (by rw [h]) hb
          · obtain ⟨s, h1, h2⟩ := firstOnly_covers l (x :: seen) t h (by
              intro s hs'
              rcases List.mem_cons.1 hs' with rfl | hs'
              · exact hb
              · exact hs s hs')
            exact ⟨s, List.mem_cons_of_mem _ h1, h2⟩

theorem formTerminals_eq (f : List (Integral S)) : formTerminals f = (formTerms f).map .term := by
  rw [formTerminals, formTerms, List.map_flatMap]
  congr 1
  funext I
  exact traverse_terminals I.integrand

theorem coefsOf_terms (K : Kinds S) : ∀ l : List (Term S), coefsOf K (l.map .term) = l.filter (isCoefficient K)
  | [] => rfl
  | ⟨.argument n V, as⟩ :: l => by simp [coefsOf, coefsOf_terms K l, isCoefficient]
  | ⟨.other i, as⟩ :: l => by
      simp only [List.map_cons, coefsOf, coefsOf_terms K l, List.filter_cons, isCoefficient]
      rfl

/-- The coefficients of a form whose equal terminals are equal objects. -/
theorem mem_coefficients (K : Kinds S) (f : List (Integral S))
    (hobj : ∀ t ∈ formTerms f, ∀ t' ∈ formTerms f, isCoefficient K t = true → t.base = t'.base → t = t') (c : Term S) :
    c ∈ coefficients K f ↔ c ∈ formTerms f ∧ isCoefficient K c = true := by
  rw [coefficients, List.mem_insertionSort, formTerminals_eq, coefsOf_terms]
  constructor
  · intro h
    have := List.mem_filter.1 (firstOnly_mem _ _ _ h)
    exact this
  · intro h
    obtain ⟨s, hs, hb⟩ := firstOnly_covers ((formTerms f).filter (isCoefficient K)) [] c (List.mem_filter.2 h) (by simp)
    have hs' := List.mem_filter.1 (firstOnly_mem _ _ _ hs)
    rw [← hobj s hs'.1 c h.1 hs'.2 hb]
    exact hs

theorem nodup_coefficients (K : Kinds S) (f : List (Integral S)) : (coefficients K f).Nodup :=
  (List.perm_insertionSort _ _).nodup_iff.2 (firstOnly_nodup _ _)

theorem arguments_eq (f : List (Integral S)) : arguments f = firstOnly []
    ((formTerms f).filter (fun t => match t.base with | .argument _ _ => true | .other _ => false)) := by
  rw [arguments, formTerminals_eq, argsOf_terms]
  rfl

/-- A functional has no trial functions. -/
theorem no_trial (f : List (Integral S)) (v : Term S) (h : isOkayFunctional f = .ok v) :
    ∀ t ∈ formTerms f, ∀ V, t.base ≠ .argument 1 V := by
  intro t ht V hb
  rw [isOkayFunctional, arguments_eq] at h
  obtain ⟨s, hs, hsb⟩ := firstOnly_covers ((formTerms f).filter
    (fun t => match t.base with | .argument _ _ => true | .other _ => false)) [] t
    (List.mem_filter.2 ⟨ht, by simp [hb]⟩) (by simp)
  split at h
  · rename_i a ha
    rw [ha, List.mem_singleton] at hs
    subst hs
    rw [hsb, hb] at h
    simp at h
  · cases h

/-! ## One coefficient -/

omit [DecidableEq S] in
theorem attr_restriction {fi : Term S} {r : String × Nat} (h : restriction fi = some r) : fi.attr r.1 = some r.2 := by
  rw [restriction, Option.bind_eq_some_iff] at h
  obtain ⟨a, _, h2⟩ := h
  rw [Option.map_eq_some_iff] at h2
  obtain ⟨v, h3, rfl⟩ := h2
  exact h3

theorem same_self' (fi : Term S) : Same (attributesOf fi) fi fi := by
  refine ⟨rfl, fun as h a ha => ?_⟩
  rw [attributesOf, Option.map_eq_some_iff] at h
  obtain ⟨r, hr, rfl⟩ := h
  rw [List.mem_singleton] at ha
  subst ha
  exact ⟨r.2, attr_restriction hr, attr_restriction hr⟩

/-- The substitution of the loop. -/
def sub1 (fi s : Term S) (t : Term S) : Term S := if t = fi then s else t

theorem replace_fi (fi s : Term S) (e : UExpr S) (hobj : ∀ t ∈ terms e, t.base = fi.base → t = fi) :
    replace (.term fi) (.term s) (attributesOf fi) e = subst (fun t => .term (sub1 fi s t)) e := by
  classical
  rw [replace_substitutes]
  refine subst_congr _ _ e (fun t ht => ?_)
  simp only [sub1]
  by_cases h : t = fi
  · subst h
    rw [if_pos (same_self' t), if_pos rfl]
  · rw [if_neg (fun hs => h (hobj t ht hs.1)), if_neg h]

/-- Substituting back restores the integrand. -/
theorem replace_back (fi s trial : Term S) (e : UExpr S) (hs : ∀ t ∈ terms e, t.base ≠ s.base) (ht : trial.base ≠ s.base) :
    replace (.term s) (.term fi) none (derivative s trial (subst (fun t => .term (sub1 fi s t)) e)) =
      derivative fi trial e := by
  classical
  have hsame : ∀ t : Term S, Same none t s ↔ t.base = s.base := fun t => ⟨fun h => h.1, fun h => ⟨h, by simp⟩⟩
  rw [replace_substitutes, derivative, derivative]
  simp only [subst, substAll]
  rw [subst_subst]
  congr 2
  · refine subst_id _ e (fun t h => ?_)
    simp only [sub1, hsame]
    by_cases htf : t = fi
    · subst htf; simp
    · rw [if_neg htf, if_neg (hs t h)]
  · rw [if_pos ((hsame s).2 rfl), if_neg (fun h => ht ((hsame trial).1 h))]

/-- The trial function of the partial derivative. -/
def trialOf (K : Kinds S) (fi : Term S) : Term S := ⟨.argument 1 (K.space (coefId fi)), (restriction fi).toList⟩

/-- What one round of the loop makes: derivatives of the integrals which contain the coefficient. -/
def partialOf (K : Kinds S) (f : List (Integral S)) (fi : Term S) : List (Integral S) :=
  (f.filter (fun I => decide (fi ∈ terms I.integrand))).map
    (fun I => ⟨derivative fi (trialOf K fi) I.integrand, I.rest⟩)

theorem subIntegrals_eq (fi s : Term S) (hne : s.base ≠ fi.base) : ∀ (f : List (Integral S)),
    (∀ t ∈ formTerms f, t.base = fi.base → t = fi) → subIntegrals fi s f =
      (f.filter (fun I => decide (fi ∈ terms I.integrand))).map
        (fun I => ⟨subst (fun t => .term (sub1 fi s t)) I.integrand, I.rest⟩)
  | [], _ => rfl
  | I :: f, hobj => by
      have h1 : ∀ t ∈ terms I.integrand, t.base = fi.base → t = fi :=
        fun t ht => hobj t (by simp [formTerms, ht])
      have ih := subIntegrals_eq fi s hne f (fun t ht => hobj t (by
        simp only [formTerms, List.flatMap_cons, List.mem_append]; exact .inr ht))
      rw [subIntegrals] at ih ⊢
      rw [List.filterMap_cons, ih]
      simp only [replace_fi fi s I.integrand h1]
      by_cases hm : fi ∈ terms I.integrand
      · rw [if_neg, List.filter_cons, if_pos (by simpa using hm), List.map_cons]
        rw [uflEq_subst]
        intro h
        have := h fi hm
        rw [sub1, if_pos rfl] at this
        exact hne this
      · rw [if_pos, List.filter_cons, if_neg (by simpa using hm)]
        rw [uflEq_subst]
        intro t ht
        rw [sub1, if_neg]
        rintro rfl
        exact hm ht

theorem partial_eq (K : Kinds S) (n : Nat) (f : List (Integral S)) (fi : Term S) (i : Nat) (hi : fi.base = .other i)
    (hmem : fi ∈ formTerms f) (hobj : ∀ t ∈ formTerms f, t.base = fi.base → t = fi)
    (hn : ∀ t ∈ formTerms f, t.base ≠ .other n) (htr : ∀ t ∈ formTerms f, ∀ V, t.base ≠ .argument 1 V) :
    partialDerivative K n f fi = .ok (partialOf K f fi) := by
  have hne : (⟨.other n, []⟩ : Term S).base ≠ fi.base := fun h => hn fi hmem h.symm
  unfold partialDerivative
  simp only [subIntegrals_eq fi ⟨.other n, []⟩ hne f hobj, List.map_map]
  have hback : pyMap (backOne fi ⟨.other n, []⟩) ((f.filter (fun I => decide (fi ∈ terms I.integrand))).map
      ((fun I : Integral S =>
          (⟨derivative ⟨.other n, []⟩ ⟨.argument 1 (K.space (coefId fi)), []⟩ I.integrand, I.rest⟩ : Integral S)) ∘
        (fun I : Integral S => ⟨subst (fun t => .term (sub1 fi ⟨.other n, []⟩ t)) I.integrand, I.rest⟩))) =
      .ok ((f.filter (fun I => decide (fi ∈ terms I.integrand))).map
        (fun I => ⟨derivative fi ⟨.argument 1 (K.space (coefId fi)), []⟩ I.integrand, I.rest⟩)) := by
    rw [pyMap_eq_ok, List.forall₂_map_left_iff, List.forall₂_map_right_iff, List.forall₂_same]
    intro I hI
    have hIf := (List.mem_filter.1 hI).1
    have hsub : ∀ t ∈ terms I.integrand, t ∈ formTerms f := fun t ht => List.mem_flatMap.2 ⟨I, hIf, ht⟩
    have hb := replace_back fi ⟨.other n, []⟩ ⟨.argument 1 (K.space (coefId fi)), []⟩ I.integrand
      (fun t ht => hn t (hsub t ht)) (by simp)
    simp only [Function.comp, backOne, hb]
    have hneq : uflEq (derivative fi ⟨.argument 1 (K.space (coefId fi)), []⟩ I.integrand)
        (derivative ⟨.other n, []⟩ ⟨.argument 1 (K.space (coefId fi)), []⟩
          (subst (fun t => .term (sub1 fi ⟨.other n, []⟩ t)) I.integrand)) = false := by
      simp only [derivative, uflEq, uflEqAll]
      have : ¬ fi.base = (⟨.other n, []⟩ : Term S).base := fun h => hne h.symm
      simp [this]
    rw [hneq]
    rfl
  rw [hback, py_bind_ok]
  unfold restrictTrial partialOf trialOf
  cases hr : restriction fi with
  | none => rfl
  | some r =>
      simp only [Option.toList]
      rw [if_pos]
      · congr 1
        rw [List.map_map]
        refine List.map_congr_left (fun I hI => ?_)
        have hIf := (List.mem_filter.1 hI).1
        have hsub : ∀ t ∈ terms I.integrand, t ∈ formTerms f := fun t ht => List.mem_flatMap.2 ⟨I, hIf, ht⟩
        have hid : ∀ t : Term S, (∀ V, t.base ≠ .argument 1 V) → annotate r t = t := by
          intro t h
          unfold annotate
          split
          · rename_i V hV; exact absurd hV (h V)
          · rfl
        simp only [Function.comp, mapTerms_eq, derivative, subst, substAll]
        rw [subst_id _ I.integrand (fun t ht => by rw [hid t (htr t (hsub t ht))])]
        rw [hid fi (by rw [hi]; simp)]
        rfl
      · obtain ⟨I, hI, hIm⟩ := List.mem_flatMap.1 hmem
        rw [List.any_eq_true, arguments_eq]
        obtain ⟨s, h1, h2⟩ := firstOnly_covers ((formTerms (((f.filter (fun I => decide (fi ∈ terms I.integrand))).map
          (fun I => (⟨derivative fi ⟨.argument 1 (K.space (coefId fi)), []⟩ I.integrand, I.rest⟩ : Integral S))))).filter
          (fun t => match t.base with | .argument _ _ => true | .other _ => false)) []
          ⟨.argument 1 (K.space (coefId fi)), []⟩ (by
            refine List.mem_filter.2 ⟨List.mem_flatMap.2 ⟨_, List.mem_map.2 ⟨I, List.mem_filter.2 ⟨hI, by simpa using hIm⟩,
              rfl⟩, ?_⟩, rfl⟩
            simp [derivative, terms, termsAll]) (by simp)
        refine ⟨s, h1, ?_⟩
        rw [h2]
        rfl

end Verif.Jacobian
