import Verif.Props.Ufl
/-!
# C30: substitution for composite expressions
-/
namespace Verif.Ufl
open Verif

variable {S : Type} [DecidableEq S] {arity : Nat → Nat}

mutual
theorem matches_iff : ∀ (e e' : UExpr S), Arities arity e → Arities arity e' →
    (pyMatches e e' none = true ↔ erase e = erase e')
  | .term a, .term b, _, _ => by
      rw [pyMatches, isEqualTerminal, equalTerm_iff, erase, erase]
      constructor
      · intro h
        rw [h.1]
      · intro h
        simp only [UExpr.term.injEq, Term.mk.injEq, and_true] at h
        exact ⟨h, fun as ha => by cases ha⟩
  | .node k xs, .node l ys, h, h' => by
      rw [pyMatches, erase, erase, Bool.and_eq_true]
      rw [Arities] at h h'
      constructor
      · rintro ⟨h1, h2⟩
        have h1 := eq_of_beq h1
        subst h1
        rw [(matchesAll_iff xs ys h.2 h'.2 (by rw [h.1, h'.1])).1 h2]
      · intro he
        rw [UExpr.node.injEq] at he
        obtain ⟨rfl, he⟩ := he
        exact ⟨beq_self_eq_true k, (matchesAll_iff xs ys h.2 h'.2 (by rw [h.1, h'.1])).2 he⟩
  | .term _, .node _ _, _, _ => by simp [pyMatches, erase]
  | .node _ _, .term _, _, _ => by simp [pyMatches, erase]
theorem matchesAll_iff : ∀ (es es' : List (UExpr S)), AritiesAll arity es → AritiesAll arity es' → es.length = es'.length →
    (matchesAll es es' = true ↔ eraseAll es = eraseAll es')
  | [], [], _, _, _ => by simp [matchesAll]
  | [], _ :: _, _, _, h => by simp at h
  | _ :: _, [], _, _, h => by simp at h
  | x :: xs, y :: ys, h, h', hl => by
      rw [matchesAll, eraseAll, eraseAll, Bool.and_eq_true, matches_iff x y h.1 h'.1,
        matchesAll_iff xs ys h.2 h'.2 (by simpa using hl), List.cons.injEq]
end

theorem matches_node_iff (l : Nat) (ys : List (UExpr S)) (e : UExpr S) (h : Arities arity e)
    (h' : Arities arity (.node l ys)) (attributes : Option (List String)) :
    pyMatches e (.node l ys) attributes = true ↔ erase e = erase (.node l ys) := by
  rw [← matches_iff e (.node l ys) h h']
  cases e <;> simp [pyMatches]

mutual
theorem arities_traverse : ∀ (e : UExpr S), Arities arity e → ∀ s ∈ traverse e, Arities arity s
  | .term t, h, s, hs => by
      rw [traverse, List.mem_singleton] at hs
      rw [hs]; exact h
  | .node k ops, h, s, hs => by
      rw [traverse, List.mem_append, List.mem_singleton] at hs
      rcases hs with hs | hs
      · exact arities_traverseAll ops h.2 s hs
      · rw [hs]; exact h
theorem arities_traverseAll : ∀ (es : List (UExpr S)), AritiesAll arity es → ∀ s ∈ traverseAll es, Arities arity s
  | [], _, s, hs => by simp [traverseAll] at hs
  | e :: es, h, s, hs => by
      rw [traverseAll, List.mem_append] at hs
      rcases hs with hs | hs
      · exact arities_traverse e h.1 s hs
      · exact arities_traverseAll es h.2 s hs
end

mutual
theorem substTop_id (P : UExpr S → Prop) (r : UExpr S) : ∀ e : UExpr S, (∀ s ∈ traverse e, ¬ P s) → substTop P r e = e
  | .term t, h => by rw [substTop, if_neg (h _ (by simp [traverse]))]
  | .node k ops, h => by
      rw [substTop, if_neg (h _ (by simp [traverse])), substTopAll_id P r ops (fun s hs => h s (by simp [traverse, hs]))]
theorem substTopAll_id (P : UExpr S → Prop) (r : UExpr S) : ∀ es : List (UExpr S), (∀ s ∈ traverseAll es, ¬ P s) →
    substTopAll P r es = es
  | [], _ => by rw [substTopAll]
  | e :: es, h => by
      rw [substTopAll, substTop_id P r e (fun s hs => h s (by simp [traverseAll, hs])),
        substTopAll_id P r es (fun s hs => h s (by simp [traverseAll, hs]))]
end

theorem contains_node_iff (l : Nat) (ys : List (UExpr S)) (e : UExpr S) (h : Arities arity e)
    (h' : Arities arity (.node l ys)) (attributes : Option (List String)) :
    contains e (.node l ys) attributes = true ↔ ∃ s ∈ traverse e, erase s = erase (.node l ys) := by
  cases e with
  | term t =>
      simp [contains, isTerminal, traverse, erase]
  | node k ops =>
      simp only [contains, isTerminal, Bool.false_eq_true, if_false, traverseSubexpr, List.any_eq_true, List.mem_filter,
        Bool.not_eq_true', Bool.not_eq_eq_eq_not]
      constructor
      · rintro ⟨s, ⟨hs, _⟩, hm⟩
        exact ⟨s, hs, (matches_node_iff l ys s (arities_traverse _ h s hs) h' attributes).1 hm⟩
      · rintro ⟨s, hs, hm⟩
        refine ⟨s, ⟨hs, ?_⟩, (matches_node_iff l ys s (arities_traverse _ h s hs) h' attributes).2 hm⟩
        cases s with
        | term t => simp [erase] at hm
        | node => simp [isTerminal]

mutual
/-- **C30** for composite targets: where each type of operator has a fixed number of operands, `replace` substitutes the
replacement for exactly the outermost subexpressions which are equal to the target up to annotations, and keeps everything
else. -/
theorem replace_composite_partial (l : Nat) (ys : List (UExpr S)) (r : UExpr S) (attributes : Option (List String))
    (h' : Arities arity (.node l ys)) : ∀ e : UExpr S, Arities arity e →
    replace (.node l ys) r attributes e = substTop (fun s => erase s = erase (.node l ys)) r e
  | .term t, h => by
      have hc : contains (.term t) (.node l ys) attributes = false := by simp [contains, isTerminal]
      rw [replace, if_pos (by rw [hc]; rfl), substTop, if_neg (by simp [erase])]
  | .node k ops, h => by
      rw [replace]
      by_cases hc : contains (.node k ops) (.node l ys) attributes = true
      · rw [if_neg (by simp [hc]), substTop]
        by_cases hm : pyMatches (.node k ops) (.node l ys) attributes = true
        · rw [if_pos hm, if_pos ((matches_node_iff l ys _ h h' attributes).1 hm)]
        · rw [if_neg hm, if_neg (fun he => hm ((matches_node_iff l ys _ h h' attributes).2 he)),
            replaceAll_composite l ys r attributes h' ops h.2]
      · rw [if_pos (by simpa using hc), substTop_id]
        intro s hs he
        exact hc ((contains_node_iff l ys _ h h' attributes).2 ⟨s, hs, he⟩)
theorem replaceAll_composite (l : Nat) (ys : List (UExpr S)) (r : UExpr S) (attributes : Option (List String))
    (h' : Arities arity (.node l ys)) : ∀ es : List (UExpr S), AritiesAll arity es →
    replaceAll (.node l ys) r attributes es = substTopAll (fun s => erase s = erase (.node l ys)) r es
  | [], _ => by rw [replaceAll, substTopAll]
  | e :: es, h => by
      rw [replaceAll, substTopAll, replace_composite_partial l ys r attributes h' e h.1,
        replaceAll_composite l ys r attributes h' es h.2]
end

/-- In `f(g(x, y)) + g(x, z)` the target `g(x, y)` occurs once. -/
example (r : UExpr Nat) : replace (.node 2 [.term ⟨.other 0, []⟩, .term ⟨.other 1, []⟩]) r none
      (.node 0 [.node 1 [.node 2 [.term ⟨.other 0, []⟩, .term ⟨.other 1, []⟩]],
        .node 2 [.term ⟨.other 0, []⟩, .term ⟨.other 2, []⟩]]) =
    .node 0 [.node 1 [r], .node 2 [.term ⟨.other 0, []⟩, .term ⟨.other 2, []⟩]] := by
  rw [replace_composite_partial (arity := fun k => if k = 1 then 1 else 2)]
  · simp [substTop, substTopAll, erase, eraseAll]
  · simp [Arities, AritiesAll]
  · simp [Arities, AritiesAll]

end Verif.Ufl
