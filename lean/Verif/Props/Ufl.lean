import Verif.Lemmas.Ufl
/-!
# C30: substitution, and the adjoint of an integrand
-/
namespace Verif.Ufl
open Verif

variable {S : Type} [DecidableEq S]

open Classical in
mutual
/-- **C30** `replace` of a terminal substitutes the replacement for exactly the terminals which are the same,
and keeps everything else. -/
theorem replace_substitutes (arg : Term S) (r : UExpr S) (attributes : Option (List String)) : ∀ e : UExpr S,
    replace (.term arg) r attributes e = subst (fun t => if Same attributes t arg then r else .term t) e
  | .term t => by
      have hc := contains_term (.term t) arg attributes
      simp only [terms, List.mem_singleton, exists_eq_left] at hc
      have hm : pyMatches (.term t) (.term arg) attributes = true ↔ Same attributes t arg := by
        rw [pyMatches, isEqualTerminal, equalTerm_iff]
      rw [replace, subst]
      by_cases h : Same attributes t arg
      · rw [if_neg (by simp [hc.mpr h]), if_pos (hm.mpr h), if_pos h]
      · have : contains (.term t) (.term arg) attributes = false := by
          rw [← Bool.not_eq_true]; exact fun hh => h (hc.mp hh)
        rw [if_pos (by simp [this]), if_neg h]
  | .node k ops => by
      have hc := contains_term (.node k ops) arg attributes
      rw [replace]
      by_cases h : contains (.node k ops) (.term arg) attributes = true
      · rw [if_neg (by simp [h]), if_neg (by simp [pyMatches]), subst, replaceAll_substitutes arg r attributes ops]
      · rw [if_pos (by simpa using h), subst_id]
        intro t ht
        exact if_neg (fun hs => h (hc.mpr ⟨t, ht, hs⟩))
theorem replaceAll_substitutes (arg : Term S) (r : UExpr S) (attributes : Option (List String)) :
    ∀ es : List (UExpr S), replaceAll (.term arg) r attributes es =
      substAll (fun t => if Same attributes t arg then r else .term t) es
  | [] => rfl
  | e :: es => by
      rw [replaceAll, substAll, replace_substitutes arg r attributes e, replaceAll_substitutes arg r attributes es]
end

/-- With no attributes, and with an empty list of them, annotations are ignored: a plain argument is replaced also
where it is annotated. -/
theorem replace_ignores_unlisted : ∃ (arg t : Term Nat), t ≠ arg ∧ t.attrs ≠ [] ∧ arg.attrs = [] ∧
    ∀ r, replace (.term arg) r (some []) (.node 0 [.term t]) = .node 0 [r] := by
  classical
  refine ⟨⟨.argument 0 7, []⟩, ⟨.argument 0 7, [("trace_", 3)]⟩, by decide, by simp, rfl, fun r => ?_⟩
  rw [replace_substitutes, subst, substAll, subst, substAll, if_pos]
  exact ⟨rfl, fun as h a ha => by cases h; cases ha⟩

/-- Composite targets are compared without annotations, and operands beyond the shorter list are not compared at
all: `replace` may substitute for an expression which is not the target. -/
theorem replace_composite_wrong (attributes : Option (List String)) (r : UExpr Nat) :
    (∃ target e : UExpr Nat, terms e ≠ terms target ∧ (terms e).length = (terms target).length ∧
      replace target r attributes e = r) ∧
    (∃ target e : UExpr Nat, (terms e).length ≠ (terms target).length ∧ replace target r attributes e = r) := by
  constructor
  · refine ⟨.node 0 [.term ⟨.argument 0 7, []⟩], .node 0 [.term ⟨.argument 0 7, [("trace_", 3)]⟩], ?_, rfl, ?_⟩
    · simp [terms, termsAll]
    · rw [replace, if_neg, if_pos]
      · simp [pyMatches, matchesAll, isEqualTerminal, equalTerm]
      · simp [contains, isTerminal, traverseSubexpr, traverse, traverseAll, pyMatches, matchesAll, isEqualTerminal, equalTerm]
  · refine ⟨.node 0 [.term ⟨.argument 0 7, []⟩], .node 0 [.term ⟨.argument 0 7, []⟩, .term ⟨.other 1, []⟩], ?_, ?_⟩
    · simp [terms, termsAll]
    · rw [replace, if_neg, if_pos]
      · simp [pyMatches, matchesAll, isEqualTerminal, equalTerm]
      · simp [contains, isTerminal, traverseSubexpr, traverse, traverseAll, pyMatches, matchesAll, isEqualTerminal, equalTerm]

/-- A replaced and a kept terminal. -/
example : replace (.term ⟨.argument 0 7, [("trace_", 3)]⟩) (.term ⟨.other 9, []⟩) (some ["trace_"])
      (.node 0 [.term ⟨.argument 0 7, [("trace_", 3)]⟩, .term ⟨.argument 0 7, []⟩] : UExpr Nat) =
    .node 0 [.term ⟨.other 9, []⟩, .term ⟨.argument 0 7, []⟩] := by
  classical
  rw [replace_substitutes]
  simp [subst, substAll, Same, Term.attr, List.lookup]

open Classical in
/-- One round of the loop swaps one argument. -/
theorem adjointStep_eq (a : Term S) (n : Nat) (V : S) (ha : a.base = .argument n V) (hn : n ≤ 1) (hp : PlainAttrs a)
    (e : UExpr S) : adjointStep a e = .ok (subst (fun t => .term
      (if Same (some (iiAttrs.filter (fun x => (a.attr x).isSome))) t a then swapTerm a else t)) e) := by
  have hadj : (⟨.argument (1 - n) V, (iiAttrs.filter (fun x => (a.attr x).isSome)).filterMap
      (fun x => (a.attr x).map (fun v => (x, v)))⟩ : Term S) = swapTerm a := by
    have : ∀ l : List String, (l.filter (fun x => (a.attr x).isSome)).filterMap
        (fun x => (a.attr x).map (fun v => (x, v))) = l.filterMap (fun x => (a.attr x).map (fun v => (x, v))) := by
      intro l
      induction l with
      | nil => rfl
      | cons x l ih =>
          cases h : a.attr x with
          | none => simp [h, ih]
          | some v => simp [h, ih]
    rw [this, iiAttrs, ← hp]
    obtain ⟨b, as⟩ := a
    simp only at ha
    subst ha
    match n, hn with
    | 0, _ => rfl
    | 1, _ => rfl
  rw [adjointStep, ha]
  simp only [hn, if_true]
  rw [hadj, replace_substitutes]
  congr 1
  refine subst_congr _ _ e (fun t _ => ?_)
  split <;> rfl

theorem same_self (a : Term S) : Same (some (iiAttrs.filter (fun x => (a.attr x).isSome))) a a := by
  refine ⟨rfl, fun as h x hx => ?_⟩
  cases h
  obtain ⟨v, hv⟩ := Option.isSome_iff_exists.mp (List.mem_filter.mp hx).2
  exact ⟨v, hv, hv⟩

theorem argsOf_terms : ∀ l : List (Term S), argsOf (l.map .term) =
    l.filter (fun t => match t.base with | .argument _ _ => true | .other _ => false)
  | [] => rfl
  | ⟨.argument n V, as⟩ :: l => by simp [argsOf, argsOf_terms l]
  | ⟨.other i, as⟩ :: l => by simp [argsOf, argsOf_terms l]

theorem firstOnly_nil_of_seen (v u : Term S) : ∀ (l seen : List (Term S)), (∀ t ∈ l, t = v ∨ t = u) →
    v ∈ seen → u ∈ seen → firstOnly seen l = []
  | [], _, _, _, _ => rfl
  | t :: l, seen, h, hv, hu => by
      have : seen.any (fun s => s.base = t.base) = true := by
        rw [List.any_eq_true]
        rcases h t (by simp) with rfl | rfl
        · exact ⟨t, hv, by simp⟩
        · exact ⟨t, hu, by simp⟩
      rw [firstOnly, if_pos this, firstOnly_nil_of_seen v u l seen (fun t ht => h t (by simp [ht])) hv hu]

theorem firstOnly_one (v u : Term S) (hne : v.base ≠ u.base) : ∀ (l : List (Term S)), (∀ t ∈ l, t = v ∨ t = u) →
    u ∈ l → firstOnly [v] l = [u]
  | [], _, h => by simp at h
  | t :: l, h, hu => by
      rcases h t (by simp) with rfl | rfl
      · have hu' : u ∈ l := by
          rcases List.mem_cons.mp hu with rfl | hu
          · exact absurd rfl hne
          · exact hu
        rw [firstOnly, if_pos (by simp), firstOnly_one t u hne l (fun t ht => h t (by simp [ht])) hu']
      · rw [firstOnly, if_neg (by simpa using hne)]
        rw [firstOnly_nil_of_seen v t l _ (fun t ht => h t (by simp [ht])) (by simp) (by simp)]

/-- The set of arguments. -/
theorem argumentSet_eq (v u : Term S) (n m : Nat) (V Q : S) (hv : v.base = .argument n V) (hu : u.base = .argument m Q)
    (hne : v.base ≠ u.base) (e : UExpr S) (h : HasArgs v u e) : argumentSet e = [v, u] ∨ argumentSet e = [u, v] := by
  rw [argumentSet, traverse_terminals, argsOf_terms]
  obtain ⟨l, hl⟩ : ∃ l, l = (terms e).filter (fun t => match t.base with | .argument _ _ => true | .other _ => false) :=
    ⟨_, rfl⟩
  rw [← hl]
  have hall : ∀ t ∈ l, t = v ∨ t = u := by
    intro t ht
    obtain ⟨h1, h2⟩ := List.mem_filter.mp (hl ▸ ht)
    cases hb : t.base with
    | argument n V => exact h.1 t h1 n V hb
    | other i => rw [hb] at h2; simp at h2
  have hvl : v ∈ l := hl ▸ List.mem_filter.mpr ⟨h.2.1, by rw [hv]⟩
  have hul : u ∈ l := hl ▸ List.mem_filter.mpr ⟨h.2.2, by rw [hu]⟩
  clear hl
  match l, hall, hvl, hul with
  | t :: l, hall, hvl, hul =>
    rcases hall t (by simp) with rfl | rfl
    · left
      have : u ∈ l := by
        rcases List.mem_cons.mp hul with rfl | h
        · exact absurd rfl hne
        · exact h
      rw [firstOnly, if_neg (by simp), firstOnly_one t u hne l (fun t ht => hall t (by simp [ht])) this]
    · right
      have : v ∈ l := by
        rcases List.mem_cons.mp hvl with rfl | h
        · exact absurd rfl hne
        · exact h
      rw [firstOnly, if_neg (by simp),
        firstOnly_one t v (Ne.symm hne) l (fun t ht => (hall t (by simp [ht])).symm) this]

/-- Two rounds swap both arguments. -/
theorem adjoint_two (a b : Term S) (n m : Nat) (V Q : S) (ha : a.base = .argument n V) (hb : b.base = .argument m Q)
    (hn : n ≤ 1) (hm : m ≤ 1) (hnm : n ≠ m) (hVQ : V ≠ Q) (pa : PlainAttrs a) (pb : PlainAttrs b) (e : UExpr S)
    (h : ∀ t ∈ terms e, ∀ n V, t.base = .argument n V → t = a ∨ t = b) :
    adjointLoop [a, b] e = .ok (swap e) := by
  classical
  rw [adjointLoop, adjointStep_eq a n V ha hn pa, py_bind_ok, adjointLoop, adjointStep_eq b m Q hb hm pb, py_bind_ok,
    adjointLoop, subst_subst, swap]
  congr 1
  refine subst_congr _ _ e (fun t ht => ?_)
  have hsa : (swapTerm a).base = .argument (1 - n) V := by
    obtain ⟨c, as⟩ := a
    simp only at ha
    subst ha
    match n, hn with
    | 0, _ => rfl
    | 1, _ => rfl
  by_cases hta : t = a
  · subst hta
    have e1 : (if Same (some (iiAttrs.filter (fun x => (t.attr x).isSome))) t t then swapTerm t else t) = swapTerm t :=
      if_pos (same_self t)
    rw [e1, if_neg]
    intro hs
    have := hs.1
    rw [hsa, hb, Base.argument.injEq] at this
    exact hVQ this.2
  · by_cases htb : t = b
    · subst htb
      have e1 : (if Same (some (iiAttrs.filter (fun x => (a.attr x).isSome))) t a then swapTerm a else t) = t := by
        refine if_neg (fun hs => ?_)
        have := hs.1
        rw [ha, hb, Base.argument.injEq] at this
        exact hnm this.1.symm
      rw [e1, if_pos (same_self t)]
    · have hno : ∀ n V, t.base ≠ .argument n V := fun n V hb => by
        rcases h t ht n V hb with h1 | h1
        · exact hta h1
        · exact htb h1
      have e1 : (if Same (some (iiAttrs.filter (fun x => (a.attr x).isSome))) t a then swapTerm a else t) = t :=
        if_neg (fun hs => hno n V (hs.1.trans ha))
      rw [e1, if_neg (fun hs => hno m Q (hs.1.trans hb))]
      obtain ⟨c, as⟩ := t
      cases c with
      | argument n V => exact absurd rfl (hno n V)
      | other i => rfl

/-- **C29** (integrands) The adjoint of an integrand with one test and one trial function from different spaces,
each annotated in one way by traces, restrictions or averages, is the integrand with them swapped, whatever the order
in which the set of arguments is traversed. -/
theorem adjoint_swaps (order : List (Term S) → List (Term S)) (ho : ∀ l, (order l).Perm l) (e : UExpr S)
    (v u : Term S) (V Q : S) (hv : v.base = .argument 0 V) (hu : u.base = .argument 1 Q) (hVQ : V ≠ Q)
    (pv : PlainAttrs v) (pu : PlainAttrs u) (h : HasArgs v u e) : adjointExpr order e = .ok (swap e) := by
  have hne : v.base ≠ u.base := by rw [hv, hu]; simp
  have hset := argumentSet_eq v u 0 1 V Q hv hu hne e h
  have hord : order (argumentSet e) = [v, u] ∨ order (argumentSet e) = [u, v] := by
    have hp := ho (argumentSet e)
    have key : ∀ (a b : Term S) (l : List (Term S)), l.Perm [a, b] → l = [a, b] ∨ l = [b, a] := by
      intro a b l hp
      have hlen := hp.length_eq
      match l, hlen with
      | [x, y], _ =>
        have hx : x ∈ [a, b] := hp.subset (by simp)
        simp only [List.mem_cons, List.not_mem_nil, or_false] at hx
        rcases hx with rfl | rfl
        · left
          have := (List.perm_cons x).mp hp
          rw [List.perm_singleton] at this
          rw [this]
        · right
          have h2 : [x, y].Perm [x, a] := hp.trans (List.Perm.swap x a [])
          have := (List.perm_cons x).mp h2
          rw [List.perm_singleton] at this
          rw [this]
    rcases hset with hs | hs
    · rw [hs] at hp ⊢; exact key v u _ hp
    · rw [hs] at hp ⊢; exact (key u v _ hp).symm
  rw [adjointExpr]
  rcases hord with h1 | h1 <;> rw [h1]
  · exact adjoint_two v u 0 1 V Q hv hu (by omega) (by omega) (by omega) hVQ pv pu e h.1
  · exact adjoint_two u v 1 0 Q V hu hv (by omega) (by omega) (by omega) (Ne.symm hVQ) pu pv e
      (fun t ht n V hb => (h.1 t ht n V hb).symm)

/-- The adjoint is an involution. -/
theorem swap_swap (e : UExpr S) : swap (swap e) = e := by
  rw [swap, swap, subst_subst]
  refine subst_id _ e (fun t _ => ?_)
  obtain ⟨b, as⟩ := t
  match b with
  | .argument 0 V => rfl
  | .argument 1 V => rfl
  | .argument (n + 2) V => rfl
  | .other i => rfl

/-- When the test and trial functions come from the same space the adjoint is wrong in every order of traversal: the
two arguments become one. -/
theorem adjoint_same_space_wrong (order : List (Term Nat) → List (Term Nat)) (ho : ∀ l, (order l).Perm l) :
    ∃ x : Term Nat, adjointExpr order (.node 0 [.term ⟨.argument 0 7, []⟩, .term ⟨.argument 1 7, []⟩]) =
      .ok (.node 0 [.term x, .term x]) := by
  have hset : argumentSet (.node 0 [.term ⟨.argument 0 7, []⟩, .term ⟨.argument 1 7, []⟩] : UExpr Nat) =
      [⟨.argument 0 7, []⟩, ⟨.argument 1 7, []⟩] := by
    rw [argumentSet, traverse_terminals]
    simp [terms, termsAll, argsOf, firstOnly]
  have hp := ho (argumentSet (.node 0 [.term ⟨.argument 0 7, []⟩, .term ⟨.argument 1 7, []⟩] : UExpr Nat))
  rw [adjointExpr]
  rw [hset] at hp ⊢
  have h2 : ∀ l : List (Term Nat), l.Perm [⟨.argument 0 7, []⟩, ⟨.argument 1 7, []⟩] →
      l = [⟨.argument 0 7, []⟩, ⟨.argument 1 7, []⟩] ∨ l = [⟨.argument 1 7, []⟩, ⟨.argument 0 7, []⟩] := by
    intro l hp
    have hlen := hp.length_eq
    match l, hlen with
    | [x, y], _ =>
      have hx : x ∈ [(⟨.argument 0 7, []⟩ : Term Nat), ⟨.argument 1 7, []⟩] := hp.subset (by simp)
      have hy : y ∈ [(⟨.argument 0 7, []⟩ : Term Nat), ⟨.argument 1 7, []⟩] := hp.subset (by simp)
      have hnd : [x, y].Nodup := hp.nodup_iff.mpr (by simp)
      simp only [List.mem_cons, List.not_mem_nil, or_false] at hx hy
      rcases hx with rfl | rfl <;> rcases hy with rfl | rfl <;> simp_all
  have key : ∀ n, n ≤ 1 → ∀ e, adjointStep (⟨.argument n 7, []⟩ : Term Nat) e =
      .ok (replace (.term ⟨.argument n 7, []⟩) (.term ⟨.argument (1 - n) 7, []⟩) (some []) e) := by
    intro n hn e
    simp [adjointStep, hn, iiAttrs, Term.attr]
  classical
  rcases h2 _ hp with h1 | h1 <;> rw [h1] <;> simp only [adjointLoop]
  · refine ⟨⟨.argument 0 7, []⟩, ?_⟩
    rw [key 0 (by omega), py_bind_ok, key 1 (by omega), py_bind_ok, replace_substitutes, replace_substitutes]
    simp [subst, substAll, Same]
  · refine ⟨⟨.argument 1 7, []⟩, ?_⟩
    rw [key 1 (by omega), py_bind_ok, key 0 (by omega), py_bind_ok, replace_substitutes, replace_substitutes]
    simp [subst, substAll, Same]

/-- Other annotations (here a mean) are lost by the adjoint, in every order of traversal. -/
theorem adjoint_drops_annotations (order : List (Term Nat) → List (Term Nat)) (ho : ∀ l, (order l).Perm l) :
    adjointExpr order (.node 0 [.term ⟨.argument 0 7, [("mean_", 1)]⟩]) =
      .ok (.node 0 [.term ⟨.argument 1 7, []⟩]) := by
  have hset : argumentSet (.node 0 [.term ⟨.argument 0 7, [("mean_", 1)]⟩] : UExpr Nat) =
      [⟨.argument 0 7, [("mean_", 1)]⟩] := by
    rw [argumentSet, traverse_terminals]
    simp [terms, termsAll, argsOf, firstOnly]
  have hp := ho (argumentSet (.node 0 [.term ⟨.argument 0 7, [("mean_", 1)]⟩] : UExpr Nat))
  rw [adjointExpr]
  rw [hset] at hp ⊢
  rw [List.perm_singleton] at hp
  rw [hp]
  have hst : ∀ e, adjointStep (⟨.argument 0 7, [("mean_", 1)]⟩ : Term Nat) e =
      .ok (replace (.term ⟨.argument 0 7, [("mean_", 1)]⟩) (.term ⟨.argument 1 7, []⟩) (some []) e) := by
    intro e
    simp [adjointStep, iiAttrs, Term.attr, List.lookup]
  classical
  rw [adjointLoop, hst, py_bind_ok, adjointLoop, replace_substitutes]
  simp [subst, substAll, Same]

/-- An integrand of a trace of the test function and a trial function. -/
example : HasArgs (⟨.argument 0 7, [("trace_", 3)]⟩ : Term Nat) ⟨.argument 1 8, []⟩
      (.node 0 [.term ⟨.argument 0 7, [("trace_", 3)]⟩, .node 1 [.term ⟨.other 4, []⟩, .term ⟨.argument 1 8, []⟩]]) ∧
    PlainAttrs (⟨.argument 0 7, [("trace_", 3)]⟩ : Term Nat) ∧ PlainAttrs (⟨.argument 1 8, []⟩ : Term Nat) := by
  refine ⟨⟨?_, by simp [terms, termsAll], by simp [terms, termsAll]⟩, rfl, rfl⟩
  intro t ht n V hb
  simp only [terms, termsAll, List.append_nil, List.cons_append, List.nil_append, List.mem_cons,
    List.not_mem_nil, or_false] at ht
  rcases ht with rfl | rfl | rfl
  · left; rfl
  · cases hb
  · right; rfl

end Verif.Ufl
