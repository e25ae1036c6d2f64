import Verif.Props.BlockForm
import Verif.Props.PermuteExact
/-!
# A block form

The theorems on block forms (C27 - C29, C93) for two spaces, 7 and 8, and three spaces.
-/
namespace Verif.BlockForm.Examples
open Verif Ufl BlockOps BlockForm

/-- The coupling term: the trace of a test function from 7 and a trial function from 8. -/
def coupling : Integral Nat := ⟨.node 0 [.term ⟨.argument 0 7, [("trace_", 3)]⟩, .term ⟨.argument 1 8, []⟩], 0⟩

theorem belongs : Belongs2 [7, 8] 0 1 coupling := by
  refine ⟨7, 8, ⟨?_, ?_⟩, ⟨?_, ?_⟩, ⟨rfl, by simp⟩, ⟨rfl, ?_⟩⟩
  · simp [coupling, terms, termsAll]
  · intro t ht Q hb
    simp only [coupling, terms, termsAll, List.append_nil, List.singleton_append, List.mem_cons, List.not_mem_nil, or_false] at ht
    rcases ht with rfl | rfl <;> simp_all
  · simp [coupling, terms, termsAll]
  · intro t ht Q hb
    simp only [coupling, terms, termsAll, List.append_nil, List.singleton_append, List.mem_cons, List.not_mem_nil, or_false] at ht
    rcases ht with rfl | rfl <;> simp_all
  · intro k hk
    have : k = 0 := by omega
    subst this; simp

example := belongs_unique [7, 8] coupling 0 1 0 1 belongs belongs
example := belongs_inside [7, 8] coupling 0 1 belongs

/-- The null form of a space, `inner(Constant(0), v)*dx`. -/
def null (V : Nat) : List (Integral Nat) := [⟨.node 0 [.term ⟨.other 0, []⟩, .term ⟨.argument 0 V, []⟩], 0⟩]

theorem null_ok (V : Nat) : null V ≠ [] ∧ ∀ I ∈ null V, OnlyArg 0 V I := by
  refine ⟨by simp [null], fun I hI => ?_⟩
  simp only [null, List.mem_singleton] at hI
  subst hI
  refine ⟨by simp [terms, termsAll], fun t ht Q hb => ?_⟩
  simp only [terms, termsAll, List.append_nil, List.singleton_append, List.mem_cons, List.not_mem_nil, or_false] at ht
  rcases ht with rfl | rfl <;> simp_all

/-- A form is added twice to block 1. -/
example := add_history_linear null null_ok [7, 8] [null 8, null 8] 1 8 rfl
example := add_accepts_linear null null_ok [7, 8] [null 8] (null 7)

/-- One block above the diagonal. -/
def upper : List (List (Entry Nat)) := [[.num 0, .form [coupling]], [.num 0, .num 0]]

theorem upper_square : Square [7, 8].length upper := ⟨rfl, by simp [upper]⟩

theorem upper_plain (i j : Nat) (e : Entry Nat) (h : get2 upper i j = some e) : Plain e := by
  match i, j with
  | 0, 0 => simp [upper, get2] at h; subst h; rfl
  | 0, 1 => simp [upper, get2] at h; subst h; trivial
  | 1, 0 => simp [upper, get2] at h; subst h; rfl
  | 1, 1 => simp [upper, get2] at h; subst h; rfl
  | 0, j + 2 => simp [upper, get2] at h
  | 1, j + 2 => simp [upper, get2] at h
  | i + 2, _ => simp [upper, get2] at h

example := addForms_entrywise [7, 8] (by simp) upper upper upper_square upper_square upper_plain upper_plain
example := addForms_entrywise_linear [7, 8] (by simp) [.form (null 7), .num 0] [.form (null 7), .form (null 8)] rfl rfl
  (by simp [Plain]) (by simp [Plain])
example := addForms_rejects (.bil [7, 8] upper) (.bil [8, 7] upper) (by simp [BForm.spaces])
example := permute_permutes_partial [7, 8] (by simp) upper upper_square [1, 0]
example := permute_permutes_linear [7, 8] (by simp) [.form (null 7), .num 0] rfl [1, 0]
example : ([1, 0] : List Int).Perm (ints [7, 8].length) := by decide
example := permute_single_fails [7] rfl [[.num 3]]
example := permuteSpaces_orders [7, 8] [8, 7] (by simp) (by simp) (by decide) upper upper_square

/-- Three spaces. -/
def three : List (List (Entry Nat)) := [[.num 0, .num 1, .num 2], [.num 3, .num 4, .num 5], [.num 6, .num 7, .num 8]]

theorem inverse : Inverse [2, 0, 1] [1, 2, 0] := by
  intro i k h
  match i with
  | 0 => simp at h; subst h; rfl
  | 1 => simp at h; subst h; rfl
  | 2 => simp at h; subst h; rfl
  | i + 3 => simp at h

example := permute_back [7, 8, 9] (by simp) three ⟨rfl, by simp [three]⟩ [2, 0, 1] [1, 2, 0] (by decide) (by decide) inverse
example := permute_iff [7, 8, 9] three ⟨rfl, by simp [three]⟩ [2, 0, 1]

theorem upper_placed : WellPlaced [7, 8] upper := by
  intro i j V Q e hij hV hQ he
  match i, j with
  | 0, 0 => exact absurd rfl hij
  | 0, 1 =>
      simp only [List.getElem?_cons_zero, List.getElem?_cons_succ, Option.some.injEq] at hV hQ
      subst hV hQ
      simp only [upper, get2, List.getElem?_cons_zero, List.getElem?_cons_succ, Option.bind_some, Option.some.injEq] at he
      subst he
      refine ⟨by simp, fun I hI => ?_⟩
      simp only [List.mem_singleton] at hI
      subst hI
      refine ⟨⟨.argument 0 7, [("trace_", 3)]⟩, ⟨.argument 1 8, []⟩, rfl, rfl, ?_, ?_, ?_, ?_, ?_⟩
      · simp [PlainAttrs, iiAttrs, Term.attr, List.lookup]
      · simp [PlainAttrs, iiAttrs, Term.attr, List.lookup]
      · intro t ht n W hb
        simpa [coupling, terms, termsAll] using ht
      · simp [coupling, terms, termsAll]
      · simp [coupling, terms, termsAll]
  | 1, 0 =>
      simp only [upper, get2, List.getElem?_cons_zero, List.getElem?_cons_succ, Option.bind_some, Option.some.injEq] at he
      subst he; trivial
  | 1, 1 => exact absurd rfl hij
  | 0, j + 2 => simp at hQ
  | 1, j + 2 => simp at hQ
  | i + 2, _ => simp at hV

theorem upper_null : NullBelow (1 / 10) [7, 8].length upper := by
  intro i j hji hi
  have : i = 1 := by simp at hi; omega
  subst this
  have : j = 0 := by omega
  subst this
  exact ⟨0, rfl, by norm_num⟩

example := makeSelfadjoint_partial (S := Nat) id (fun l => .refl l) (1 / 10) [7, 8] (by simp) upper upper_square upper_placed
  (.inl upper_null)

/-- Numbers on both sides. -/
def full : List (List (Entry Nat)) := [[.num 0, .num 1], [.num 1, .num 0]]

example := makeSelfadjoint_rejects (S := Nat) id (1 / 10) [7, 8] full
  (fun h => by obtain ⟨c, hc, hs⟩ := h 1 0 (by omega) (by simp); simp [full, get2] at hc; subst hc; norm_num at hs)
  (fun h => by obtain ⟨c, hc, hs⟩ := h 1 0 (by omega) (by simp); simp [full, get2] at hc; subst hc; norm_num at hs)

end Verif.BlockForm.Examples
