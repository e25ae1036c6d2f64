import Mathlib.Algebra.Order.BigOperators.GroupWithZero.List
import Mathlib.Algebra.BigOperators.Ring.List
import Verif.Lemmas.ListUtils
/-!
# C01, C02, C03: nested lists of forms
-/
namespace Verif.ListUtils
open NL

variable {α β : Type}

/-- A 2x2 list used in the examples below. -/
def ex22 : NL Nat := .node [.node [.leaf 1, .leaf 2], .node [.leaf 3, .leaf 4]]

theorem ex22_isArray : IsArray [2, 2] ex22 := by
  simp [ex22, IsArray]

/-- **C01.** Assembling a rectangular nested list of forms of any depth gives a
nested list of the same shape whose entry at each index is the assembled entry of
the input at this index (`Mapped`), provided every form can be assembled.
The fuel bound is only there because `package` is a recursive function. -/
theorem assemble_keeps_layout (f : α → Py β) (n : Nat) (s : List Nat) (l : NL α)
    (hl : IsArray (n :: s) l) (r : NL β) (hr : Mapped f l r)
    (fuel : Nat) (hf : (n :: s).prod < fuel) :
    assembleNested fuel f l = .ok r ∧ shapeList r = .ok (n :: s) ∧
      ∀ idx, InBounds (n :: s) idx →
        ∃ a b, get? l idx = some (.leaf a) ∧ get? r idx = some (.leaf b) ∧ f a = .ok b := by
  obtain ⟨hfa, hra⟩ := mapped_isArray hl hr
  have hs := shapeList_of_isArray hl
  have hfl := flattenList_of hl
  have hmi := mapItems_of hfa
  have hpos := prod_pos_of_isArray hl
  have hlen : (leaves r).length = (n :: s).prod := leaves_length hra
  have hP : 0 < (n :: s).prod := List.prod_pos hpos
  -- the list of assembled blocks is a one dimensional array
  have hflat : IsArray ((n :: s).prod :: []) (NL.node ((leaves r).map NL.leaf)) := by
    refine ⟨hP, by simp [hlen], ?_⟩
    intro x hx
    obtain ⟨a, _, rfl⟩ := List.mem_map.1 hx
    trivial
  obtain ⟨r', h1, h2, h3⟩ := reshapeList_of (m := n) (s' := s) (fuel := fuel) hflat hpos
    (by simp) (by simpa using hf)
  have hleaves : leaves r' = leaves r := by
    rw [h3]; simp [leaves, leavesL_map_leaf]
  have heq : r' = r := by
    have hm : Mapped (fun b => (.ok b : Py β)) r' r := by
      apply mapped_of_leaves h2 hra
      rw [hleaves]
      have : ∀ xs : List β, List.Forall₂ (fun a b => (Except.ok a : Py β) = .ok b) xs xs := by
        intro xs; induction xs with
        | nil => exact .nil
        | cons x xs ih => exact .cons rfl ih
      exact this _
    have key : ∀ {s : List Nat} {x y : NL β}, IsArray s x →
        Mapped (fun b => (.ok b : Py β)) x y → x = y := by
      intro s
      induction s with
      | nil =>
        intro x y hx hxy
        obtain ⟨a, rfl⟩ := hx.nil_leaf
        cases hxy with
        | leaf h => cases h; rfl
      | cons n s ih =>
        intro x y hx hxy
        obtain ⟨xs, rfl, _, _, hx⟩ := hx.cons_node
        cases hxy with
        | @node _ ys h =>
          congr 1
          have aux : ∀ {xs ys : List (NL β)}, (∀ y ∈ xs, IsArray s y) →
              List.Forall₂ (Mapped fun b => (.ok b : Py β)) xs ys → xs = ys := by
            intro xs ys hx h
            induction h with
            | nil => rfl
            | cons h _ ihh =>
              rw [ih (hx _ (by simp)) h, ihh (fun z hz => hx z (by simp [hz]))]
          exact aux hx h
    exact key h2 hm
  subst heq
  refine ⟨?_, shapeList_of_isArray hra, ?_⟩
  · obtain ⟨xs, rfl, _, _, _⟩ := hl.cons_node
    simp only [assembleNested, hs, hfl, hmi, bind, Except.bind]
    exact h1
  · intro idx hidx
    obtain ⟨a, ha, ha'⟩ := get?_leaves hl hidx
    obtain ⟨b, hb, hb'⟩ := get?_leaves hra hidx
    refine ⟨a, b, ha, hb, ?_⟩
    obtain ⟨hla, hxa⟩ := List.getElem?_eq_some_iff.1 ha'
    obtain ⟨hlb, hxb⟩ := List.getElem?_eq_some_iff.1 hb'
    have := hfa.get hla hlb
    simpa [hxa, hxb] using this

/-- Non-vacuity: a 2x2 block system. -/
example : assembleNested 5 (fun n => (.ok (10 * n) : Py Nat)) ex22 =
    .ok (.node [.node [.leaf 10, .leaf 20], .node [.leaf 30, .leaf 40]]) :=
  (assemble_keeps_layout (fun n => (.ok (10 * n) : Py Nat)) 2 [2] ex22 ex22_isArray
    (.node [.node [.leaf 10, .leaf 20], .node [.leaf 30, .leaf 40]])
    (.node (.cons (.node (.cons (.leaf rfl) (.cons (.leaf rfl) .nil)))
      (.cons (.node (.cons (.leaf rfl) (.cons (.leaf rfl) .nil))) .nil))) 5 (by simp)).1

/-- **C01**, failure side: when the assembly of some form fails no block object is
returned. -/
theorem assemble_fails_with_form (f : α → Py β) (n : Nat) (s : List Nat) (l : NL α)
    (hl : IsArray (n :: s) l) (fuel : Nat) (idx : List Nat) (a : α) (e : PyErr)
    (hidx : InBounds (n :: s) idx) (ha : get? l idx = some (.leaf a)) (he : f a = .error e)
    (r : NL β) : assembleNested fuel f l ≠ .ok r := by
  have hs := shapeList_of_isArray hl
  have hfl := flattenList_of hl
  obtain ⟨a', ha', hmem⟩ := get?_leaves hl hidx
  have haa : a' = a := by rw [ha] at ha'; cases ha'; rfl
  subst haa
  have hmem' : a' ∈ leaves l := List.mem_of_getElem? hmem
  have hno : ∀ (as : List α), a' ∈ as → ∀ bs, mapItems f (as.map NL.leaf) ≠ .ok bs := by
    intro as
    induction as with
    | nil => intro h; simp at h
    | cons x xs ih =>
      intro h bs hbs
      simp only [List.map_cons, mapItems, bind, Except.bind, pure, Except.pure] at hbs
      rcases List.mem_cons.1 h with rfl | h
      · simp [he] at hbs
      · cases hfx : f x with
        | error _ => simp [hfx] at hbs
        | ok b =>
          cases hmx : mapItems f (xs.map NL.leaf) with
          | error _ => simp [hfx, hmx] at hbs
          | ok bs' => exact ih h bs' hmx
  obtain ⟨xs, rfl, _, _, _⟩ := hl.cons_node
  intro hcon
  simp only [assembleNested, hs, hfl, bind, Except.bind] at hcon
  cases hm : mapItems f (List.map NL.leaf (leaves (NL.node xs))) with
  | error e => simp [hm] at hcon
  | ok bs => exact hno _ hmem' bs hm

example : assembleNested 5 (fun n => if n = 3 then .error .valueError else .ok n) ex22 ≠
    .ok ex22 :=
  assemble_fails_with_form _ 2 [2] ex22 ex22_isArray 5 [1, 0] 3 .valueError
    (by simp [InBounds]) (by simp [ex22, get?]) (by simp) _

/-- **C02.** `reshape_list` is numpy's row-major reshape: for every array `l` and
every positive target shape with as many entries, the call returns an array of the
target shape whose entry at a multi-index is the entry of `l` with the same
row-major number. -/
theorem reshape_row_major (n m : Nat) (s s' : List Nat) (l : NL α)
    (hl : IsArray (n :: s) l) (hpos : ∀ d ∈ m :: s', 0 < d)
    (hprod : (n :: s).prod = (m :: s').prod) (fuel : Nat) (hf : (n :: s).prod < fuel) :
    ∃ r, reshapeList fuel l ((m :: s').map Int.ofNat) = .ok r ∧ IsArray (m :: s') r ∧
      flattenList r = flattenList l ∧
      ∀ idx idx', InBounds (n :: s) idx → InBounds (m :: s') idx' →
        rowMajor (n :: s) idx = rowMajor (m :: s') idx' → get? r idx' = get? l idx := by
  obtain ⟨r, h1, h2, h3⟩ := reshapeList_of hl hpos hprod hf
  refine ⟨r, h1, h2, ?_, ?_⟩
  · rw [flattenList_of hl, flattenList_of h2, h3]
  · intro idx idx' hi hi' he
    obtain ⟨a, ha, ha'⟩ := get?_leaves hl hi
    obtain ⟨b, hb, hb'⟩ := get?_leaves h2 hi'
    rw [h3, ← he, ha'] at hb'
    cases hb'
    rw [ha, hb]

/-- Non-vacuity: reshaping 2x2 to a flat list of 4. -/
example : ∃ r, reshapeList 5 ex22 [4] = .ok r ∧ IsArray [4] r ∧
    get? r [2] = some (.leaf 3) := by
  obtain ⟨r, h1, h2, _, h3⟩ := reshape_row_major 2 4 [2] [] ex22 ex22_isArray (by simp)
    (by simp) 5 (by simp)
  refine ⟨r, h1, h2, ?_⟩
  rw [h3 [1, 0] [2] (by simp [InBounds]) (by simp [InBounds]) (by simp [rowMajor])]
  simp [ex22, get?]

/-- **C03**, raggedness: `shape_list` returns `s` exactly for the lists which are
rectangular of shape `s` and raises `AssertionError` exactly for ragged ones. -/
theorem shape_list_decides (l : NL α) :
    (∀ s, shapeList l = .ok s ↔ Shaped s l) ∧
      (shapeList l = .error .assertion ↔ ¬ ∃ s, Shaped s l) := by
  refine ⟨fun s => ⟨shapeList_sound l s, shapeList_complete⟩, ?_, ?_⟩
  · rintro h ⟨s, hs⟩
    rw [shapeList_complete hs] at h
    cases h
  · intro h
    cases hl : shapeList l with
    | ok s => exact absurd ⟨s, shapeList_sound l s hl⟩ h
    | error e => rw [shapeList_error l e hl]

example : shapeList (.node [.node [.leaf 1, .leaf 2], .leaf 3] : NL Nat) = .error .assertion := by
  rfl

/-- **C03**, number of entries: a target shape with a different number of entries
is rejected, in particular every shape with a zero extent. -/
theorem reshape_rejects (fuel : Nat) (l : NL α) (n : Nat) (s : List Nat) (hl : Shaped (n :: s) l)
    (d : Int) (shape : List Int) (h : (d :: shape).prod ≠ ((n :: s).prod : Nat)) :
    reshapeList fuel l (d :: shape) = .error .assertion := by
  simp only [reshapeList, shapeList_complete hl, prodShape_ofNat, bind, Except.bind]
  have : prodShape (d :: shape) = .ok (d :: shape).prod := by
    simp [prodShape, foldl_mul_eq]
  rw [this]
  have h' : ((((n :: s).prod : Nat) : Int) == (d :: shape).prod) = false := by
    simpa using fun hh => h hh.symm
  simp only [h', pyAssert_false]

theorem reshape_rejects_zero (fuel : Nat) (l : NL α) (n : Nat) (s : List Nat)
    (hl : Shaped (n :: s) l) (d : Int) (shape : List Int) (h0 : 0 ∈ d :: shape) :
    reshapeList fuel l (d :: shape) = .error .assertion := by
  apply reshape_rejects fuel l n s hl
  rw [List.prod_eq_zero h0]
  have := List.prod_pos (shaped_pos hl)
  omega

example : reshapeList 100 ex22 [0, 4] = .error .assertion :=
  reshape_rejects_zero 100 ex22 2 [2] ((shape_list_decides ex22).1 _ |>.1 rfl) 0 [4] (by simp)

/-- **C03**, termination (partial: extents must not be negative, see
`reshape_negative_diverges`): for every nested list and every target shape with
nonnegative extents `reshape_list` returns or raises. -/
theorem reshape_returns_partial (l : NL α) (shape : List Int) (hpos : ∀ d ∈ shape, 0 ≤ d) :
    ∃ fuel₀, ∀ fuel, fuel₀ ≤ fuel → reshapeList fuel l shape ≠ .error .outOfFuel := by
  cases hs : shapeList l with
  | error e =>
    refine ⟨0, fun fuel _ => ?_⟩
    simp [reshapeList, hs, bind, Except.bind, shapeList_error l e hs]
  | ok s =>
    cases s with
    | nil => exact ⟨0, fun fuel _ => by simp [reshapeList, hs, bind, Except.bind, prodShape]⟩
    | cons n s =>
      cases shape with
      | nil => exact ⟨0, fun fuel _ => by simp [reshapeList, hs, bind, Except.bind, prodShape]⟩
      | cons d shape =>
        by_cases hne : (d :: shape).prod = ((n :: s).prod : Nat)
        · have hsh := shapeList_sound l _ hs
          have hP : 0 < (n :: s).prod := List.prod_pos (shaped_pos hsh)
          have hpos' : ∀ c ∈ d :: shape, 0 < c := by
            intro c hc
            rcases lt_or_eq_of_le (hpos c hc) with h | h
            · exact h
            · rw [List.prod_eq_zero (h ▸ hc)] at hne
              omega
          have hq : prodShape (d :: shape) = .ok (d :: shape).prod := by
            simp [prodShape, foldl_mul_eq]
          cases hfl : flattenList l with
          | error e =>
            refine ⟨0, fun fuel _ => ?_⟩
            have : e = .typeError := by
              simp only [flattenList, hs, bind, Except.bind] at hfl
              exact flattenLoop_error _ _ _ hfl
            simp only [reshapeList, hs, prodShape_ofNat, hq, hne, hfl, bind, Except.bind,
              beq_self_eq_true, pyAssert_true, this]
            simp
          | ok fl =>
            cases fl with
            | leaf a =>
              refine ⟨0, fun fuel _ => ?_⟩
              simp only [reshapeList, hs, prodShape_ofNat, hq, hne, hfl, bind, Except.bind,
                beq_self_eq_true, pyAssert_true]
              cases (d :: shape).reverse with
              | nil => simp [reshapeLoop]
              | cons c t => cases t <;> simp [reshapeLoop]
            | node xs =>
              refine ⟨xs.length + 1, fun fuel hf => ?_⟩
              obtain ⟨r, hr⟩ := reshapeLoop_terminates fuel (d :: shape).reverse xs
                (fun c hc => hpos' c (List.mem_reverse.1 hc)) (by omega)
              simp only [reshapeList, hs, prodShape_ofNat, hq, hne, hfl, bind, Except.bind,
                beq_self_eq_true, pyAssert_true, hr]
              simp
        · refine ⟨0, fun fuel _ => ?_⟩
          rw [reshape_rejects fuel l n s (shapeList_sound l _ hs) d shape hne]
          simp

example : ∃ fuel₀, ∀ fuel, fuel₀ ≤ fuel → reshapeList fuel ex22 [1, 2, 2] ≠ .error .outOfFuel :=
  reshape_returns_partial ex22 [1, 2, 2] (by simp)

/-- **C03** fails for negative extents: `reshape_list([1,2], (-1,-2))` passes the
assertion and then recurses forever in `package` (`lst[-2:]` is `lst`). -/
theorem reshape_negative_diverges (fuel : Nat) :
    reshapeList fuel (.node [.leaf 1, .leaf 2] : NL Nat) [-1, -2] = .error .outOfFuel := by
  have hp : ∀ fuel, package fuel ([.leaf 1, .leaf 2] : List (NL Nat)) (-2) = .error .outOfFuel := by
    intro fuel
    induction fuel with
    | zero => rfl
    | succ k ih =>
      have : sliceFrom ([.leaf 1, .leaf 2] : List (NL Nat)) (-2) = [.leaf 1, .leaf 2] := by
        simp [sliceFrom]
      simp [package, this, ih, bind, Except.bind]
  have hfl : flattenList (.node [.leaf 1, .leaf 2] : NL Nat) = .ok (.node [.leaf 1, .leaf 2]) :=
    flattenList_of (n := 2) (s := []) (l := .node [.leaf 1, .leaf 2]) (by simp [IsArray])
  have hs : shapeList (.node [.leaf 1, .leaf 2] : NL Nat) = .ok [2] := rfl
  simp only [reshapeList, hs, bind, Except.bind, hfl]
  simp [prodShape, pyAssert, reshapeLoop, hp, bind, Except.bind]

end Verif.ListUtils
