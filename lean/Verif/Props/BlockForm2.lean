import Verif.Props.BlockForm
/-!
# C27: assignments to blocks
-/
namespace Verif.BlockForm
open Verif Ufl BlockOps

variable {S : Type} [DecidableEq S]

theorem functions_iff (n : Nat) (V : S) (is : List (Integral S)) : functions n is = [V] ↔ FormArg n V is := by
  rw [functions, dedup_singleton]
  constructor
  · rintro ⟨h1, h2⟩
    obtain ⟨y, hy⟩ := List.exists_mem_of_ne_nil _ h1
    refine ⟨?_, ?_⟩
    · rw [h2 y hy] at hy
      exact (mem_functions n V is).1 hy
    · intro I hI t ht Q hb
      exact h2 Q ((mem_functions n Q is).2 ⟨I, hI, t, ht, hb⟩)
  · rintro ⟨h1, h2⟩
    refine ⟨List.ne_nil_of_mem ((mem_functions n V is).2 h1), ?_⟩
    intro y hy
    obtain ⟨I, hI, t, ht, hb⟩ := (mem_functions n y is).1 hy
    exact h2 I hI t ht y hb

/-- **C27** `a[i][j] = value` is accepted exactly if the value is a number, or a form whose test functions are from `W[i]` and
whose trial functions are from `W[j]`; then it changes this block only. -/
theorem assign_accepts (W : List S) (rows rows' : List (List (Entry S))) (hr : Square W.length rows) (i j : Nat) (e : Entry S) :
    assign2 W rows i j e = .ok rows' ↔ i < W.length ∧ j < W.length ∧ Fits W i j e ∧ rows' = setAt rows i j e := by
  unfold assign2
  simp only [py_bind_eq_ok, pyGet_eq_ok, pyAssert_eq_ok]
  constructor
  · rintro ⟨V, hV, Q, hQ, _, hs, h⟩
    injection h with h
    refine ⟨(List.getElem?_eq_some_iff.1 hV).1, (List.getElem?_eq_some_iff.1 hQ).1, ?_, h.symm⟩
    cases e with
    | num c => trivial
    | form is =>
        simp only [settable2, Bool.and_eq_true, decide_eq_true_eq, functions_iff] at hs
        exact ⟨V, Q, hV, hQ, hs.1, hs.2⟩
  · rintro ⟨hi, hj, hf, rfl⟩
    cases e with
    | num c => exact ⟨_, List.getElem?_eq_getElem hi, _, List.getElem?_eq_getElem hj, (), rfl, rfl⟩
    | form is =>
        obtain ⟨V, Q, hV, hQ, h0, h1⟩ := hf
        refine ⟨V, hV, Q, hQ, (), ?_, rfl⟩
        simp only [settable2, Bool.and_eq_true, decide_eq_true_eq, functions_iff]
        exact ⟨h0, h1⟩

/-- **C27** `L[i] = value` of a linear form is accepted exactly if the value is a number, or a form whose test functions are from
`W[i]`; then it changes this block only. -/
theorem assign_accepts_linear (W : List S) (es es' : List (Entry S)) (i : Nat) (e : Entry S) :
    assign1 W es i e = .ok es' ↔ i < W.length ∧ FitsLinear W i e ∧ es' = es.set i e := by
  unfold assign1
  simp only [py_bind_eq_ok, pyGet_eq_ok, pyAssert_eq_ok]
  constructor
  · rintro ⟨V, hV, _, hs, h⟩
    injection h with h
    refine ⟨(List.getElem?_eq_some_iff.1 hV).1, ?_, h.symm⟩
    cases e with
    | num c => trivial
    | form is =>
        simp only [settable1, decide_eq_true_eq, functions_iff] at hs
        exact ⟨V, hV, hs⟩
  · rintro ⟨hi, hf, rfl⟩
    cases e with
    | num c => exact ⟨_, List.getElem?_eq_getElem hi, (), rfl, rfl⟩
    | form is =>
        obtain ⟨V, hV, h0⟩ := hf
        refine ⟨V, hV, (), ?_, rfl⟩
        simp only [settable1, decide_eq_true_eq, functions_iff]
        exact h0

theorem setAt_get2 {n : Nat} {rows : List (List (Entry S))} (h : Square n rows) {i j : Nat} (hi : i < n) (hj : j < n)
    (e : Entry S) : get2 (setAt rows i j e) i j = some e ∧
      ∀ k l, ¬(k = i ∧ l = j) → get2 (setAt rows i j e) k l = get2 rows k l := by
  refine ⟨?_, fun k l hkl => ?_⟩
  · rw [get2_setAt h hi hj, if_pos ⟨rfl, rfl⟩]
  · rw [get2_setAt h hi hj, if_neg hkl]

/-- A square table of blocks at their place. -/
def Good (W : List S) (rows : List (List (Entry S))) : Prop :=
  Square W.length rows ∧ ∀ i j e, get2 rows i j = some e → Fits W i j e

theorem assign2_good {W : List S} {rows rows' : List (List (Entry S))} (h : Good W rows) {i j : Nat} {e : Entry S}
    (ha : assign2 W rows i j e = .ok rows') : Good W rows' := by
  obtain ⟨hi, hj, hf, rfl⟩ := (assign_accepts W rows rows' h.1 i j e).1 ha
  refine ⟨setAt_square h.1 i j e, ?_⟩
  intro k l e' he
  by_cases hkl : k = i ∧ l = j
  · obtain ⟨rfl, rfl⟩ := hkl
    rw [(setAt_get2 h.1 hi hj e).1] at he
    injection he with he
    rw [← he]
    exact hf
  · rw [(setAt_get2 h.1 hi hj e).2 k l hkl] at he
    exact h.2 k l e' he

theorem addOne2_good {W : List S} {rows rows' : List (List (Entry S))} (h : Good W rows) {I : Integral S}
    (ha : addOne2 W rows I = .ok rows') : Good W rows' := by
  unfold addOne2 at ha
  simp only [py_bind_eq_ok] at ha
  obtain ⟨_, _, _, _, _, _, _, _, _, _, _, _, _, _, ha⟩ := ha
  exact assign2_good h ha

theorem addMany_good {W : List S} (form : List (Integral S)) {rows : List (List (Entry S))} (h : Good W rows) :
    Good W (addMany (addOne2 W) rows form).1 := by
  induction form generalizing rows with
  | nil => exact h
  | cons I form ih =>
      unfold addMany
      cases ho : addOne2 W rows I with
      | ok s => exact ih (addOne2_good h ho)
      | error e => exact h

/-- **C27** In any history of `add`s and assignments to blocks, exceptions being caught, block `(i, j)` is a number or a form
with test functions from `W[i]` and trial functions from `W[j]`. -/
theorem blocks_fit (W : List S) (calls : List (Call S)) :
    Square W.length (calls.foldl (call2 W) (start2 W)) ∧
    ∀ i j e, get2 (calls.foldl (call2 W) (start2 W)) i j = some e → Fits W i j e := by
  have key : ∀ (calls : List (Call S)) (rows : List (List (Entry S))), Good W rows → Good W (calls.foldl (call2 W) rows) := by
    intro calls
    induction calls with
    | nil => exact fun rows h => h
    | cons c calls ih =>
        intro rows h
        refine ih _ ?_
        cases c with
        | add form =>
            unfold call2 add
            dsimp only
            by_cases hf : form = []
            · rw [if_pos hf]; exact h
            · rw [if_neg hf]; exact addMany_good form h
        | assign i j e =>
            unfold call2
            dsimp only
            cases ha : assign2 W rows i j e with
            | ok s => exact assign2_good h ha
            | error e => exact h
  refine key calls (start2 W) ⟨⟨by simp [start2], by simp [start2]⟩, ?_⟩
  intro i j e he
  simp only [get2, start2, Option.bind_eq_some_iff] at he
  obtain ⟨r, hr, he⟩ := he
  have := List.mem_of_getElem? hr
  rw [List.mem_replicate] at this
  rw [this.2] at he
  have := List.mem_of_getElem? he
  rw [List.mem_replicate] at this
  rw [this.2]
  trivial

/-- A form of two spaces is accepted by block `(0, 1)` and refused by block `(0, 0)`. -/
example : (∃ rows', assign2 [7, 8] (start2 [7, 8]) 0 1
      (.form [⟨.node 0 [.term ⟨.argument 0 7, []⟩, .term ⟨.argument 1 8, []⟩], 0⟩]) = .ok rows') ∧
    ∃ e, assign2 [7, 8] (start2 [7, 8]) 0 0
      (.form [⟨.node 0 [.term ⟨.argument 0 7, []⟩, .term ⟨.argument 1 8, []⟩], 0⟩]) = .error e := by
  have h0 : functions 0 [(⟨.node 0 [.term ⟨.argument 0 7, []⟩, .term ⟨.argument 1 8, []⟩], 0⟩ : Integral Nat)] = [7] := by
    decide +kernel
  have h1 : functions 1 [(⟨.node 0 [.term ⟨.argument 0 7, []⟩, .term ⟨.argument 1 8, []⟩], 0⟩ : Integral Nat)] = [8] := by
    decide +kernel
  constructor
  · refine ⟨_, (assign_accepts _ _ _ ⟨by decide, by simp [start2]⟩ _ _ _).2 ⟨by decide, by decide, ?_, rfl⟩⟩
    exact ⟨7, 8, rfl, rfl, (functions_iff _ _ _).1 h0, (functions_iff _ _ _).1 h1⟩
  · refine ⟨.assertion, ?_⟩
    simp [assign2, pyGet, settable2, h0, h1]

/-- The same for linear forms: `7` is the test function's space, so the second block takes a number only. -/
example : (∃ es, assign1 [7, 8] [.num 0, .num 0] 0 (.form [⟨.term ⟨.argument 0 7, []⟩, 0⟩]) = .ok es) ∧
    (∃ es, assign1 [7, 8] [.num 0, .num (S := Nat) 0] 1 (.num 3) = .ok es) ∧
    ∀ es, assign1 [7, 8] [.num 0, .num 0] 1 (.form [⟨.term ⟨.argument 0 7, []⟩, 0⟩]) ≠ .ok es := by
  have h0 : functions 0 [(⟨.term ⟨.argument 0 7, []⟩, 0⟩ : Integral Nat)] = [7] := by decide +kernel
  refine ⟨⟨_, (assign_accepts_linear _ _ _ _ _).2 ⟨by decide, ⟨7, rfl, (functions_iff _ _ _).1 h0⟩, rfl⟩⟩,
    ⟨_, (assign_accepts_linear _ _ _ _ _).2 ⟨by decide, trivial, rfl⟩⟩, ?_⟩
  intro es h
  obtain ⟨_, ⟨V, hV, h1⟩, _⟩ := (assign_accepts_linear _ _ _ _ _).1 h
  rw [← functions_iff, h0] at h1
  simp at hV h1
  omega

end Verif.BlockForm
