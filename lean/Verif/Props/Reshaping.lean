import Verif.Props.ListUtils
/-! # C03: exactly when `reshape_list` returns -/
namespace Verif.ListUtils
open Verif NL
variable {α : Type}

theorem sumItems_shaped {b : Nat} {t : List Nat} : ∀ {xs : List (NL α)}, (∀ x ∈ xs, Shaped (b :: t) x) →
    ∃ ys, sumItems xs = .ok ys ∧ (∀ y ∈ ys, Shaped t y) ∧ (xs ≠ [] → ys ≠ [])
  | [], _ => ⟨[], rfl, by simp, by simp⟩
  | x :: xs, h => by
      obtain ⟨ys, h1, h2, _⟩ := sumItems_shaped (xs := xs) (fun y hy => h y (by simp [hy]))
      have hx := h x (by simp)
      generalize hs : b :: t = s at hx
      cases hx with
      | leaf a => cases hs
      | empty => cases hs
      | node zs s hz hx =>
          injection hs with e1 e2
          subst e2
          refine ⟨zs ++ ys, by simp [sumItems, h1, bind, Except.bind, pure, Except.pure], ?_, by simp [hz]⟩
          intro y hy
          rcases List.mem_append.1 hy with hy | hy
          · exact hx y hy
          · exact h2 y hy

theorem flattenLoop_shaped : ∀ (s : List Nat) (n : Nat) (xs : List (NL α)), xs ≠ [] → (∀ x ∈ xs, Shaped s x) →
    ∃ ys, flattenLoop (n :: s) (.node xs) = .ok (.node ys) ∧ ys ≠ []
  | [], n, xs, hne, _ => ⟨xs, by rw [flattenLoop]; simp, hne⟩
  | b :: t, n, xs, hne, h => by
      obtain ⟨ys, h1, h2, h3⟩ := sumItems_shaped h
      obtain ⟨zs, h4, h5⟩ := flattenLoop_shaped t (n * b) ys (h3 hne) h2
      refine ⟨zs, ?_, h5⟩
      rw [flattenLoop]
      simp [sumLists, h1, bind, Except.bind, pure, Except.pure, h4]

theorem flattenList_shaped {n : Nat} {s : List Nat} {l : NL α} (h : Shaped (n :: s) l) :
    ∃ ys, flattenList l = .ok (.node ys) ∧ ys ≠ [] := by
  have hs := shapeList_complete h
  generalize hr : n :: s = r at h
  cases h with
  | leaf a => cases hr
  | empty => cases hr
  | node xs t hne hx =>
      obtain ⟨ys, h1, h2⟩ := flattenLoop_shaped t xs.length xs hne hx
      exact ⟨ys, by rw [flattenList, hs, py_bind_ok, hr, h1], h2⟩

theorem sliceFrom_negative {xs : List α} (hne : xs ≠ []) {c : Int} (hc : c < 0) : sliceFrom xs c ≠ [] := by
  have := List.length_pos_iff.2 hne
  simp only [sliceFrom, if_neg (by omega : ¬ 0 ≤ c), ne_eq, List.drop_eq_nil_iff]
  omega

/-- Packing by a negative number of items does not end. -/
theorem package_negative {c : Int} (hc : c < 0) : ∀ (fuel : Nat) (xs : List (NL α)), xs ≠ [] →
    package fuel xs c = .error .outOfFuel
  | 0, _, _ => rfl
  | fuel + 1, xs, hne => by
      rw [package, package_negative hc fuel _ (sliceFrom_negative hne hc)]
      simp [hne]

theorem package_nonempty (c : Int) : ∀ (fuel : Nat) (xs : List (NL α)), xs ≠ [] →
    package fuel xs c = .error .outOfFuel ∨ ∃ r, package fuel xs c = .ok r ∧ r ≠ []
  | 0, _, _ => .inl rfl
  | fuel + 1, xs, hne => by
      rw [package]
      simp only [List.isEmpty_iff, hne, if_false]
      cases h : package fuel (sliceFrom xs c) c with
      | ok r => exact .inr ⟨_, rfl, by simp⟩
      | error e =>
          left
          have : e = .outOfFuel := by
            by_cases hs : sliceFrom xs c = []
            · cases fuel with
              | zero => rw [package] at h; injection h with h; exact h.symm
              | succ f => rw [hs, package] at h; simp at h
            · rcases package_nonempty c fuel _ hs with h' | ⟨r, h', _⟩
              · rw [h'] at h; injection h with h; exact h.symm
              · rw [h'] at h; cases h
          rw [this, py_bind_error]

theorem reshapeLoop_negative (fuel : Nat) : ∀ (rest : List Int) (d : Int) (xs : List (NL α)), xs ≠ [] →
    (∃ c ∈ rest, c < 0) → reshapeLoop fuel (rest ++ [d]) (.node xs) = .error .outOfFuel
  | [], _, _, _, ⟨c, hc, _⟩ => by simp at hc
  | c :: rest, d, xs, hne, h => by
      obtain ⟨e, es, hes⟩ : ∃ e es, rest ++ [d] = e :: es := by
        cases rest with
        | nil => exact ⟨_, _, rfl⟩
        | cons a l => exact ⟨_, _, rfl⟩
      rw [List.cons_append, hes, reshapeLoop]
      rcases package_nonempty c fuel xs hne with hp | ⟨r, hp, hr⟩
      · rw [hp, py_bind_error]
      · rw [hp, py_bind_ok, ← hes]
        refine reshapeLoop_negative fuel rest d r hr ?_
        obtain ⟨k, hk, hk0⟩ := h
        rcases List.mem_cons.1 hk with rfl | hk
        · rw [package_negative hk0 fuel xs hne] at hp; cases hp
        · exact ⟨k, hk, hk0⟩

/-- **C03** `reshape_list` to a shape with the right number of entries never returns if some extent is negative. -/
theorem reshape_diverges (l : NL α) (n : Nat) (s : List Nat) (hl : Shaped (n :: s) l) (d : Int) (shape : List Int)
    (h : (d :: shape).prod = ((n :: s).prod : Nat)) (hneg : ∃ c ∈ d :: shape, c < 0) (fuel : Nat) :
    reshapeList fuel l (d :: shape) = .error .outOfFuel := by
  obtain ⟨ys, hfl, hne⟩ := flattenList_shaped hl
  have hP : 0 < (n :: s).prod := List.prod_pos (shaped_pos hl)
  have hq : prodShape (d :: shape) = .ok (d :: shape).prod := by simp [prodShape, foldl_mul_eq]
  have htail : ∃ c ∈ shape, c < 0 := by
    by_contra hc
    push Not at hc
    obtain ⟨c, hc', hc0⟩ := hneg
    rcases List.mem_cons.1 hc' with rfl | hc'
    · have : 0 ≤ shape.prod := List.prod_nonneg hc
      rw [List.prod_cons] at h
      have := mul_nonpos_of_nonpos_of_nonneg (le_of_lt hc0) this
      omega
    · exact absurd (hc c hc') (by omega)
  simp only [reshapeList, shapeList_complete hl, py_bind_ok, prodShape_ofNat, hq, h, beq_self_eq_true, pyAssert_true, hfl,
    List.reverse_cons]
  refine reshapeLoop_negative fuel shape.reverse d ys hne ?_
  obtain ⟨c, hc, h0⟩ := htail
  exact ⟨c, by simpa using hc, h0⟩

/-- **C03** For lists which are not ragged `reshape_list` returns or raises, after a number of steps, exactly if the number of entries
differs or no extent is negative. -/
theorem reshape_returns_iff (l : NL α) (n : Nat) (s : List Nat) (hl : Shaped (n :: s) l) (d : Int) (shape : List Int) :
    (∃ fuel₀, ∀ fuel, fuel₀ ≤ fuel → reshapeList fuel l (d :: shape) ≠ .error .outOfFuel) ↔
      (d :: shape).prod ≠ ((n :: s).prod : Nat) ∨ ∀ c ∈ d :: shape, 0 ≤ c := by
  constructor
  · rintro ⟨f, hf⟩
    by_contra hc
    push Not at hc
    exact hf f (Nat.le_refl f) (reshape_diverges l n s hl d shape hc.1 hc.2 f)
  · rintro (h | h)
    · exact ⟨0, fun fuel _ => by rw [reshape_rejects fuel l n s hl d shape h]; simp⟩
    · exact reshape_returns_partial l _ h

example (fuel : Nat) : reshapeList fuel ex22 [2, -1, -2] = .error .outOfFuel :=
  reshape_diverges ex22 2 [2] ((shape_list_decides ex22).1 _ |>.1 rfl) 2 [-1, -2] (by simp) ⟨-1, by simp, by omega⟩ fuel

end Verif.ListUtils
