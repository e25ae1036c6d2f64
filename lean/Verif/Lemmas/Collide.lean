import Verif.Spec.Collide
import Mathlib.Tactic.Linarith
import Mathlib.Tactic.Module
import Mathlib.Algebra.BigOperators.Fin
/-!
# Lemmas on collisions
-/
namespace Verif.Collide
open Verif Matrix
variable {g : Nat}

theorem mulVec_two (u v : Fin g → ℝ) (x : Fin 2 → ℝ) : (columns [u, v]) *ᵥ x = x 0 • u + x 1 • v := by
  funext i
  show ∑ j : Fin 2, columns [u, v] i j * x j = _
  rw [Fin.sum_univ_two]
  show u i * x 0 + v i * x 1 = x 0 * u i + x 1 * v i
  ring

theorem mulVec_three (u v w : Fin g → ℝ) (x : Fin 3 → ℝ) : (columns [u, v, w]) *ᵥ x = x 0 • u + x 1 • v + x 2 • w := by
  funext i
  show ∑ j : Fin 3, columns [u, v, w] i j * x j = _
  rw [Fin.sum_univ_three]
  show u i * x 0 + v i * x 1 + w i * x 2 = x 0 * u i + x 1 * v i + x 2 * w i
  ring

theorem regular_two {solve : Solver g} (hs : Solves solve) (u v b : Fin g → ℝ) :
    (∃ x, solve (columns [u, v]) b = some x) ↔ g = 2 ∧ ∀ s t : ℝ, s • u + t • v = 0 → s = 0 ∧ t = 0 := by
  rw [hs.regular]
  refine and_congr Iff.rfl ⟨fun h s t e => ?_, fun h x e => ?_⟩
  · have := h (![s, t] : Fin 2 → ℝ) (by rw [mulVec_two]; exact e)
    exact ⟨congrFun this (0 : Fin 2), congrFun this (1 : Fin 2)⟩
  · have e' : (x : Fin 2 → ℝ) 0 • u + (x : Fin 2 → ℝ) 1 • v = 0 := by rw [← mulVec_two]; exact e
    obtain ⟨h0, h1⟩ := h _ _ e'
    exact funext (Fin.forall_fin_two.2 ⟨h0, h1⟩ : ∀ i : Fin 2, x i = 0)

theorem regular_three {solve : Solver g} (hs : Solves solve) (u v w b : Fin g → ℝ) :
    (∃ x, solve (columns [u, v, w]) b = some x) ↔ g = 3 ∧ ∀ r s t : ℝ, r • u + s • v + t • w = 0 → r = 0 ∧ s = 0 ∧ t = 0 := by
  rw [hs.regular]
  refine and_congr Iff.rfl ⟨fun h r s t e => ?_, fun h x e => ?_⟩
  · have := h (![r, s, t] : Fin 3 → ℝ) (by rw [mulVec_three]; exact e)
    exact ⟨congrFun this (0 : Fin 3), congrFun this (1 : Fin 3), congrFun this (2 : Fin 3)⟩
  · have e' : (x : Fin 3 → ℝ) 0 • u + (x : Fin 3 → ℝ) 1 • v + (x : Fin 3 → ℝ) 2 • w = 0 := by rw [← mulVec_three]; exact e
    obtain ⟨h0, h1, h2⟩ := h _ _ _ e'
    have : ∀ i : Fin 3, (x : Fin 3 → ℝ) i = 0 := by
      intro i
      match i with
      | 0 => exact h0
      | 1 => exact h1
      | 2 => exact h2
    exact funext this

theorem crossing_iff {A B X Y : Fin g → ℝ} :
    Crossing A B X Y ↔ ∀ s t : ℝ, s • (B - A) + t • (X - Y) = 0 → s = 0 ∧ t = 0 := by
  constructor
  · intro h s t e
    have := h s (-t) (by rw [← e]; module)
    exact ⟨this.1, by linarith [this.2]⟩
  · intro h s t e
    have := h s (-t) (by rw [← e]; module)
    exact ⟨this.1, by linarith [this.2]⟩

theorem piercing_iff {A B C X Y : Fin g → ℝ} :
    Piercing A B C X Y ↔ ∀ r s t : ℝ, r • (B - A) + s • (C - A) + t • (X - Y) = 0 → r = 0 ∧ s = 0 ∧ t = 0 := by
  constructor
  · intro h r s t e
    have := h r s (-t) (by rw [← e]; module)
    exact ⟨this.1, this.2.1, by linarith [this.2.2]⟩
  · intro h r s t e
    have := h r s (-t) (by rw [← e]; module)
    exact ⟨this.1, this.2.1, by linarith [this.2.2]⟩

theorem within_two {tol : ℝ} {x : Fin 2 → ℝ} :
    within tol x = true ↔ (0 - tol < x 0 ∧ x 0 < 1 + tol) ∧ (0 - tol < x 1 ∧ x 1 < 1 + tol) := by
  unfold within
  rw [decide_eq_true_iff, Fin.forall_fin_two]

theorem within_three {tol : ℝ} {x : Fin 3 → ℝ} :
    within tol x = true ↔ (0 - tol < x 0 ∧ x 0 < 1 + tol) ∧ (0 - tol < x 1 ∧ x 1 < 1 + tol) ∧ (0 - tol < x 2 ∧ x 2 < 1 + tol) := by
  unfold within
  rw [decide_eq_true_iff]
  constructor
  · intro h
    exact ⟨h 0, h 1, h 2⟩
  · rintro ⟨h0, h1, h2⟩ i
    match i with
    | 0 => exact h0
    | 1 => exact h1
    | 2 => exact h2

/-- What `intersects` says of two segments. -/
theorem segments_iff {solve : Solver g} (hs : Solves solve) (A B X Y : Fin g → ℝ) (tol : ℝ) :
    ∃ r, intersects solve [A, B] X Y tol = .ok r ∧ (r = true ↔ g = 2 ∧ Crossing A B X Y ∧
      ∃ s t : ℝ, (0 - tol < s ∧ s < 1 + tol) ∧ (0 - tol < t ∧ t < 1 + tol) ∧ A + s • (B - A) = X + t • (Y - X)) := by
  rcases h : solve (columns [B - A, X - Y]) (X - A) with _ | x
  · refine ⟨false, by simp only [intersects, h], ?_⟩
    simp only [Bool.false_eq_true, false_iff]
    rintro ⟨h2, hc, -⟩
    obtain ⟨x, hx⟩ := (regular_two hs (B - A) (X - Y) (X - A)).2 ⟨h2, crossing_iff.1 hc⟩
    rw [h] at hx
    cases hx
  · refine ⟨within tol x, by simp only [intersects, h], ?_⟩
    obtain ⟨h2, hc⟩ := (regular_two hs (B - A) (X - Y) (X - A)).1 ⟨x, h⟩
    have e : (x : Fin 2 → ℝ) 0 • (B - A) + (x : Fin 2 → ℝ) 1 • (X - Y) = X - A := by
      rw [← mulVec_two]; exact hs.solution _ _ _ h
    refine (within_two (x := x)).trans ⟨fun hw => ⟨h2, crossing_iff.2 hc, (x : Fin 2 → ℝ) 0, (x : Fin 2 → ℝ) 1, hw.1, hw.2, ?_⟩, ?_⟩
    · rw [show A + (x : Fin 2 → ℝ) 0 • (B - A) = A + (((x : Fin 2 → ℝ) 0 • (B - A) + (x : Fin 2 → ℝ) 1 • (X - Y)) - (x : Fin 2 → ℝ) 1 • (X - Y)) by module, e]
      module
    · rintro ⟨-, -, s, t, h3, h4, e'⟩
      have := hc ((x : Fin 2 → ℝ) 0 - s) ((x : Fin 2 → ℝ) 1 - t) (by
        rw [show ((x : Fin 2 → ℝ) 0 - s) • (B - A) + ((x : Fin 2 → ℝ) 1 - t) • (X - Y) =
          ((x : Fin 2 → ℝ) 0 • (B - A) + (x : Fin 2 → ℝ) 1 • (X - Y)) - (A + s • (B - A)) + A - t • (X - Y) by module, e, e']
        module)
      rw [sub_eq_zero.1 this.1, sub_eq_zero.1 this.2]
      exact ⟨h3, h4⟩

/-- What `intersects` says of a triangle and a segment. -/
theorem triangle_iff {solve : Solver g} (hs : Solves solve) (A B C X Y : Fin g → ℝ) (tol : ℝ) :
    ∃ r, intersects solve [A, B, C] X Y tol = .ok r ∧ (r = true ↔ g = 3 ∧ Piercing A B C X Y ∧
      ∃ r s t : ℝ, (0 - tol < r ∧ r < 1 + tol) ∧ (0 - tol < s ∧ s < 1 + tol) ∧ (0 - tol < t ∧ t < 1 + tol) ∧
        (0 - tol < r + s ∧ r + s < 1 + tol) ∧ A + r • (B - A) + s • (C - A) = X + t • (Y - X)) := by
  rcases h : solve (columns [B - A, C - A, X - Y]) (X - A) with _ | x
  · refine ⟨false, by simp only [intersects, h], ?_⟩
    simp only [Bool.false_eq_true, false_iff]
    rintro ⟨h2, hc, -⟩
    obtain ⟨x, hx⟩ := (regular_three hs (B - A) (C - A) (X - Y) (X - A)).2 ⟨h2, piercing_iff.1 hc⟩
    rw [h] at hx
    cases hx
  · refine ⟨_, by simp only [intersects, h]; exact rfl, ?_⟩
    obtain ⟨h2, hc⟩ := (regular_three hs (B - A) (C - A) (X - Y) (X - A)).1 ⟨x, h⟩
    have e : (x : Fin 3 → ℝ) 0 • (B - A) + (x : Fin 3 → ℝ) 1 • (C - A) + (x : Fin 3 → ℝ) 2 • (X - Y) = X - A := by
      rw [← mulVec_three]; exact hs.solution _ _ _ h
    rw [Bool.and_eq_true, decide_eq_true_iff]
    refine (and_congr (within_three (x := x)) Iff.rfl).trans
      ⟨fun hw => ⟨h2, piercing_iff.2 hc, (x : Fin 3 → ℝ) 0, (x : Fin 3 → ℝ) 1, (x : Fin 3 → ℝ) 2, hw.1.1, hw.1.2.1, hw.1.2.2, hw.2, ?_⟩, ?_⟩
    · rw [show A + (x : Fin 3 → ℝ) 0 • (B - A) + (x : Fin 3 → ℝ) 1 • (C - A) = A + (((x : Fin 3 → ℝ) 0 • (B - A) + (x : Fin 3 → ℝ) 1 • (C - A) +
        (x : Fin 3 → ℝ) 2 • (X - Y)) - (x : Fin 3 → ℝ) 2 • (X - Y)) by module, e]
      module
    · rintro ⟨-, -, r, s, t, h3, h4, h5, h6, e'⟩
      have := hc ((x : Fin 3 → ℝ) 0 - r) ((x : Fin 3 → ℝ) 1 - s) ((x : Fin 3 → ℝ) 2 - t) (by
        rw [show ((x : Fin 3 → ℝ) 0 - r) • (B - A) + ((x : Fin 3 → ℝ) 1 - s) • (C - A) + ((x : Fin 3 → ℝ) 2 - t) • (X - Y) =
          ((x : Fin 3 → ℝ) 0 • (B - A) + (x : Fin 3 → ℝ) 1 • (C - A) + (x : Fin 3 → ℝ) 2 • (X - Y)) -
            (A + r • (B - A) + s • (C - A)) + A - t • (X - Y) by module, e, e']
        module)
      obtain ⟨e0, e1, e2⟩ := this
      rw [sub_eq_zero] at e0 e1 e2
      subst e0 e1 e2
      exact ⟨⟨h3, h4, h5⟩, h6⟩

theorem foldl_min (l : List ℝ) (a : ℝ) : (l.foldl min a ≤ a ∧ ∀ x ∈ l, l.foldl min a ≤ x) ∧ (l.foldl min a = a ∨ l.foldl min a ∈ l) := by
  induction l generalizing a with
  | nil => simp
  | cons x l ih =>
    obtain ⟨⟨h1, h2⟩, h3⟩ := ih (min a x)
    rw [List.foldl_cons]
    refine ⟨⟨h1.trans (min_le_left _ _), ?_⟩, ?_⟩
    · intro y hy
      rcases List.mem_cons.1 hy with rfl | hy
      · exact h1.trans (min_le_right _ _)
      · exact h2 y hy
    · rcases h3 with h | h
      · rcases min_choice a x with e | e <;> rw [e] at h ⊢ <;> simp [h]
      · exact .inr (List.mem_cons_of_mem _ h)

theorem foldl_max (l : List ℝ) (a : ℝ) : (a ≤ l.foldl max a ∧ ∀ x ∈ l, x ≤ l.foldl max a) ∧ (l.foldl max a = a ∨ l.foldl max a ∈ l) := by
  induction l generalizing a with
  | nil => simp
  | cons x l ih =>
    obtain ⟨⟨h1, h2⟩, h3⟩ := ih (max a x)
    rw [List.foldl_cons]
    refine ⟨⟨(le_max_left _ _).trans h1, ?_⟩, ?_⟩
    · intro y hy
      rcases List.mem_cons.1 hy with rfl | hy
      · exact (le_max_right _ _).trans h1
      · exact h2 y hy
    · rcases h3 with h | h
      · rcases max_choice a x with e | e <;> rw [e] at h ⊢ <;> simp [h]
      · exact .inr (List.mem_cons_of_mem _ h)

end Verif.Collide
