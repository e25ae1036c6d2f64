import Verif.Spec.Extension
import Verif.Lemmas.Patch
import Verif.Lemmas.BlockOps
import Mathlib.Tactic.Linarith
/-!
# Lemmas on extensions
-/
namespace Verif.Extension
open Verif Verif.BlockOps
variable {d : Nat}

theorem cdist_le {x y z : Fin d → ℝ} : cdist x y ≤ cdist x z ↔ ∑ i, (x i - y i) ^ 2 ≤ ∑ i, (x i - z i) ^ 2 :=
  Real.sqrt_le_sqrt_iff (Finset.sum_nonneg (fun _ _ => sq_nonneg _))

theorem cdist_eq_zero {x y : Fin d → ℝ} : cdist x y = 0 ↔ x = y := by
  unfold cdist
  rw [Real.sqrt_eq_zero (Finset.sum_nonneg (fun _ _ => sq_nonneg _)), Finset.sum_eq_zero_iff_of_nonneg (fun _ _ => sq_nonneg _)]
  constructor
  · intro h
    funext i
    have := h i (Finset.mem_univ i)
    rw [sq_eq_zero_iff, sub_eq_zero] at this
    exact this
  · rintro rfl i _
    simp

theorem closest_ok {V : Space d} (hV : V.points ≠ []) (EV : Space d) :
    ∃ cs, closest V EV = .ok cs ∧ List.Forall₂ (fun x c => Nearest V.points x c) EV.points cs := by
  have h : ∀ l : List (Fin d → ℝ), ∃ cs, pyMap (fun x => Patch.argmin (V.points.map (cdist x))) l = .ok cs ∧
      List.Forall₂ (fun x c => Nearest V.points x c) l cs := by
    intro l
    induction l with
    | nil => exact ⟨[], rfl, .nil⟩
    | cons x l ih =>
      obtain ⟨cs, h1, h2⟩ := ih
      obtain ⟨i, w, e1, e2, e3⟩ := Patch.argmin_ok (l := V.points.map (cdist x)) (by simpa using hV)
      refine ⟨i :: cs, ?_, .cons ?_ h2⟩
      · rw [pyMap, e1, h1]
        rfl
      · rw [List.getElem?_map] at e2
        rcases hy : V.points[i]? with _ | y
        · rw [hy] at e2; cases e2
        · rw [hy] at e2
          injection e2 with e2
          refine ⟨y, hy, fun z hz => ?_⟩
          obtain ⟨k, hk⟩ := List.getElem?_of_mem hz
          have := (e3 k (cdist x z) (by rw [List.getElem?_map, hk]; rfl)).1
          rw [← e2] at this
          exact cdist_le.1 this
  exact h EV.points

theorem expand_get {n k : Nat} (hk : k < n) : ∀ (cs : List Nat) (r : Nat), (expand n cs)[n * r + k]? = cs[r]?.map (fun c => n * c + k)
  | [], r => by simp [expand]
  | c :: cs, 0 => by
      simp only [expand, List.flatMap_cons, Nat.mul_zero, Nat.zero_add]
      rw [List.getElem?_append_left (by simpa using hk), List.getElem?_map, List.getElem?_range hk]
      rfl
  | c :: cs, r + 1 => by
      have := expand_get hk cs r
      simp only [expand, List.flatMap_cons] at this ⊢
      rw [List.getElem?_append_right (by simp; rw [Nat.mul_succ]; omega)]
      simp only [List.length_map, List.length_range]
      rw [show n * (r + 1) + k - n = n * r + k by rw [Nat.mul_succ]; omega, this]
      rfl

theorem expand_length (n : Nat) (cs : List Nat) : (expand n cs).length = n * cs.length := by
  induction cs with
  | nil => simp [expand]
  | cons c cs ih =>
    simp only [expand, List.flatMap_cons, List.length_append, List.length_map, List.length_range, List.length_cons] at ih ⊢
    rw [ih, Nat.mul_succ]
    omega

theorem not_all_zero {V EV : Space d} (h : ∃ x ∈ EV.points, ∃ y ∈ V.points, x ≠ y) :
    ∃ x ∈ EV.points, ∃ y ∈ V.points, cdist x y ≠ 0 := by
  obtain ⟨x, hx, y, hy, e⟩ := h
  exact ⟨x, hx, y, hy, fun h => e (cdist_eq_zero.1 h)⟩

theorem forall₂_get {α β : Type} {R : α → β → Prop} : ∀ {l : List α} {m : List β}, List.Forall₂ R l m → ∀ {i : Nat} {a : α},
    l[i]? = some a → ∃ b, m[i]? = some b ∧ R a b
  | _, _, .nil, i, a, h => by simp at h
  | _, _, .cons h _, 0, a, e => by
      injection e with e
      subst e
      exact ⟨_, rfl, h⟩
  | _, _, .cons _ h, i + 1, a, e => by
      obtain ⟨b, h1, h2⟩ := forall₂_get h (i := i) (a := a) (by simpa using e)
      exact ⟨b, by simpa using h1, h2⟩

end Verif.Extension
