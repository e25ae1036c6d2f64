import Verif.Spec.Dual
import Verif.Lemmas.BlockOps
import Mathlib.Algebra.Order.Field.Basic
import Mathlib.Tactic.Linarith
import Mathlib.Tactic.FieldSimp
import Mathlib.Tactic.Ring
import Mathlib.Tactic.Module
import Mathlib.Tactic.LinearCombination
/-!
# Geometry of subdivided triangles
-/
namespace Verif.Dual
open Verif Verif.BlockOps
variable {K E : Type} [Field K] [LinearOrder K] [IsStrictOrderedRing K] [AddCommGroup E] [Module K E]

omit [IsStrictOrderedRing K] in
theorem InTri.swap12 {p a b c : E} (h : InTri K p a b c) : InTri K p b a c := by
  obtain ⟨s, t, u, hs, ht, hu, h1, rfl⟩ := h
  exact ⟨t, s, u, ht, hs, hu, by rw [← h1]; ring, by module⟩

omit [IsStrictOrderedRing K] in
theorem InTri.swap23 {p a b c : E} (h : InTri K p a b c) : InTri K p a c b := by
  obtain ⟨s, t, u, hs, ht, hu, h1, rfl⟩ := h
  exact ⟨s, u, t, hs, hu, ht, by rw [← h1]; ring, by module⟩

theorem perm3 {α : Type} {i j l x y z : α} (h : [i, j, l].Perm [x, y, z]) :
    (i = x ∧ j = y ∧ l = z) ∨ (i = x ∧ j = z ∧ l = y) ∨ (i = y ∧ j = x ∧ l = z) ∨ (i = y ∧ j = z ∧ l = x) ∨
    (i = z ∧ j = x ∧ l = y) ∨ (i = z ∧ j = y ∧ l = x) := by
  have two : ∀ {a b c d : α}, [a, b].Perm [c, d] → (a = c ∧ b = d) ∨ (a = d ∧ b = c) := by
    intro a b c d h
    have ha : a ∈ [c, d] := h.mem_iff.1 (by simp)
    simp only [List.mem_cons, List.not_mem_nil, or_false] at ha
    rcases ha with rfl | rfl
    · have := List.Perm.cons_inv h
      rw [List.singleton_perm] at this
      injection this with this
      exact .inl ⟨rfl, this⟩
    · have := List.Perm.cons_inv (h.trans (List.Perm.swap _ _ _))
      rw [List.singleton_perm] at this
      injection this with this
      exact .inr ⟨rfl, this⟩
  have hi : i ∈ [x, y, z] := h.mem_iff.1 (by simp)
  simp only [List.mem_cons, List.not_mem_nil, or_false] at hi
  rcases hi with rfl | rfl | rfl
  · rcases two (List.Perm.cons_inv h) with h | h
    · exact .inl ⟨rfl, h⟩
    · exact .inr (.inl ⟨rfl, h⟩)
  · rcases two (List.Perm.cons_inv (h.trans (List.Perm.swap _ _ _))) with h | h
    · exact .inr (.inr (.inl ⟨rfl, h⟩))
    · exact .inr (.inr (.inr (.inl ⟨rfl, h⟩)))
  · have h2 : [i, j, l].Perm [i, x, y] :=
      h.trans ((List.Perm.cons _ (List.Perm.swap _ _ _)).trans (List.Perm.swap _ _ _))
    rcases two (List.Perm.cons_inv h2) with h | h
    · exact .inr (.inr (.inr (.inr (.inl ⟨rfl, h⟩))))
    · exact .inr (.inr (.inr (.inr (.inr ⟨rfl, h⟩))))

/-- A triangle with a vertex, the middle of an edge and a point inside. -/
theorem part_in {p a b c z : E} (hz : InTri K z a b c) (h : InTri K p z ((1 / 2 : K) • (a + b)) a) : InTri K p a b c := by
  obtain ⟨s, t, u, hs, ht, hu, h1, rfl⟩ := h
  obtain ⟨α, β, γ, hα, hβ, hγ, h2, rfl⟩ := hz
  refine ⟨s * α + t / 2 + u, s * β + t / 2, s * γ, by positivity, by positivity, by positivity, ?_, by module⟩
  linear_combination s * h2 + h1

/-- A point in the triangle of an inner point and of an edge is in one of the halves. -/
theorem halves {p z a b : E} {τ s t : K} (hτ : 0 ≤ τ) (hs : 0 ≤ s) (ht : 0 ≤ t) (h1 : τ + s + t = 1)
    (hp : p = τ • z + s • a + t • b) :
    InTri K p z ((1 / 2 : K) • (a + b)) a ∨ InTri K p z ((1 / 2 : K) • (a + b)) b := by
  rcases le_total t s with h | h
  · exact .inl ⟨τ, 2 * t, s - t, hτ, by positivity, by linarith, by linear_combination h1, by rw [hp]; module⟩
  · exact .inr ⟨τ, 2 * s, t - s, hτ, by positivity, by linarith, by linear_combination h1, by rw [hp]; module⟩

/-- The edge which is seen from the inner point through the given point. -/
theorem edge_of {p a b c : E} {α β γ s t u : K} (hs : 0 ≤ s) (h1 : s + t + u = 1) (h2 : α + β + γ = 1)
    (hβ : 0 ≤ β) (hγ : 0 ≤ γ) (ht : 0 ≤ t) (hu : 0 ≤ u) (hα : 0 < α) (hm1 : 0 < β → s * β ≤ t * α)
    (hm2 : 0 < γ → s * γ ≤ u * α) (hp : p = s • a + t • b + u • c) :
    ∃ τ t' u' : K, 0 ≤ τ ∧ 0 ≤ t' ∧ 0 ≤ u' ∧ τ + t' + u' = 1 ∧ p = τ • (α • a + β • b + γ • c) + t' • b + u' • c := by
  have hd : ∀ x y : K, 0 ≤ x → 0 ≤ y → (0 < y → s * y ≤ x * α) → 0 ≤ x - s / α * y := by
    intro x y hx hy h
    rcases lt_or_eq_of_le hy with h0 | h0
    · have h3 := h h0
      rw [sub_nonneg, div_mul_eq_mul_div, div_le_iff₀ hα]
      exact h3
    · rw [← h0]; simpa using hx
  refine ⟨s / α, t - s / α * β, u - s / α * γ, by positivity, hd t β ht hβ hm1, hd u γ hu hγ hm2, ?_, ?_⟩
  · have h3 : s / α * α = s := div_mul_cancel₀ s hα.ne'
    linear_combination h1 - (s / α) * h2 + h3
  · have h3 : s / α * α = s := div_mul_cancel₀ s hα.ne'
    rw [hp]
    have h4 : s • a = (s / α * α) • a := by rw [h3]
    rw [h4]
    module

/-- The six parts of a triangle cover it. -/
theorem six_cover {p a b c z : E} (hz : InTri K z a b c) :
    InTri K p a b c ↔
      (InTri K p z ((1 / 2 : K) • (b + c)) b ∨ InTri K p z ((1 / 2 : K) • (b + c)) c) ∨
      (InTri K p z ((1 / 2 : K) • (a + c)) a ∨ InTri K p z ((1 / 2 : K) • (a + c)) c) ∨
      (InTri K p z ((1 / 2 : K) • (a + b)) a ∨ InTri K p z ((1 / 2 : K) • (a + b)) b) := by
  constructor
  · rintro ⟨s, t, u, hs, ht, hu, h1, hp⟩
    obtain ⟨α, β, γ, hα, hβ, hγ, h2, hz⟩ := hz
    -- the smallest ratio
    have key : (0 < α ∧ (0 < β → s * β ≤ t * α) ∧ (0 < γ → s * γ ≤ u * α)) ∨
        (0 < β ∧ (0 < α → t * α ≤ s * β) ∧ (0 < γ → t * γ ≤ u * β)) ∨
        (0 < γ ∧ (0 < α → u * α ≤ s * γ) ∧ (0 < β → u * β ≤ t * γ)) := by
      have hmul : ∀ {x y z X Y Z : K}, 0 < X → 0 < Y → 0 < Z → x * Y ≤ y * X → y * Z ≤ z * Y → x * Z ≤ z * X := by
        intro x y z X Y Z hX hY hZ h3 h4
        rw [← div_le_div_iff₀ hX hY] at h3
        rw [← div_le_div_iff₀ hY hZ] at h4
        rw [← div_le_div_iff₀ hX hZ]
        exact h3.trans h4
      rcases lt_or_eq_of_le hα with a0 | a0 <;> rcases lt_or_eq_of_le hβ with b0 | b0 <;>
        rcases lt_or_eq_of_le hγ with c0 | c0
      · rcases le_total (s * β) (t * α) with h3 | h3
        · rcases le_total (s * γ) (u * α) with h4 | h4
          · exact .inl ⟨a0, fun _ => h3, fun _ => h4⟩
          · exact .inr (.inr ⟨c0, fun _ => h4, fun _ => hmul c0 a0 b0 h4 h3⟩)
        · rcases le_total (t * γ) (u * β) with h4 | h4
          · exact .inr (.inl ⟨b0, fun _ => h3, fun _ => h4⟩)
          · exact .inr (.inr ⟨c0, fun _ => hmul c0 b0 a0 h4 h3, fun _ => h4⟩)
      · rcases le_total (s * β) (t * α) with h3 | h3
        · exact .inl ⟨a0, fun _ => h3, fun h => absurd c0 h.ne⟩
        · exact .inr (.inl ⟨b0, fun _ => h3, fun h => absurd c0 h.ne⟩)
      · rcases le_total (s * γ) (u * α) with h3 | h3
        · exact .inl ⟨a0, fun h => absurd b0 h.ne, fun _ => h3⟩
        · exact .inr (.inr ⟨c0, fun _ => h3, fun h => absurd b0 h.ne⟩)
      · exact .inl ⟨a0, fun h => absurd b0 h.ne, fun h => absurd c0 h.ne⟩
      · rcases le_total (t * γ) (u * β) with h3 | h3
        · exact .inr (.inl ⟨b0, fun h => absurd a0 h.ne, fun _ => h3⟩)
        · exact .inr (.inr ⟨c0, fun h => absurd a0 h.ne, fun _ => h3⟩)
      · exact .inr (.inl ⟨b0, fun h => absurd a0 h.ne, fun h => absurd c0 h.ne⟩)
      · exact .inr (.inr ⟨c0, fun h => absurd a0 h.ne, fun h => absurd b0 h.ne⟩)
      · rw [← a0, ← b0, ← c0] at h2
        simp at h2
    rcases key with ⟨h0, h3, h4⟩ | ⟨h0, h3, h4⟩ | ⟨h0, h3, h4⟩
    · obtain ⟨τ, t', u', e1, e2, e3, e4, e5⟩ := edge_of hs h1 h2 hβ hγ ht hu h0 h3 h4 hp
      rw [← hz] at e5
      exact .inl (halves e1 e2 e3 e4 e5)
    · obtain ⟨τ, t', u', e1, e2, e3, e4, e5⟩ := edge_of (a := b) (b := a) (c := c) (p := p) ht (by rw [← h1]; ring)
        (by rw [← h2]; ring) hα hγ hs hu h0 h3 h4 (by rw [hp]; module)
      have e6 : p = τ • z + t' • a + u' • c := by rw [e5, hz]; module
      exact .inr (.inl (halves e1 e2 e3 e4 e6))
    · obtain ⟨τ, t', u', e1, e2, e3, e4, e5⟩ := edge_of (a := c) (b := a) (c := b) (p := p) hu (by rw [← h1]; ring)
        (by rw [← h2]; ring) hα hβ hs ht h0 h3 h4 (by rw [hp]; module)
      have e6 : p = τ • z + t' • a + u' • b := by rw [e5, hz]; module
      exact .inr (.inr (halves e1 e2 e3 e4 e6))
  · rintro ((h | h) | (h | h) | (h | h))
    · exact (part_in hz.swap12.swap23 h).swap23.swap12
    · rw [add_comm] at h
      exact (part_in (hz.swap23.swap12.swap23) h).swap23.swap12.swap23
    · exact (part_in hz.swap23 h).swap23
    · rw [add_comm] at h
      exact (part_in hz.swap23.swap12 h).swap12.swap23
    · exact part_in hz h
    · rw [add_comm] at h
      exact (part_in hz.swap12 h).swap12

end Verif.Dual
