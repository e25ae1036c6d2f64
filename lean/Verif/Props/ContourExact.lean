import Verif.Props.Contour
import Verif.Spec.ContourExact
/-!
# C96: refinement of any contour, open or closed
-/
namespace Verif.Contour
open Verif Verif.BlockOps
variable {K E : Type} [Field K] [CharZero K] [AddCommGroup E] [Module K E]

/-- **C96**.  For every contour with first point `p` and `n + 1` refinements: the result is the contour with the
middle points added and the last point replaced by `p`, every segment divided into `2^n` equal parts. -/
theorem refine_any (c : List E) (p : E) (h0 : c.head? = some p) (n : Nat) :
    ∃ m r, Bent K c p m ∧ refineContour K c (n + 1) = .ok r ∧ Divides K m r (2 ^ n) ∧
      r.head? = some p ∧ r.getLast? = some p := by
  rcases c with _ | ⟨q, c⟩
  · simp at h0
  obtain rfl : q = p := by simpa using h0
  have hm : (withMids K (q :: c) ++ [q]).head? = some q := by
    rcases c with _ | ⟨x, c⟩ <;> rfl
  obtain ⟨r, e, a, b, d⟩ := refineNat_closed (K := K) n (withMids K (q :: c) ++ [q]) q hm (by simp)
  refine ⟨withMids K (q :: c) ++ [q], r, ⟨?_, by simp, ?_⟩, ?_, d, a, b⟩
  · rw [List.length_append, withMids_length]; rfl
  · intro j x y hx hy
    obtain ⟨h1, h2⟩ := withMids_get (K := K) _ j x y hx hy
    exact ⟨by rw [List.getElem?_append_left (List.getElem?_eq_some_iff.1 h1).1, h1],
      by rw [List.getElem?_append_left (List.getElem?_eq_some_iff.1 h2).1, h2]⟩
  · unfold refineContour
    rw [decide_eq_true (by omega), pyAssert_true, py_bind_ok, show ((n : Int) + 1).toNat = n + 1 by omega]
    rcases n with _ | n
    · rw [← e]; rfl
    · rw [← e]; rfl

/-- **C96**.  The result is the contour with every segment divided into `2^(n+1)` equal parts exactly if
the contour is closed. -/
theorem refine_divides_iff (c : List E) (h2 : 2 ≤ c.length) (n : Nat) :
    (∃ r, refineContour K c (n + 1) = .ok r ∧ Divides K c r (2 ^ (n + 1))) ↔ c.head? = c.getLast? := by
  obtain ⟨p, hp⟩ : ∃ p, c.head? = some p := by
    rcases c with _ | ⟨q, c⟩
    · simp at h2
    · exact ⟨q, rfl⟩
  obtain ⟨m, r, _, e, _, _, hl⟩ := refine_any (K := K) c p hp n
  constructor
  · rintro ⟨r', e', hlen, hd⟩
    rw [e] at e'
    obtain rfl := Except.ok.inj e'
    have h3 : c.length - 2 < c.length := by omega
    have h4 : c.length - 2 + 1 < c.length := by omega
    have := hd (c.length - 2) _ _ (List.getElem?_eq_getElem h3) (List.getElem?_eq_getElem h4) (2 ^ (n + 1)) le_rfl
    have hN : ((2 ^ (n + 1) : Nat) : K) ≠ 0 := by
      exact_mod_cast pow_ne_zero (n + 1) (by norm_num : (2 : Nat) ≠ 0)
    rw [div_self hN, one_smul, add_sub_cancel] at this
    rw [List.getLast?_eq_getElem?, hlen, Nat.add_sub_cancel] at hl
    rw [show (c.length - 2) * 2 ^ (n + 1) + 2 ^ (n + 1) = (c.length - 1) * 2 ^ (n + 1) by
      rw [← Nat.succ_mul]; congr 1; omega, hl] at this
    rw [hp, List.getLast?_eq_getElem?, show c.length - 1 = c.length - 2 + 1 by omega,
      List.getElem?_eq_getElem h4]
    exact this
  · intro h
    obtain ⟨r', e', d, _⟩ := refine_contour_partial (K := K) c p hp (by rw [← h, hp]) (n + 1)
    exact ⟨r', e', d⟩

example : ∃ m r, Bent ℚ [(0 : ℚ), 1, 3] 0 m ∧ refineContour ℚ [(0 : ℚ), 1, 3] (1 + 1) = .ok r ∧
    Divides ℚ m r (2 ^ 1) ∧ r.head? = some 0 ∧ r.getLast? = some 0 := refine_any _ _ rfl 1

end Verif.Contour
