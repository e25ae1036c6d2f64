import Verif.Lemmas.Extension
import Mathlib.Tactic.NormNum
import Mathlib.LinearAlgebra.Matrix.Notation
/-!
# C67: uniform extension
-/
namespace Verif.Extension
open Verif Verif.BlockOps
variable {d : Nat}

/-- C67.  At each node of the extended mesh the uniform extension has the value at the closest node. -/
theorem uniform_nearest_partial {V EV : Space d} (ht : V.tensor = false) (hd : V.dim = V.points.length) (hE : EV.dim = EV.points.length)
    (hne : ∃ x ∈ EV.points, ∃ y ∈ V.points, x ≠ y) :
    ∃ E, uniform V EV = .ok E ∧ E.length = EV.dim ∧ ∀ v : List ℝ, v.length = V.dim → ∀ (r : Nat) x, EV.points[r]? = some x →
      ∃ c t, Nearest V.points x c ∧ v[c]? = some t ∧ (apply E v)[r]? = some t := by
  have hV : V.points ≠ [] := by
    obtain ⟨_, _, y, hy, _⟩ := hne
    exact List.ne_nil_of_mem hy
  obtain ⟨cs, h1, h2⟩ := closest_ok hV EV
  have hl : cs.length = EV.dim := by rw [hE, h2.length_eq]
  refine ⟨cs, ?_, hl, ?_⟩
  · unfold uniform
    rw [decide_eq_true (not_all_zero hne), h1]
    dsimp only [bind, Except.bind, pyAssert]
    simp only [if_true, ht, Bool.false_eq_true, if_false, hl, lt_irrefl]
    rw [← hl, List.take_length]
  · intro v hv r x hx
    obtain ⟨c, hc, hn⟩ := forall₂_get h2 hx
    have hlt : c < v.length := by
      obtain ⟨y, hy, -⟩ := hn
      rw [hv, hd]
      exact (List.getElem?_eq_some_iff.1 hy).1
    refine ⟨c, v[c], hn, List.getElem?_eq_getElem hlt, ?_⟩
    unfold apply
    rw [List.getElem?_map, hc]
    simp [List.getD_eq_getElem?_getD, List.getElem?_eq_getElem hlt]

/-- C67.  The same for the components of vectors and tensors, where the components at a node have consecutive numbers. -/
theorem uniform_components {V EV : Space d} {n : Nat} (ht : V.tensor = true) (hd : V.dim = n * V.points.length)
    (hE : EV.dim = n * EV.points.length) (hne : ∃ x ∈ EV.points, ∃ y ∈ V.points, x ≠ y) :
    ∃ E, uniform V EV = .ok E ∧ E.length = EV.dim ∧ ∀ v : List ℝ, v.length = V.dim → ∀ (r : Nat) x, EV.points[r]? = some x →
      ∃ c, Nearest V.points x c ∧ ∀ k, k < n → ∃ t, v[n * c + k]? = some t ∧ (apply E v)[n * r + k]? = some t := by
  have hV : V.points ≠ [] := by
    obtain ⟨_, _, y, hy, _⟩ := hne
    exact List.ne_nil_of_mem hy
  obtain ⟨cs, h1, h2⟩ := closest_ok hV EV
  have hl : (expand n cs).length = EV.dim := by rw [expand_length, hE, h2.length_eq]
  refine ⟨expand n cs, ?_, hl, ?_⟩
  · unfold uniform
    rw [decide_eq_true (not_all_zero hne), h1]
    dsimp only [bind, Except.bind, pyAssert]
    rw [hd, Nat.mul_div_cancel _ (List.length_pos_iff.2 hV)]
    simp only [if_true, ht, hl, lt_irrefl, if_false]
    rw [← hl, List.take_length]
  · intro v hv r x hx
    obtain ⟨c, hc, hn⟩ := forall₂_get h2 hx
    refine ⟨c, hn, fun k hk => ?_⟩
    have hlt : n * c + k < v.length := by
      obtain ⟨y, hy, -⟩ := hn
      have := (List.getElem?_eq_some_iff.1 hy).1
      rw [hv, hd]
      calc n * c + k < n * c + n := by omega
        _ = n * (c + 1) := by rw [Nat.mul_succ]
        _ ≤ n * V.points.length := Nat.mul_le_mul_left _ this
    refine ⟨v[n * c + k], List.getElem?_eq_getElem hlt, ?_⟩
    unfold apply
    rw [List.getElem?_map, expand_get hk, hc]
    simp [List.getD_eq_getElem?_getD, List.getElem?_eq_getElem hlt]

/-- C67.  Constants are extended to constants. -/
theorem uniform_constant {V EV : Space d} (ht : V.tensor = false) (hd : V.dim = V.points.length) (hE : EV.dim = EV.points.length)
    (hne : ∃ x ∈ EV.points, ∃ y ∈ V.points, x ≠ y) (t : ℝ) :
    ∃ E, uniform V EV = .ok E ∧ apply E (List.replicate V.dim t) = List.replicate EV.dim t := by
  obtain ⟨E, h1, h2, h3⟩ := uniform_nearest_partial ht hd hE hne
  refine ⟨E, h1, List.eq_replicate_iff.2 ⟨by simp [apply, h2], fun b hb => ?_⟩⟩
  obtain ⟨r, hr⟩ := List.getElem?_of_mem hb
  have hlt : r < EV.points.length := by
    have := (List.getElem?_eq_some_iff.1 hr).1
    rw [apply, List.length_map, h2, hE] at this
    exact this
  obtain ⟨c, u, -, h5, h6⟩ := h3 (List.replicate V.dim t) (by simp) r _ (List.getElem?_eq_getElem hlt)
  rw [hr] at h6
  injection h6 with h6
  rw [h6]
  exact List.eq_of_mem_replicate (List.mem_of_getElem? h5)

/-- C67.  Where a node is also a node of the curve the value is kept. -/
theorem uniform_keeps {V EV : Space d} (ht : V.tensor = false) (hd : V.dim = V.points.length) (hE : EV.dim = EV.points.length)
    (hne : ∃ x ∈ EV.points, ∃ y ∈ V.points, x ≠ y) (hnd : V.points.Nodup) :
    ∃ E, uniform V EV = .ok E ∧ ∀ v : List ℝ, v.length = V.dim → ∀ (r c : Nat) x, EV.points[r]? = some x → V.points[c]? = some x →
      (apply E v)[r]? = v[c]? := by
  obtain ⟨E, h1, -, h3⟩ := uniform_nearest_partial ht hd hE hne
  refine ⟨E, h1, fun v hv r c x hr hc => ?_⟩
  obtain ⟨c', t, ⟨y, hy, hmin⟩, h5, h6⟩ := h3 v hv r x hr
  have h0 := hmin x (List.mem_of_getElem? hc)
  have : x = y := cdist_eq_zero.1 (le_antisymm (by
    have := cdist_le.2 h0
    rwa [cdist_eq_zero.2 (rfl : x = x)] at this) (Real.sqrt_nonneg _))
  subst this
  have hcc : c = c' := (List.getElem?_inj (List.getElem?_eq_some_iff.1 hc).1 hnd).1 (by rw [hc, hy])
  rw [h6, hcc, h5]

/-- C67.  Curves which are single points, extended to the same point, are refused. -/
theorem uniform_refused {V EV : Space d} (h : ∀ x ∈ EV.points, ∀ y ∈ V.points, x = y) : uniform V EV = .error .assertion := by
  unfold uniform
  rw [decide_eq_false]
  · rfl
  · rintro ⟨x, hx, y, hy, e⟩
    exact e (cdist_eq_zero.2 (h x hx y hy))

/-- C67.  Elements of different degree or family and unexpected dimensions are refused. -/
theorem extension_checks (harmonic : Space d → Space d → Py (List Nat)) {V EV : Space d} {mesh : Nat} (type : String)
    (h : EV.mesh ≠ mesh ∨ V.tdim ≠ 1 ∨ (EV.tdim ≠ 1 ∧ EV.tdim ≠ 2) ∨ V.degree ≠ EV.degree ∨ V.family ≠ EV.family ∨ (d ≠ 2 ∧ d ≠ 3)) :
    extensionMat harmonic V EV mesh type = .error .assertion := by
  unfold extensionMat
  rw [show checks V EV mesh = false from by
    unfold checks
    rw [← Bool.not_eq_true]
    intro hc
    simp only [Bool.and_eq_true, Bool.or_eq_true, beq_iff_eq] at hc
    obtain ⟨⟨⟨⟨⟨h1, h2⟩, h3⟩, h4⟩, h5⟩, h6⟩ := hc
    rcases h with h | h | h | h | h | h
    · exact h h1
    · exact h h2
    · exact h3.elim h.1 h.2
    · exact h h4
    · exact h h5
    · exact h6.elim h.1 h.2]
  rfl

/-- C67 is false of the dispatch: for other types there is no matrix and no error. -/
theorem extension_other (harmonic : Space d → Space d → Py (List Nat)) {V EV : Space d} {mesh : Nat} {type : String}
    (h : checks V EV mesh = true) (h1 : type ≠ "uniform") (h2 : type ≠ "harmonic") : extensionMat harmonic V EV mesh type = .ok none := by
  unfold extensionMat
  rw [h]
  simp [pyAssert, h1, h2]

/-- C67 is false that domains which intersect are refused, as line 81 says. -/
theorem intersecting_accepted : ∃ V EV : Space 2, checks V EV 1 = true ∧ (∃ x, x ∈ V.points ∧ x ∈ EV.points) ∧
    ∃ E, uniform V EV = .ok E := by
  let V : Space 2 := ⟨0, 1, "CG", 1, false, [![0, 0], ![1, 0]], 2⟩
  let EV : Space 2 := ⟨1, 1, "CG", 1, false, [![0, 0], ![0, 1]], 2⟩
  refine ⟨V, EV, by decide, ⟨![0, 0], by simp [V], by simp [EV]⟩, ?_⟩
  obtain ⟨E, h, -⟩ := uniform_nearest_partial (V := V) (EV := EV) rfl rfl rfl ⟨![0, 0], by simp [EV], ![1, 0], by simp [V], by simp⟩
  exact ⟨E, h⟩

/-- C67 is false of vectors with different numbers of components: the second node gets a wrong component. -/
theorem components_wrong : ∃ V EV : Space 2, checks V EV 1 = true ∧ V.dim = 3 * V.points.length ∧ EV.dim = 2 * EV.points.length ∧
    ∃ E, uniform V EV = .ok E ∧ apply E [1, 2, 3] = [1, 2, 3, 1] := by
  let V : Space 2 := ⟨0, 1, "CG", 1, true, [![0, 0]], 3⟩
  let EV : Space 2 := ⟨1, 2, "CG", 1, true, [![0, 1], ![1, 0]], 4⟩
  refine ⟨V, EV, by decide, rfl, rfl, [0, 1, 2, 0], ?_, rfl⟩
  unfold uniform
  rw [decide_eq_true (not_all_zero (V := V) (EV := EV) ⟨![0, 1], by simp [EV], ![0, 0], by simp [V], by simp⟩)]
  have h : closest V EV = .ok [0, 0] := rfl
  rw [h]
  simp [V, EV, expand, pyAssert, List.range_succ]

/-! ## The hypotheses can be met -/

example : ∃ E, uniform (d := 2) ⟨0, 1, "CG", 1, false, [![0, 0], ![1, 0]], 2⟩ ⟨1, 1, "CG", 1, false, [![0, 1], ![1, 1], ![2, 1]], 3⟩ = .ok E ∧
    apply E [5, 5] = [5, 5, 5] :=
  uniform_constant (V := ⟨0, 1, "CG", 1, false, [![0, 0], ![1, 0]], 2⟩) (EV := ⟨1, 1, "CG", 1, false, [![0, 1], ![1, 1], ![2, 1]], 3⟩)
    rfl rfl rfl ⟨![0, 1], by simp, ![0, 0], by simp, by simp⟩ 5

example : ∃ E, uniform (d := 2) ⟨0, 1, "CG", 1, true, [![0, 0], ![1, 0]], 4⟩ ⟨1, 1, "CG", 1, true, [![0, 1], ![1, 1], ![2, 1]], 6⟩ = .ok E := by
  obtain ⟨E, h, -⟩ := uniform_components (V := ⟨0, 1, "CG", 1, true, [![0, 0], ![1, 0]], 4⟩)
    (EV := ⟨1, 1, "CG", 1, true, [![0, 1], ![1, 1], ![2, 1]], 6⟩) (n := 2) rfl rfl rfl ⟨![0, 1], by simp, ![0, 0], by simp, by simp⟩
  exact ⟨E, h⟩

end Verif.Extension
