import Verif.Props.CenterVec
/-!
# Centres of cells

The theorems on circumcentres and vectors between centres (C51, C62) for a solver by inverse matrices, a tetrahedron and the
kite.
-/
namespace Verif.CenterVec.Examples
open Verif Verif.BlockOps Matrix Verif.Center Refine CenterVec

/-- The solver of the linear systems. -/
noncomputable def solve {K : Type} [Field K] (n : Nat) : Solver K n := fun A b => A⁻¹ *ᵥ b

theorem solves {K : Type} [Field K] (n : Nat) : Solves (solve (K := K) n) := solves_inv n

theorem corner_independent : AffInd ℚ [![(0 : ℚ), 0, 0], ![1, 0, 0], ![0, 1, 0], ![0, 0, 1]] := by
  intro w hw hs hc
  rcases w with _ | ⟨a, _ | ⟨b, _ | ⟨c, _ | ⟨d, _ | ⟨e, l⟩⟩⟩⟩⟩ <;> simp at hw
  simp [comb] at hs hc
  obtain ⟨h1, h2, h3⟩ := hc
  have h4 : a = 0 := by rw [h1, h2, h3] at hs; linarith
  intro x hx
  simp at hx
  rcases hx with rfl | rfl | rfl | rfl <;> assumption

/-- The circumcentre of the corner of the unit cube is found. -/
example : ∃ y, cellCircumcenter (solve 2) (solve 3) 3 3 [![(0 : ℚ), 0, 0], ![1, 0, 0], ![0, 1, 0], ![0, 0, 1]] = .ok y ∧
    IsCircumcenter [![(0 : ℚ), 0, 0], ![1, 0, 0], ![0, 1, 0], ![0, 0, 1]] y := by
  obtain ⟨y, hy⟩ := circumcenter_total_partial (solve 2) (solve 3) (tdim := 3) (gdim := 3)
    [![(0 : ℚ), 0, 0], ![1, 0, 0], ![0, 1, 0], ![0, 0, 1]] rfl (by simp)
  exact ⟨y, hy, circumcenter_correct (solves 2) (solves 3) corner_independent hy⟩

theorem area (f : Facet 2) (hf : f ∈ kite) : f.area ≠ 0 := (kite_ok f hf).area

example := center_vector_partial area (kite_centers (solves 2) (solves 3))
example := circum_distance area (kite_centers (solves 2) (solves 3))
example := centroid_distance area
example := delaunay_interior_always kite_ok (kite_centers (solves 2) (solves 3)) (fun f hf _ => kite_distinct f hf)
  ⟨_, by simp [kite]; exact .inl rfl, rfl⟩
example := not_delaunay_accepted (solves 2) (solves 3)
example := delaunay_refused (solves 2) (solves 3)

/-- Two right triangles which share their longest edge. -/
noncomputable def square : List (Facet 2) := [⟨1, ![0, 1], [![0, 0], ![1, 1]], [![0, 0], ![1, 1], ![1, 0]], some [![0, 0], ![1, 1], ![0, 1]]⟩]

theorem square_center1 : IsCircumcenter [![(0 : ℝ), 0], ![1, 1], ![1, 0]] ![1 / 2, 1 / 2] := by
  refine ⟨⟨[1 / 2, 1 / 2, 0], rfl, by norm_num, ?_⟩, ?_⟩
  · funext i; fin_cases i <;> norm_num [Refine.comb]
  · intro p hp q hq
    simp only [List.mem_cons, List.not_mem_nil, or_false] at hp hq
    rcases hp with rfl | rfl | rfl <;> rcases hq with rfl | rfl | rfl <;> norm_num [dist2, Fin.sum_univ_two]

theorem square_center2 : IsCircumcenter [![(0 : ℝ), 0], ![1, 1], ![0, 1]] ![1 / 2, 1 / 2] := by
  refine ⟨⟨[1 / 2, 1 / 2, 0], rfl, by norm_num, ?_⟩, ?_⟩
  · funext i; fin_cases i <;> norm_num [Refine.comb]
  · intro p hp q hq
    simp only [List.mem_cons, List.not_mem_nil, or_false] at hp hq
    rcases hp with rfl | rfl | rfl <;> rcases hq with rfl | rfl | rfl <;> norm_num [dist2, Fin.sum_univ_two]

/-- A function which finds the centers of both. -/
noncomputable def middle : CenterFn 2 := fun _ => .ok ![1 / 2, 1 / 2]

example := delaunay_not_a_number (circum := middle) (mesh := square) (by simp [square])
  (by
    intro f hf l hl
    simp only [square, List.mem_singleton] at hf
    subst hf
    rcases hl with rfl | hl
    · exact ⟨_, rfl, square_center1⟩
    · injection hl with hl; subst hl; exact ⟨_, rfl, square_center2⟩)
  ⟨_, List.mem_singleton.2 rfl, _, _, rfl, square_center1, square_center2⟩

/-- Triangles with the center in the origin. -/
example := distance2_origin (d := 2) (circum := fun _ => .ok 0) (mesh := [⟨1, ![0, 1], [![0, 0], ![1, 0]], [], none⟩]) (by simp)

end Verif.CenterVec.Examples
