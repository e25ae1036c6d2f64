import Verif.Props.Branch
/-!
# Branches and loops

The theorems on colouring and walking (C45, C46) for a star, a triangle and an open curve in a larger mesh.
-/
namespace Verif.Branch.Examples
open Verif Verif.BlockOps Verif.Embedded Branch

/-- Three segments with a common vertex, one of two cells. -/
def star : Line := lineOf 5 [(0, 1), (0, 2), (0, 3), (3, 4)]

theorem star_ok : star.OK := lineOf_ok _ _ (by decide)

theorem star_terminal : ∃ v, IsTerminal star v := ⟨0, by unfold IsTerminal; decide⟩

theorem star_on : ∀ c < star.nc, OnBranch star c := by
  intro c hc
  have hc : c < 4 := hc
  have : ∃ v < 5, (star.v2c v).length ≠ 2 ∧ c ∈ star.v2c v := by revert c; decide
  obtain ⟨v, a, b, d⟩ := this
  exact ⟨c, v, .refl, ⟨a, b⟩, d⟩

theorem head_mem (k : Nat) (l : List Nat) (h : l ≠ []) : (fun (_ : Nat) (l : List Nat) => l.headD 0) k l ∈ l := by
  cases l with
  | nil => exact absurd rfl h
  | cons a l => simp

example := color_branches_partial star_ok head_mem star_terminal
example := color_branches_all star_ok head_mem star_terminal star_on
example := color_branches_iff star_ok head_mem

/-- A triangle. -/
def triangle : Line := lineOf 3 [(0, 1), (1, 2), (2, 0)]

theorem triangle_closed : ¬ ∃ v, IsTerminal triangle v := by
  rintro ⟨v, h1, h2⟩
  have h1 : v < 3 := h1
  revert v; decide

example := color_branches_closed (fun _ l => l.headD 0) triangle_closed

/-- Cells which all have a vertex in common with the cell `hub` are connected. -/
theorem curve_check (nv : Nat) (ps : List (Nat × Nat)) (cells : List Nat) (hub : Nat) (hh : hub ∈ cells)
    (hne : ∀ c ∈ cells, ((lineOf nv ps).c2v c).1 ≠ ((lineOf nv ps).c2v c).2)
    (hlt : ∀ c ∈ cells, ((lineOf nv ps).c2v c).1 < nv ∧ ((lineOf nv ps).c2v c).2 < nv)
    (htwo : ∀ v < nv, degree (lineOf nv ps).c2v cells v ≤ 2)
    (hhub : ∀ c ∈ cells, ∃ v < nv, EndOf (lineOf nv ps).c2v v c ∧ EndOf (lineOf nv ps).c2v v hub) :
    Curve (lineOf nv ps).c2v cells := by
  refine ⟨hne, fun v => ?_, fun c hc c' hc' => ?_⟩
  · rcases Nat.lt_or_ge v nv with h | h
    · exact htwo v h
    · rw [List.filter_eq_nil_iff.2 (by
        intro c hc
        have := hlt c hc
        simp only [Bool.or_eq_true, decide_eq_true_eq]
        omega)]
      simp
  · obtain ⟨v, _, a, b⟩ := hhub c hc
    obtain ⟨w, _, a', b'⟩ := hhub c' hc'
    exact .tail (.single ⟨hc, hh, v, a, b⟩) ⟨hh, hc', w, b', a'⟩

/-- The cells marked 1 form an open curve, those marked 2 do not. -/
def mesh : Line := lineOf 5 [(0, 1), (3, 2), (4, 3), (0, 4), (0, 3)]

theorem mesh_curve : Curve mesh.c2v (whereEq [1, 2, 1, 1, 2] 1) := by
  have hw : whereEq [1, 2, 1, 1, 2] 1 = [0, 2, 3] := by decide
  rw [hw]
  exact curve_check 5 _ _ 3 (by simp) (by decide) (by decide) (by decide) (by unfold EndOf; decide)

example := walk_cells_branch mesh.c2v mesh.v2c [1, 2, 1, 1, 2] 1 mesh_curve ⟨1, by decide +kernel⟩

theorem mesh_walk : walkCells mesh.c2v mesh.v2c [1, 2, 1, 1, 2] 1 false = .ok [(2, false), (3, false), (0, true)] := by
  decide +kernel

example : ∃ s e, TipToTail mesh.c2v [(2, false), (3, false), (0, true)] s e ∧
    ∃ vs, walkVertices mesh.c2v mesh.v2c 2 [1, 2, 1, 1, 2] 1 false = .ok vs ∧ vs.length = 4 := by
  obtain ⟨l, s, e, hl, _, ht, _⟩ := walk_cells_branch mesh.c2v mesh.v2c [1, 2, 1, 1, 2] 1 mesh_curve ⟨1, by decide +kernel⟩
  rw [mesh_walk] at hl
  injection hl with hl
  subst hl
  obtain ⟨vs, h1, h2, _⟩ := walk_vertices_follow_partial mesh.c2v mesh.v2c 2 [1, 2, 1, 1, 2] 1 false (by omega) (by simp) mesh_walk
    ht (by simp)
  exact ⟨s, e, ht, vs, h1, h2⟩

/-- A triangle with a further cell, marked 5. -/
def flag : Line := lineOf 4 [(0, 1), (1, 2), (2, 0), (2, 3)]

theorem flag_cells : whereEq [4, 4, 4, 5] 4 = [0, 1, 2] := by decide

theorem flag_curve : Curve flag.c2v (whereEq [4, 4, 4, 5] 4) := by
  rw [flag_cells]
  exact curve_check 4 _ _ 0 (by simp) (by decide) (by decide) (by decide) (by unfold EndOf; decide)

example := walk_cells_loop flag.c2v flag.v2c [4, 4, 4, 5] 4 flag_curve (by rw [flag_cells]; simp) (by
  rw [flag_cells]
  intro c hc v hv
  have : v < 3 := by
    have h3 : ∀ c ∈ [0, 1, 2], (flag.c2v c).1 < 3 ∧ (flag.c2v c).2 < 3 := by decide
    have := h3 c hc
    rcases hv with rfl | rfl <;> omega
  have h2 : ∀ v < 3, degree flag.c2v [0, 1, 2] v = 2 := by decide
  exact h2 v this)

end Verif.Branch.Examples
