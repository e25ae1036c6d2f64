import Verif.Lemmas.Continuous
/-! # Properties of `is_continuous` -/
namespace Verif.Continuous
open Verif Relation

/-- A mesh of curves is called continuous exactly when every two cells are the ends of a path of cells in which
neighbours have a common vertex, i.e. a common facet. -/
theorem continuous_curve {M : Mesh} (h : Curve M) (hg : M.tdim < M.gdim) :
    ∃ r, isContinuous M = .ok r ∧ (r = true ↔ CellsJoined 1 M.numCells M.c2v) := by
  obtain ⟨r, h1, h2⟩ := isContinuous_ok hg
  exact ⟨r, h1, h2.trans (curve_iff h)⟩

/-- Two intervals apart from each other. -/
def apart : Mesh := ⟨1, 2, 2, 4, fun c => [2 * c, 2 * c + 1], fun _ => []⟩

/-- Two intervals with a common vertex. -/
def path : Mesh := ⟨1, 2, 2, 3, fun c => [c, c + 1], fun _ => []⟩

example : isContinuous path = .ok true := by
  obtain ⟨r, h1, h2⟩ := continuous_curve (M := path) ⟨rfl, fun _ _ => rfl⟩ (by decide)
  rw [h1, h2.2]
  refine ⟨by decide, fun c c' hc hc' => .single ⟨hc, hc', [1], by simp, rfl, ?_⟩⟩
  simp only [path] at hc hc' ⊢
  have h1 : c = 0 ∨ c = 1 := by omega
  have h2 : c' = 0 ∨ c' = 1 := by omega
  rcases h1 with rfl | rfl <;> rcases h2 with rfl | rfl <;> simp

example : isContinuous apart = .ok false := by
  obtain ⟨r, h1, h2⟩ := continuous_curve (M := apart) ⟨rfl, fun _ _ => rfl⟩ (by decide)
  rw [h1]
  cases r with
  | false => rfl
  | true =>
      exfalso
      have hj := (h2.1 rfl).2 0 1 (by decide) (by decide)
      have key : ∀ b, ReflTransGen (fun a b => a < apart.numCells ∧ b < apart.numCells ∧
          ∃ vs : List Nat, vs.Nodup ∧ vs.length = 1 ∧ ∀ v ∈ vs, v ∈ apart.c2v a ∧ v ∈ apart.c2v b) 0 b → b = 0 := by
        intro b hb
        induction hb with
        | refl => rfl
        | tail _ h1 ih =>
            subst ih
            obtain ⟨_, hb, vs, _, hl, hs⟩ := h1
            obtain ⟨v, rfl⟩ := List.length_eq_one_iff.1 hl
            have := hs v (by simp)
            simp [apart] at this
            omega
      exact absurd (key 1 hj) (by decide)

/-- A mesh of surfaces is called continuous exactly when every two cells are the ends of a path of cells in which
neighbours have a common vertex. -/
theorem continuous_surface_partial {M : Mesh} {n : Nat} {e2v : Nat → List Nat} (h : Surface M n e2v)
    (hg : M.tdim < M.gdim) :
    ∃ r, isContinuous M = .ok r ∧ (r = true ↔ CellsJoined 1 M.numCells M.c2v) := by
  obtain ⟨r, h1, h2⟩ := isContinuous_ok hg
  exact ⟨r, h1, h2.trans (surface_iff h)⟩

/-- Edges of two triangles with one common vertex. -/
def bowEdges (e : Nat) : List Nat := ([[0, 1], [0, 2], [1, 2], [2, 3], [2, 4], [3, 4]] : List (List Nat)).getD e []

/-- Two triangles with one common vertex. -/
def bow : Mesh :=
  ⟨2, 3, 2, 5, fun c => [2 * c, 2 * c + 1, 2 * c + 2], fun v => (List.range 6).filter (fun e => v ∈ bowEdges e)⟩

theorem bow_surface : Surface bow 6 bowEdges where
  tdim := rfl
  cells := by decide
  edges := by decide
  sides := by
    intro c hc v hv w hw hne
    have h1 : c = 0 ∨ c = 1 := by simp only [bow] at hc; omega
    rcases h1 with rfl | rfl <;> simp [bow] at hv hw <;>
      rcases hv with rfl | rfl | rfl <;> rcases hw with rfl | rfl | rfl <;>
      first
        | exact absurd rfl hne
        | exact ⟨0, by decide, by decide, by decide⟩
        | exact ⟨1, by decide, by decide, by decide⟩
        | exact ⟨2, by decide, by decide, by decide⟩
        | exact ⟨3, by decide, by decide, by decide⟩
        | exact ⟨4, by decide, by decide, by decide⟩
        | exact ⟨5, by decide, by decide, by decide⟩
  incidence := by
    intro v e _
    simp [bow]

/-- False of surfaces with neighbours which have a common facet: two triangles with one common vertex are called
continuous. -/
theorem surface_touching_accepted :
    ∃ (M : Mesh) (n : Nat) (e2v : Nat → List Nat), Surface M n e2v ∧ isContinuous M = .ok true ∧
      ¬ CellsJoined 2 M.numCells M.c2v := by
  refine ⟨bow, 6, bowEdges, bow_surface, ?_, ?_⟩
  · obtain ⟨r, h1, h2⟩ := continuous_surface_partial bow_surface (by decide)
    rw [h1, h2.2]
    refine ⟨by decide, fun c c' hc hc' => .single ⟨hc, hc', [2], by simp, rfl, ?_⟩⟩
    simp only [bow] at hc hc' ⊢
    have h1 : c = 0 ∨ c = 1 := by omega
    have h2 : c' = 0 ∨ c' = 1 := by omega
    rcases h1 with rfl | rfl <;> rcases h2 with rfl | rfl <;> simp
  · rintro ⟨_, hj⟩
    have key : ∀ b, ReflTransGen (fun a b => a < bow.numCells ∧ b < bow.numCells ∧
        ∃ vs : List Nat, vs.Nodup ∧ vs.length = 2 ∧ ∀ v ∈ vs, v ∈ bow.c2v a ∧ v ∈ bow.c2v b) 0 b → b = 0 := by
      intro b hb
      induction hb with
      | refl => rfl
      | tail _ h1 ih =>
          subst ih
          obtain ⟨_, hb, vs, hnd, hl, hs⟩ := h1
          obtain ⟨v, w, rfl⟩ := List.length_eq_two.1 hl
          have h1 := hs v (by simp)
          have h2 := hs w (by simp)
          simp [bow] at h1 h2 hb hnd
          omega
    exact absurd (key 1 (hj 0 1 (by decide) (by decide))) (by decide)

/-- Meshes of the same dimension as the space are refused. -/
theorem continuous_refused {M : Mesh} (hg : ¬ M.tdim < M.gdim) : isContinuous M = .error .assertion := by
  simp only [isContinuous, hg, decide_false, pyAssert_false, py_bind_error]

end Verif.Continuous
