import Verif.Props.Average
import Verif.Spec.AverageExact
import Verif.Lemmas.AverageExact
/-!
# C94: averages of constants, with points outside of the mesh
-/
namespace Verif.Average
open Verif Verif.BlockOps Verif.DofMat Verif.Trace Finset
variable {K P : Type} [Field K]

/-- **C94**.  For all meshes, shapes and dofs: the average of a function which is the constant `c` at the points
inside of the mesh is `c` times the weight of the points inside over the weight of all points; it is `c` exactly if
`c` is zero or the points outside have the total weight zero. -/
theorem average_constant_exact {V : Space K (P × Nat)} (hV : V.WF) {L : Line P} {size : Nat} (hs : 0 < size)
    (hL : L.WF size) {collide : P → Nat} {quad : Quad K P} {pts : Nat → Nat → List P}
    {ws : Nat → Nat → List K}
    (hq : ∀ t, t < L.numCells → ∀ d ∈ L.cellDofs t,
      quad (L.coords d) (L.normal t) = .ok (pts t d, ws t d) ∧ (pts t d).length = (ws t d).length)
    (hw : ∀ t, t < L.numCells → ∀ d ∈ L.cellDofs t, (ws t d).sum ≠ 0) :
    ∃ M, averageMatrix V L size collide quad = .ok M ∧
      ∀ t, t < L.numCells → ∀ d ∈ L.cellDofs t, ∀ k, k < size → ∀ (u : Nat → K) (c : K),
        (∀ p ∈ pts t d, collide p < V.numCells → fnOn V u (collide p) (p, k) = c) →
        M.act u (d + k) = c * (weightOf (fun p => collide p < V.numCells) (pts t d) (ws t d) / (ws t d).sum) ∧
        (M.act u (d + k) = c ↔ c = 0 ∨ weightOf (fun p => V.numCells ≤ collide p) (pts t d) (ws t d) = 0) := by
  obtain ⟨M, e, _, _, h, _⟩ := average_general hV hs hL (collide := collide) hq
  refine ⟨M, e, ?_⟩
  intro t ht d hd k hk u c hc
  have e1 : M.act u (d + k) = c * (weightOf (fun p => collide p < V.numCells) (pts t d) (ws t d) / (ws t d).sum) := by
    rw [h t ht d hd k hk u, quadMean, quadSum_constant V.numCells collide (valueAt V collide u k) c _ _ hc, mul_div_assoc]
  refine ⟨e1, ?_⟩
  have hsum := weightOf_split V.numCells collide (pts t d) (ws t d) (hq t ht d hd).2
  have hne := hw t ht d hd
  rw [e1]
  by_cases h0 : c = 0
  · simp [h0]
  · rw [mul_eq_left₀ h0, div_eq_one_iff_eq hne, ← hsum]
    simp [h0]

/-- In the example of `average_of_constant_wrong_outside` a quarter of the weight is inside. -/
example : ∃ M, averageMatrix exV exL 1 exCollide (fun x _ => .ok ([x - 1 / 2, x + 2], [1, 3])) = .ok M ∧
    M.act (fun _ => 1) 0 ≠ 1 := by
  obtain ⟨M, e, h⟩ := average_constant_exact exV_wf (by omega) (exL_wf 1 (by omega)) (collide := exCollide)
    (quad := fun x _ => .ok ([x - 1 / 2, x + 2], [1, 3])) (pts := fun _ _ => [0 - 1 / 2, 0 + 2])
    (ws := fun _ _ => [1, 3]) (fun t _ d _ => ⟨rfl, rfl⟩) (fun _ _ _ _ => by norm_num)
  refine ⟨M, e, fun h1 => ?_⟩
  have := (h 0 (by simp [exL]) 0 (by simp [exL]) 0 (by omega) (fun _ => 1) 1
    (fun p _ _ => by simp [fnOn, exV])).2.1 (by simpa using h1)
  norm_num [weightOf, exCollide, exV] at this

end Verif.Average
