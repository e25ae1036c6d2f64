import Verif.Props.Average
/-!
# C35: the whole of `avg_mat`, over shapes and on the curve itself
-/
namespace Verif.Average
open Verif Verif.BlockOps Verif.DofMat Verif.Trace
variable {K P : Type} [Field K]

/-- Averages over a shape: each row is the mean of the function, zero outside of the mesh, over the shape around the dof. -/
theorem avg_mat_shape_partial {V : Space K (P × Nat)} (hV : V.WF) {L : Line P} {size : Nat} (hs : 0 < size)
    (hL : L.WF size) {collide : P → Nat} {quad : Quad K P} {pts : Nat → Nat → List P} {ws : Nat → Nat → List K}
    (hq : ∀ t, t < L.numCells → ∀ d ∈ L.cellDofs t,
      quad (L.coords d) (L.normal t) = .ok (pts t d, ws t d) ∧ (pts t d).length = (ws t d).length)
    (isCG isDG0 : Bool) (cell3d : Nat → Py (Option Nat)) :
    ∃ M, avgMat V L size true true true true true isCG isDG0 cell3d collide (some quad) = .ok M ∧
      M.rows = L.dim ∧ M.cols = V.dim ∧
      (∀ t, t < L.numCells → ∀ d ∈ L.cellDofs t, ∀ k, k < size → ∀ u : Nat → K,
        M.act u (d + k) = quadMean (zeroOutside V.numCells collide (valueAt V collide u k)) (pts t d) (ws t d)) ∧
      ∀ r, (∀ t, t < L.numCells → ∀ d ∈ L.cellDofs t, ∀ k, k < size → r ≠ d + k) → ∀ u : Nat → K, M.act u r = 0 :=
  average_general hV hs hL hq

/-- Without a shape, on a mesh which knows the edges its cells come from: a continuous or piecewise constant function is evaluated
    on the first of the cells around the edge, so for a function which has the same values on all of them, it is restricted to
    the curve. -/
theorem avg_mat_curve {V : Space K (P × Nat)} (hV : V.WF) {L : Line P} {size : Nat} (hL : L.WF size)
    {isCG isDG0 : Bool} (hf : (isCG || isDG0) = true) {mapping : List (Nat × Nat)} {around : Nat → List Nat}
    {edge : Nat → Nat} (he : ∀ t, t < L.numCells → mapping.lookup t = some (edge t))
    (hc : ∀ t, t < L.numCells → around (edge t) ≠ [] ∧ ∀ c ∈ around (edge t), c < V.numCells) (collide : P → Nat) :
    ∃ M, avgMat V L size true true true true true isCG isDG0 (cellByMap mapping around) collide none = .ok M ∧
      M.rows = L.dim ∧ M.cols = V.dim ∧
      ∀ t, t < L.numCells → ∀ d ∈ L.cellDofs t, ∀ k, k < size → ∀ u : Nat → K,
        (∀ c, (around (edge t))[0]? = some c → M.act u (d + k) = fnOn V u c (L.coords d, k)) ∧
        ∀ f : K, (∀ c ∈ around (edge t), fnOn V u c (L.coords d, k) = f) → M.act u (d + k) = f := by
  have hfirst : ∀ t, t < L.numCells → ∃ c, (around (edge t))[0]? = some c ∧ c ∈ around (edge t) := by
    intro t ht
    cases h0 : around (edge t) with
    | nil => exact absurd h0 (hc t ht).1
    | cons c l => exact ⟨c, rfl, by simp⟩
  obtain ⟨M, hM, hr, hcol, h⟩ := trace3d1d_evaluates hV hL hf (cell3d := cellByMap mapping around)
    (cell := fun t => (around (edge t))[0]?) (fun t ht => by
      obtain ⟨c, h0, hmem⟩ := hfirst t ht
      refine ⟨?_, fun c' hc' => ?_⟩
      · rw [cellByMap, dictGet, he t ht]
        simp only [py_bind_ok]
        rw [pyGet_eq_ok.2 h0, py_bind_ok, h0]
      · rw [h0] at hc'
        obtain rfl := Option.some.inj hc'
        exact (hc t ht).2 _ hmem)
  refine ⟨M, hM, hr, hcol, fun t ht d hd k hk u => ?_⟩
  obtain ⟨c, h0, hmem⟩ := hfirst t ht
  have := h t ht d hd k hk u
  rw [h0] at this
  refine ⟨fun c' hc' => ?_, fun f hf => ?_⟩
  · rw [h0] at hc'
    obtain rfl := Option.some.inj hc'
    exact this
  · rw [this]
    exact hf c hmem

/-- Without a shape, on other meshes: the function is evaluated on the cell which holds the midpoint; rows of cells of the curve
    whose midpoint is in no cell are zero. -/
theorem avg_mat_midpoints {V : Space K (P × Nat)} (hV : V.WF) {L : Line P} {size : Nat} (hL : L.WF size)
    {isCG isDG0 : Bool} (hf : (isCG || isDG0) = true) (collide : P → Nat) (mid : Nat → P) :
    ∃ M, avgMat V L size true true true true true isCG isDG0 (cellByPoint V.numCells collide mid) collide none = .ok M ∧
      M.rows = L.dim ∧ M.cols = V.dim ∧
      ∀ t, t < L.numCells → ∀ d ∈ L.cellDofs t, ∀ k, k < size → ∀ u : Nat → K,
        M.act u (d + k) = if collide (mid t) < V.numCells then fnOn V u (collide (mid t)) (L.coords d, k) else 0 := by
  obtain ⟨M, hM, hr, hcol, h⟩ := trace3d1d_evaluates hV hL hf (cell3d := cellByPoint V.numCells collide mid)
    (cell := fun t => if collide (mid t) < V.numCells then some (collide (mid t)) else none) (fun t _ => by
      refine ⟨rfl, fun c hc => ?_⟩
      split at hc
      · obtain rfl := Option.some.inj hc
        assumption
      · cases hc)
  refine ⟨M, hM, hr, hcol, fun t ht d hd k hk u => ?_⟩
  rw [h t ht d hd k hk u]
  by_cases hlt : collide (mid t) < V.numCells
  · simp [hlt]
  · simp [hlt]

/-- Without a shape, other elements are refused. -/
theorem avg_mat_curve_refused {V : Space K (P × Nat)} {L : Line P} {size : Nat} (cell3d : Nat → Py (Option Nat)) (collide : P → Nat) :
    avgMat V L size true true true true true false false cell3d collide none = .error .assertion := rfl

/-- A vector function on the edge 5, around which there are the cells 1 and 0. -/
example : ∃ M, avgMat exV exL 2 true true true true true true false (cellByMap [(0, 5)] (fun _ => [1, 0])) exCollide none = .ok M ∧
    ∀ u : Nat → ℚ, M.act u 0 = u 1 ∧ M.act u 1 = u 1 * 2 := by
  obtain ⟨M, e, _, _, h⟩ := avg_mat_curve exV_wf (exL_wf 2 (by omega)) (isCG := true) (isDG0 := false) rfl
    (mapping := [(0, 5)]) (around := fun _ => [1, 0]) (edge := fun _ => 5) (fun t ht => by
      have : t = 0 := by simp only [exL] at ht; omega
      subst this
      rfl) (fun t _ => ⟨by simp, by simp [exV]⟩) exCollide
  refine ⟨M, e, fun u => ⟨?_, ?_⟩⟩
  · have := (h 0 (by simp [exL]) 0 (by simp [exL]) 0 (by omega) u).1 1 rfl
    rw [Nat.add_zero] at this
    rw [this]
    simp [fnOn, exV]
  · have := (h 0 (by simp [exL]) 0 (by simp [exL]) 1 (by omega) u).1 1 rfl
    rw [Nat.zero_add] at this
    rw [this]
    simp [fnOn, exV]

end Verif.Average
