import Verif.Props.PointTrace
/-!
# C59: fluxes

For all meshes, dof maps, elements, shapes and vectors.
-/
namespace Verif.PointTrace
open Verif Verif.BlockOps Verif.DofMat Verif.Trace Verif.Average Verif.Patch Finset
variable {K P : Type} [Field K]

theorem fluxSpace_wf {V : Space K (P × Nat)} (hV : V.WF) (size : Nat) : (fluxSpace V size).WF :=
  ⟨hV.len, hV.nodup, hV.lt⟩

theorem fluxLine_wf {L : Line P} (hL : L.WF 1) : (fluxLine (K := K) L).WF 1 := ⟨hL.nodup, hL.lt, hL.distinct⟩

theorem fluxSpace_value (V : Space K (P × Nat)) (size : Nat) (collide : P → Nat) (u : Nat → K) (p : P) (n : Nat → K) (k : Nat) :
    valueAt (fluxSpace V size) (fun q => collide q.1) u k (p, n) = normalAt V size collide u p n := by
  simp only [valueAt, fnOn, fluxSpace, normalAt, sum_range_list, Finset.mul_sum, Finset.sum_mul]
  rw [Finset.sum_comm]
  exact Finset.sum_congr rfl (fun k _ => Finset.sum_congr rfl (fun l _ => by ring))

theorem fluxSum_zip (f : P → (Nat → K) → K) : ∀ (pts : List P) (ns : List (Nat → K)) (ws : List K),
    quadSum (fun q : P × (Nat → K) => f q.1 q.2) (pts.zip ns) ws = fluxSum f pts ns ws
  | [], _, _ => by simp [quadSum, fluxSum]
  | p :: ps, [], _ => by simp [quadSum, fluxSum]
  | p :: ps, n :: ns, [] => by simp [quadSum, fluxSum]
  | p :: ps, n :: ns, w :: ws => by
      have := fluxSum_zip f ps ns ws
      simp only [quadSum, List.zip_cons_cons, List.map_cons, List.sum_cons, fluxSum] at this ⊢
      rw [this]

/-- The row of a dof gives the mean, by the rule of the shape, of the normal component of the function; points outside of
    the mesh contribute zero but count in the measure. -/
theorem flux_is_mean_partial {V : Space K (P × Nat)} (hV : V.WF) (size : Nat) {L : Line P} (hL : L.WF 1) {collide : P → Nat}
    {quad : QuadN K P} {pts : Nat → Nat → List P} {ws : Nat → Nat → List K} {ns : Nat → Nat → List (Nat → K)}
    (hq : ∀ t, t < L.numCells → ∀ d ∈ L.cellDofs t, quad (L.coords d) (L.normal t) = .ok (pts t d, ws t d, ns t d) ∧
      (pts t d).length = (ws t d).length ∧ (ns t d).length = (ws t d).length) :
    ∃ M, fluxAvgMat V size 1 true true true true true L collide (some quad) = .ok M ∧ M.rows = L.dim ∧ M.cols = V.dim ∧
      ∀ t, t < L.numCells → ∀ d ∈ L.cellDofs t, ∀ u : Nat → K,
        M.act u d = fluxSum (fun p n => if collide p < V.numCells then normalAt V size collide u p n else 0)
          (pts t d) (ns t d) (ws t d) / (ws t d).sum := by
  obtain ⟨M, e, h1, h2, h3, -⟩ := average_general (fluxSpace_wf hV size) (size := 1) (by omega) (fluxLine_wf (K := K) hL)
    (collide := fun q => collide q.1) (quad := fluxQuad quad) (pts := fun t d => (pts t d).zip (ns t d)) (ws := ws)
    (fun t ht d hd => by
      obtain ⟨h1, h2, h3⟩ := hq t ht d hd
      refine ⟨?_, by simp [h2, h3]⟩
      simp only [fluxQuad, fluxLine]
      rw [h1]
      rfl)
  rw [averageMatrix, if_pos rfl] at e
  refine ⟨M, ?_, h1, h2, fun t ht d hd u => ?_⟩
  · simp only [fluxAvgMat, pyAssert_true, decide_true, py_bind_ok]
    exact e
  · have := h3 t ht d hd 0 (by omega) u
    rw [Nat.add_zero] at this
    rw [this, quadMean, ← fluxSum_zip]
    congr 1
    unfold quadSum
    refine congrArg _ (List.map_congr_left (fun q _ => ?_))
    congr 1
    unfold zeroOutside
    dsimp only
    rw [← fluxSpace_value V size collide u q.1.1 q.1.2 0]
    rfl

theorem fluxSum_congr {f : P → (Nat → K) → K} {r : K} : ∀ (pts : List P) (ns : List (Nat → K)) (ws : List K),
    pts.length = ws.length → ns.length = ws.length → (∀ q ∈ pts.zip ns, f q.1 q.2 = r) → fluxSum f pts ns ws = ws.sum * r
  | [], _ :: _, [], _, h2, _ => by simp at h2
  | _ :: _, _, [], h1, _, _ => by simp at h1
  | [], _, _ :: _, h1, _, _ => by simp at h1
  | _ :: _, [], _ :: _, _, h2, _ => by simp at h2
  | [], [], [], _, _, _ => by simp [fluxSum]
  | p :: ps, n :: ns, w :: ws, h1, h2, h => by
      have ih := fluxSum_congr ps ns ws (by simpa using h1) (by simpa using h2)
        (fun q hq => h q (by simp [hq]))
      have := h (p, n) (by simp)
      simp only [fluxSum, List.sum_cons, ih] at this ⊢
      rw [this]
      ring

/-- What is refused: only vector valued functions and scalar discontinuous spaces on the mesh of the curve are accepted, and a
    shape is needed. -/
theorem flux_accepts {V : Space K (P × Nat)} {size rank : Nat} {onMesh isDG scalar sameCell sameDim : Bool} {L : Line P}
    {collide : P → Nat} {shape : Option (QuadN K P)} {M : Mat K}
    (h : fluxAvgMat V size rank onMesh isDG scalar sameCell sameDim L collide shape = .ok M) :
    rank = 1 ∧ onMesh = true ∧ isDG = true ∧ scalar = true ∧ sameCell = true ∧ sameDim = true ∧ shape ≠ none := by
  unfold fluxAvgMat at h
  obtain ⟨_, h1, h⟩ := py_bind_eq_ok.1 h
  obtain ⟨_, h2, h⟩ := py_bind_eq_ok.1 h
  obtain ⟨_, h3, h⟩ := py_bind_eq_ok.1 h
  obtain ⟨_, h4, h⟩ := py_bind_eq_ok.1 h
  obtain ⟨_, h5, h⟩ := py_bind_eq_ok.1 h
  obtain ⟨_, h6, h⟩ := py_bind_eq_ok.1 h
  refine ⟨by simpa using pyAssert_eq_ok.1 h3, pyAssert_eq_ok.1 h1, pyAssert_eq_ok.1 h2, pyAssert_eq_ok.1 h4,
    pyAssert_eq_ok.1 h5, pyAssert_eq_ok.1 h6, ?_⟩
  rintro rfl
  cases h

/-- If the normal component is the same at all the points, which are in the mesh, it is the flux. -/
theorem flux_of_constant {V : Space K (P × Nat)} (hV : V.WF) (size : Nat) {L : Line P} (hL : L.WF 1) {collide : P → Nat}
    {quad : QuadN K P} {pts : Nat → Nat → List P} {ws : Nat → Nat → List K} {ns : Nat → Nat → List (Nat → K)}
    (hq : ∀ t, t < L.numCells → ∀ d ∈ L.cellDofs t, quad (L.coords d) (L.normal t) = .ok (pts t d, ws t d, ns t d) ∧
      (pts t d).length = (ws t d).length ∧ (ns t d).length = (ws t d).length) :
    ∃ M, fluxAvgMat V size 1 true true true true true L collide (some quad) = .ok M ∧
      ∀ t, t < L.numCells → ∀ d ∈ L.cellDofs t, (∀ p ∈ pts t d, collide p < V.numCells) → (ws t d).sum ≠ 0 →
        ∀ (u : Nat → K) (r : K), (∀ q ∈ (pts t d).zip (ns t d), ∑ k ∈ range size, fnOn V u (collide q.1) (q.1, k) * q.2 k = r) →
        M.act u d = r := by
  obtain ⟨M, e, -, -, h⟩ := flux_is_mean_partial hV size hL (collide := collide) hq
  refine ⟨M, e, fun t ht d hd hin hw u r hr => ?_⟩
  obtain ⟨-, h2, h3⟩ := hq t ht d hd
  rw [h t ht d hd u, fluxSum_congr (r := r) _ _ _ h2 h3]
  · field_simp
  · intro q hqm
    rw [if_pos (hin _ (List.of_mem_zip hqm).1)]
    exact hr q hqm

/-! ## Circles -/

open Verif.Shape

/-- Components of a vector. -/
def comp (v : V3) : Nat → ℝ
  | 0 => v.x
  | 1 => v.y
  | _ => v.z

/-- The rule of `Circle.quadrature_normal`. -/
noncomputable def circleRule (radius : V3 → ℝ) (xq wq : List ℝ) : QuadN ℝ V3 := fun x n => do
  let q ← circleQuadratureNormal radius xq wq x n
  .ok (q.1.1, q.1.2, q.2.map comp)

theorem sum_comp (v w : V3) : ∑ k ∈ range 3, comp v k * comp w k = V3.dot v w := by
  simp [Finset.sum_range_succ, comp, V3.dot]

/-- Flux out of circles around the curve.  If at the points of the circle the function is `a` times the vector from the
    centre, plus a multiple of the tangent of the curve, the flux is `a` times the radius: flow along the curve does not
    leave. -/
theorem flux_circle {V : Space ℝ (V3 × Nat)} (hV : V.WF) {L : Line V3} (hL : L.WF 1) {collide : V3 → Nat} {radius : V3 → ℝ}
    {xq wq : List ℝ} (hg : GaussRule xq wq)
    (hn : ∀ t, t < L.numCells → V3.norm (L.normal t) ≠ 0 ∧ NotNearlyVertical (L.normal t))
    (hR : ∀ t, t < L.numCells → ∀ d ∈ L.cellDofs t, 0 < radius (L.coords d)) :
    ∃ M, fluxAvgMat V 3 1 true true true true true L collide (some (circleRule radius xq wq)) = .ok M ∧
      ∀ t, t < L.numCells → ∀ d ∈ L.cellDofs t,
        (∀ p, OnCircle (L.coords d) (L.normal t) (radius (L.coords d)) p → collide p < V.numCells) →
        ∀ (u : Nat → ℝ) (a : ℝ) (b : V3 → ℝ),
        (∀ p, OnCircle (L.coords d) (L.normal t) (radius (L.coords d)) p → ∀ k, k < 3 →
          fnOn V u (collide p) (p, k) = comp (a • (p - L.coords d) + b p • L.normal t) k) →
        M.act u d = a * radius (L.coords d) := by
  have hrule : ∀ t d, ∃ pts ws ns, t < L.numCells → d ∈ L.cellDofs t →
      circleRule radius xq wq (L.coords d) (L.normal t) = .ok (pts, ws, ns.map comp) ∧ pts.length = ws.length ∧
      ns.length = pts.length ∧ ws.sum = 2 * _root_.Real.pi * radius (L.coords d) ∧
      (∀ p ∈ pts, OnCircle (L.coords d) (L.normal t) (radius (L.coords d)) p) ∧
      ∀ q ∈ pts.zip ns, V3.norm q.2 = 1 ∧ V3.dot q.2 (L.normal t) = 0 ∧ q.1 = L.coords d + radius (L.coords d) • q.2 := by
    intro t d
    by_cases h : t < L.numCells ∧ d ∈ L.cellDofs t
    · obtain ⟨ht, hd⟩ := h
      obtain ⟨h1, h2⟩ := hn t ht
      have hr := hR t ht d hd
      obtain ⟨pts, ws, ns, e1, e2, e3, e4⟩ := circle_quadrature_normal (xq := xq) (wq := wq) h1 h2 hr
      obtain ⟨pts', ws', e1', e2', e3', -⟩ := circle_quadrature_partial hg h1 hr.le
      rw [e1] at e1'
      obtain ⟨rfl, rfl⟩ := Prod.mk.inj (Except.ok.inj e1')
      exact ⟨pts, ws, ns, fun _ _ => ⟨by rw [circleRule, e2]; rfl, e2', e3, e3', circle_points_on_circle h1 h2 hr.le e1, e4⟩⟩
    · exact ⟨[], [], [], fun ht hd => absurd ⟨ht, hd⟩ h⟩
  choose pts ws ns hrule using hrule
  obtain ⟨M, e, h⟩ := flux_of_constant hV 3 hL (collide := collide) (quad := circleRule radius xq wq) (pts := pts) (ws := ws)
    (ns := fun t d => (ns t d).map comp) (fun t ht d hd => by
      obtain ⟨h1, h2, h3, -⟩ := hrule t d ht hd
      exact ⟨h1, h2, by simp [h3, h2]⟩)
  refine ⟨M, e, fun t ht d hd hin u a b hf => ?_⟩
  obtain ⟨-, -, h3, h4, h5, h6⟩ := hrule t d ht hd
  have hr := hR t ht d hd
  refine h t ht d hd (fun p hp => hin p (h5 p hp)) ?_ u _ (fun q hq => ?_)
  · rw [h4]
    have := _root_.Real.pi_pos
    positivity
  · rw [List.zip_map_right] at hq
    obtain ⟨q, hq', rfl⟩ := List.mem_map.1 hq
    obtain ⟨g1, g2, g3⟩ := h6 q hq'
    have hon := h5 _ (List.of_mem_zip hq').1
    simp only [Prod.map, id]
    rw [Finset.sum_congr rfl (fun k hk => by rw [hf q.1 hon k (by simpa using hk)]), sum_comp, g3]
    have hone : V3.dot q.2 q.2 = 1 := by
      have := norm_sq q.2
      rw [g1] at this
      linarith
    simp only [V3.dot, V3.add_x, V3.add_y, V3.add_z, V3.smul_x, V3.smul_y, V3.smul_z, V3.sub_x, V3.sub_y, V3.sub_z] at hone g2 ⊢
    linear_combination (a * radius (L.coords d)) * hone + b (L.coords d + radius (L.coords d) • q.2) * g2

/-! ## Example -/

/-- One cell, with the fields `x` and `(0, 0, 1)`. -/
noncomputable def exFields : Space ℝ (V3 × Nat) where
  dim := 2
  numCells := 1
  spaceDim := 2
  cellDofs _ := [0, 1]
  basis _ l q := if l = 0 then comp q.1 q.2 else comp ⟨0, 0, 1⟩ q.2
  dofs _ _ _ := 0

theorem exFields_wf : exFields.WF :=
  ⟨fun c _ => rfl, fun c _ => by simp [exFields], fun c hc d hd => by simp [exFields] at hd ⊢; omega⟩

/-- One cell of a vertical curve, at the origin. -/
def exCurve : Line V3 := ⟨1, 1, fun _ => [0], fun _ => ⟨0, 0, 0⟩, fun _ => ⟨0, 0, 1⟩⟩

theorem exCurve_wf : exCurve.WF 1 :=
  ⟨fun t _ => by simp [exCurve], fun t _ d hd k hk => by simp [exCurve] at hd ⊢; omega,
    fun t ht t' ht' d hd d' hd' k hk k' hk' e => by simp [exCurve] at hd hd' ht ht'; omega⟩

/-- The flux of `3 x + 7 (0, 0, 1)` out of a circle with radius 2 is 6. -/
example : ∃ M, fluxAvgMat exFields 3 1 true true true true true exCurve (fun _ => 0)
      (some (circleRule (fun _ => 2) [0] [2])) = .ok M ∧ M.act (fun j => if j = 0 then 3 else 7) 0 = 6 := by
  have hone : V3.norm (⟨0, 0, 1⟩ : V3) = 1 := norm_eq_of_sq (by norm_num) (by simp [V3.dot])
  obtain ⟨M, e, h⟩ := flux_circle exFields_wf exCurve_wf (collide := fun _ => 0) (radius := fun _ => 2) (xq := [0]) (wq := [2])
    ⟨rfl, by simp, by simp⟩
    (fun t _ => ⟨by simp only [exCurve]; rw [hone]; norm_num, Or.inl (by
      simp only [exCurve]
      refine norm_eq_of_sq le_rfl ?_
      simp [V3.dot, V3.cross, unit, V3.ez])⟩)
    (fun t _ d _ => by norm_num)
  refine ⟨M, e, ?_⟩
  rw [h 0 (by simp [exCurve]) 0 (by simp [exCurve]) (fun p _ => by simp [exFields]) _ 3 (fun _ => 7)
    (fun p _ k hk => ?_)]
  · norm_num
  · interval_cases k <;> simp [fnOn, exFields, exCurve, comp, Finset.sum_range_succ]

end Verif.PointTrace
