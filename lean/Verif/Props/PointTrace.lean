import Verif.Spec.PointTrace
import Verif.Lemmas.PointTrace
import Verif.Props.Average
import Verif.Props.Shape
import Mathlib.Tactic.NormNum
import Mathlib.Tactic.IntervalCases
/-!
# C58, C59: point values, directional derivatives at points, fluxes

For all meshes, dof maps, elements, points and vectors.
-/
namespace Verif.PointTrace
open Verif Verif.BlockOps Verif.DofMat Verif.Trace Verif.Average Verif.Patch Finset
variable {K P : Type}

/-! ## Continuous functions -/

/-- If `evaluate_basis_all` fills an array: for scalar Lagrange spaces the matrix has one row, which gives the value at the
    point of the function, on the cell found. -/
theorem cg_scalar_value_partial [CommRing K] {V : Space K (P × Nat)} (hV : V.WF) {TV : Real} (hT : TV.One) {collide : P → Nat} {x0 : P}
    (hin : collide x0 < V.numCells) (compDofs : Nat → Nat → List Nat) :
    ∃ M, pointTraceCG .fills V 1 compDofs TV collide x0 = .ok M ∧ M.rows = 1 ∧ M.cols = V.dim ∧
      ∀ u, M.act u 0 = fnOn V u (collide x0) (x0, 0) := by
  obtain ⟨M, h1, h2, h3, h4⟩ := one_row hV (m := TV.dim) (row := 0) hin (by rw [hT.dim]; omega)
    (fun l => V.basis (collide x0) l (x0, 0))
  refine ⟨M, ?_, by rw [h2, hT.dim], h3, fun u => ?_⟩
  · rw [pointTraceCG, pyAssert, if_pos (by simpa using hin), py_bind_ok]
    simp only [basisAll4, py_bind_ok, hT.dofs, cgLoop, if_true]
    rw [index_self (hV.nodup _ hin), py_bind_ok, get_range _ (by simp [flat_one, hV.len _ hin]), py_bind_ok, flat_one]
    exact h1
  · rw [h4 u 0 (by rw [hT.dim]; omega), if_pos rfl, fnOn]

/-- Points which are not in the mesh are refused. -/
theorem cg_outside [CommRing K] {V : Space K (P × Nat)} {collide : P → Nat} {x0 : P} (h : V.numCells ≤ collide x0) (api : Api)
    (size : Nat) (compDofs : Nat → Nat → List Nat) (TV : Real) :
    pointTraceCG api V size compDofs TV collide x0 = .error .assertion := by
  rw [pointTraceCG, pyAssert, if_neg (by simpa using h)]; rfl

/-! ## Discontinuous functions -/

/-- If `evaluate_basis_all` returns an array: the row gives the value at the vertex of the function on the given cell; the
    code asks for a basis function which is not zero there. -/
theorem dg_value [CommRing K] [DecidableEq K] {V : Space K (P × Nat)} (hV : V.WF) {TV : Real} (hT : TV.One)
    {collisions : P → List Nat} {x : P} {cell : Nat} (hc : cell < V.numCells) (hin : cell ∈ collisions x)
    (hne : ∃ l < V.spaceDim, V.basis cell l (x, 0) ≠ 0) :
    ∃ M, pointTraceDG .returns V TV collisions x cell = .ok M ∧ M.rows = 1 ∧ M.cols = V.dim ∧
      ∀ u, M.act u 0 = fnOn V u cell (x, 0) := by
  obtain ⟨M, h1, h2, h3, h4⟩ := one_row hV (m := TV.dim) (row := 0) hc (by rw [hT.dim]; omega)
    (fun l => V.basis cell l (x, 0))
  obtain ⟨l, hl, hne⟩ := hne
  refine ⟨M, ?_, by rw [h2, hT.dim], h3, fun u => ?_⟩
  · rw [pointTraceDG, pyAssert, if_pos (by simpa using hin), py_bind_ok]
    simp only [basisAll3, py_bind_ok, flat_one]
    rw [pyAssert, if_pos ?_, py_bind_ok, hT.dofs, theRow, py_bind_ok]
    · exact h1
    · simp only [List.any_map, List.any_eq_true, List.mem_range]
      exact ⟨l, hl, by simpa using hne⟩
  · rw [h4 u 0 (by rw [hT.dim]; omega), if_pos rfl, fnOn]

/-- The jump of a discontinuous function at a vertex shared by two cells is the difference of the two point values. -/
theorem dg_jump [CommRing K] [DecidableEq K] {V : Space K (P × Nat)} (hV : V.WF) {TV : Real} (hT : TV.One)
    {collisions : P → List Nat} {x : P} {c c' : Nat} (hc : c < V.numCells) (hc' : c' < V.numCells)
    (hin : c ∈ collisions x) (hin' : c' ∈ collisions x) (hne : ∃ l < V.spaceDim, V.basis c l (x, 0) ≠ 0)
    (hne' : ∃ l < V.spaceDim, V.basis c' l (x, 0) ≠ 0) :
    ∃ M M', pointTraceDG .returns V TV collisions x c = .ok M ∧ pointTraceDG .returns V TV collisions x c' = .ok M' ∧
      ∀ u, (M.act u 0 = M'.act u 0 ↔ fnOn V u c (x, 0) = fnOn V u c' (x, 0)) := by
  obtain ⟨M, e, -, -, h⟩ := dg_value hV hT hc hin hne
  obtain ⟨M', e', -, -, h'⟩ := dg_value hV hT hc' hin' hne'
  exact ⟨M, M', e, e', fun u => by rw [h, h']⟩

/-- A cell which does not have the point is refused. -/
theorem dg_not_incident [CommRing K] [DecidableEq K] {V : Space K (P × Nat)} {collisions : P → List Nat} {x : P} {cell : Nat}
    (h : cell ∉ collisions x) (api : Api) (TV : Real) :
    pointTraceDG api V TV collisions x cell = .error .assertion := by
  rw [pointTraceDG, pyAssert, if_neg (by simpa using h)]; rfl

/-! ## One of the two never works -/

/-- Whichever the signature of `evaluate_basis_all`, one of the two kinds of point values raises for all arguments. -/
theorem one_kind_always_raises [CommRing K] [DecidableEq K] (api : Api) :
    (∀ (V : Space K (P × Nat)) size compDofs TV collide x0 M, pointTraceCG api V size compDofs TV collide x0 ≠ .ok M) ∨
    (∀ (V : Space K (P × Nat)) TV collisions x cell M, pointTraceDG api V TV collisions x cell ≠ .ok M) := by
  cases api with
  | returns =>
    left
    intro V size compDofs TV collide x0 M h
    rw [pointTraceCG] at h
    obtain ⟨_, -, h⟩ := py_bind_eq_ok.1 h
    simp only [basisAll4, py_bind_error] at h
    exact absurd h (by simp)
  | fills =>
    right
    intro V TV collisions x cell M h
    rw [pointTraceDG] at h
    obtain ⟨_, -, h⟩ := py_bind_eq_ok.1 h
    simp only [basisAll3, py_bind_error] at h
    exact absurd h (by simp)

/-! ## Vector valued spaces -/

/-- Two component linear functions on the unit interval; the point is the coordinate; dofs 0 and 1 are those of the first
    component. -/
def vecLine : Space ℚ (ℚ × Nat) where
  dim := 4
  numCells := 1
  spaceDim := 4
  cellDofs _ := [0, 1, 2, 3]
  basis _ l q := if l / 2 = q.2 then (if l % 2 = 0 then 1 - q.1 else q.1) else 0
  dofs _ _ _ := 0

/-- For vector valued spaces the values are wrong: the array has the values of all the components for each basis function,
    and it is indexed as though it had one for each.  Here the first component of the function which is (1, 1) everywhere
    has the value 1/2 at the midpoint. -/
theorem cg_vector_wrong : ∃ M, pointTraceCG .fills vecLine 2 (fun k _ => [2 * k, 2 * k + 1]) ⟨2, fun _ => [0, 1]⟩ (fun _ => 0)
      (1 / 2 : ℚ) = .ok M ∧
    (∀ k, k < 2 → fnOn vecLine (fun _ => 1) 0 (1 / 2, k) = 1) ∧ M.act (fun _ => 1) 0 = 1 / 2 := by
  refine ⟨_, rfl, ?_, ?_⟩
  · intro k hk
    interval_cases k <;> norm_num [fnOn, vecLine, Finset.sum_range_succ]
  · decide +kernel

/-! ## Derivatives -/

/-- The row gives the derivative along the tangent, on the given cell, at the vertex. -/
theorem gradient_value [CommRing K] [DecidableEq K] {V : Space K (P × Nat)} (hV : V.WF) {TV : Real} (hT : TV.One) {gdim : Nat}
    {grad : Nat → Nat → P → Nat → K} (tau : Nat → Nat → K) {collisions : P → List Nat} {x : P} {cell : Nat}
    (hc : cell < V.numCells) (hin : cell ∈ collisions x)
    (hne : ∃ l < V.spaceDim, ∃ i < gdim, grad cell l x i ≠ 0) :
    ∃ M, gradientDG V gdim grad tau TV collisions x cell = .ok M ∧ M.rows = 1 ∧ M.cols = V.dim ∧
      ∀ u, M.act u 0 = dirOn V gdim grad u cell x (tau cell) := by
  obtain ⟨M, h1, h2, h3, h4⟩ := one_row hV (m := TV.dim) (row := 0) hc (by rw [hT.dim]; omega)
    (fun l => ∑ i ∈ range gdim, grad cell l x i * tau cell i)
  obtain ⟨l, hl, i, hi, hne⟩ := hne
  refine ⟨M, ?_, by rw [h2, hT.dim], h3, fun u => ?_⟩
  · rw [gradientDG, pyAssert, if_pos (by simpa using hin), py_bind_ok]
    dsimp only
    rw [pyAssert, if_pos ?_, py_bind_ok, hT.dofs, theRow, py_bind_ok, List.map_map]
    · rw [← h1]
      congr 2 <;>
      · refine congrArg _ (List.map_congr_left (fun l _ => ?_))
        simp only [Function.comp]
        rw [List.zip_map', List.map_map, ← sum_range_list]
        rfl
    · simp only [List.any_map, List.any_eq_true, List.mem_range]
      refine ⟨l, hl, ?_⟩
      simp only [Function.comp, List.any_map, List.any_eq_true, List.mem_range]
      exact ⟨i, hi, by simpa using hne⟩
  · rw [h4 u 0 (by rw [hT.dim]; omega), if_pos rfl, dirOn]
    simp only [gradOn, Finset.mul_sum, Finset.sum_mul]
    rw [Finset.sum_comm]
    exact Finset.sum_congr rfl (fun i _ => Finset.sum_congr rfl (fun l _ => by ring))

/-- Piecewise constant functions are refused, although the derivative is known. -/
theorem gradient_constants_refused [CommRing K] [DecidableEq K] {V : Space K (P × Nat)} {TV : Real} {gdim : Nat}
    {grad : Nat → Nat → P → Nat → K} (tau : Nat → Nat → K) {collisions : P → List Nat} {x : P} {cell : Nat}
    (h : ∀ l i, grad cell l x i = 0) :
    gradientDG V gdim grad tau TV collisions x cell = .error .assertion := by
  rw [gradientDG]
  by_cases hin : cell ∈ collisions x
  · rw [pyAssert, if_pos (by simpa using hin), py_bind_ok]
    dsimp only
    rw [pyAssert, if_neg, py_bind_error]
    simp [h]
  · rw [pyAssert, if_neg (by simpa using hin)]; rfl

/-! ## Which arguments are accepted -/

/-- Whenever `point_trace_mat` succeeds, spaces and meshes agree, and the point is given by coordinates of the right length
    which are in the mesh (Lagrange), or by a vertex and one of its cells (discontinuous, scalar, on curves). -/
theorem accepted [CommRing K] [DecidableEq K] {C : Checks} {api : Api} {V : Space K (P × Nat)} {compDofs : Nat → Nat → List Nat}
    {TV : Real} {collide : P → Nat} {collisions : P → List Nat} {verts : List P} {pt : Pt P} {cell : Option Nat} {M : Mat K}
    (h : pointTraceMat C api V compDofs TV collide collisions verts pt cell = .ok M) :
    C.real ∧ C.sameShape ∧ C.sameMesh ∧
      ((C.cg ∧ api = .fills ∧ ∃ x, pt = .coords C.gdim x ∧ collide x < V.numCells) ∨
       (C.cg = false ∧ C.dg ∧ C.tdim = 1 ∧ C.scalar ∧ api = .returns ∧
          ∃ i c x, pt = .index i ∧ cell = some c ∧ verts[i]? = some x ∧ c ∈ collisions x)) := by
  rw [pointTraceMat] at h
  obtain ⟨_, h1, h⟩ := py_bind_eq_ok.1 h
  obtain ⟨_, h2, h⟩ := py_bind_eq_ok.1 h
  obtain ⟨_, h3, h⟩ := py_bind_eq_ok.1 h
  refine ⟨pyAssert_eq_ok.1 h1, pyAssert_eq_ok.1 h2, pyAssert_eq_ok.1 h3, ?_⟩
  by_cases hcg : C.cg = true
  · left
    rw [if_pos hcg] at h
    cases pt with
    | index i => exact absurd h (by simp [atPoint])
    | coords len x =>
      rw [atPoint] at h
      obtain ⟨_, h4, h⟩ := py_bind_eq_ok.1 h
      have h4 := pyAssert_eq_ok.1 h4
      rw [pointTraceCG] at h
      obtain ⟨_, h5, h⟩ := py_bind_eq_ok.1 h
      obtain ⟨_, h6, h⟩ := py_bind_eq_ok.1 h
      refine ⟨hcg, ?_, x, by rw [of_decide_eq_true h4], of_decide_eq_true (pyAssert_eq_ok.1 h5)⟩
      cases api with
      | returns => exact absurd h6 (by simp [basisAll4])
      | fills => rfl
  · right
    rw [if_neg hcg] at h
    obtain ⟨_, h4, h⟩ := py_bind_eq_ok.1 h
    obtain ⟨_, h5, h⟩ := py_bind_eq_ok.1 h
    obtain ⟨_, h6, h⟩ := py_bind_eq_ok.1 h
    refine ⟨by simpa using hcg, pyAssert_eq_ok.1 h4, of_decide_eq_true (pyAssert_eq_ok.1 h5), pyAssert_eq_ok.1 h6, ?_⟩
    cases pt with
    | coords len x => exact absurd h (by simp [atVertex])
    | index i =>
      cases cell with
      | none => exact absurd h (by simp [atVertex])
      | some c =>
        rw [atVertex] at h
        obtain ⟨x, h7, h⟩ := py_bind_eq_ok.1 h
        rw [pointTraceDG] at h
        obtain ⟨_, h8, h⟩ := py_bind_eq_ok.1 h
        obtain ⟨_, h9, h⟩ := py_bind_eq_ok.1 h
        refine ⟨?_, i, c, x, rfl, rfl, pyGet_eq_ok.1 h7, of_decide_eq_true (pyAssert_eq_ok.1 h8)⟩
        cases api with
        | returns => rfl
        | fills => exact absurd h9 (by simp [basisAll3])

/-- The same for derivatives; Lagrange spaces are never accepted. -/
theorem gradient_accepted [CommRing K] [DecidableEq K] {C : Checks} {V : Space K (P × Nat)} {grad : Nat → Nat → P → Nat → K}
    {tau : Nat → Nat → K} {TV : Real} {collisions : P → List Nat} {verts : List P} {pt : Pt P} {cell : Option Nat} {M : Mat K}
    (h : gradientMat C V grad tau TV collisions verts pt cell = .ok M) :
    C.real ∧ C.sameShape ∧ C.sameMesh ∧ C.cg = false ∧ C.dg ∧ C.tdim = 1 ∧ C.scalar ∧
      ∃ i c x, pt = .index i ∧ cell = some c ∧ verts[i]? = some x ∧ c ∈ collisions x ∧
        gradientDG V C.gdim grad tau TV collisions x c = .ok M := by
  rw [gradientMat] at h
  obtain ⟨_, h1, h⟩ := py_bind_eq_ok.1 h
  obtain ⟨_, h2, h⟩ := py_bind_eq_ok.1 h
  obtain ⟨_, h3, h⟩ := py_bind_eq_ok.1 h
  refine ⟨pyAssert_eq_ok.1 h1, pyAssert_eq_ok.1 h2, pyAssert_eq_ok.1 h3, ?_⟩
  by_cases hcg : C.cg = true
  · rw [if_pos hcg] at h
    exact absurd h (by simp)
  · rw [if_neg hcg] at h
    obtain ⟨_, h4, h⟩ := py_bind_eq_ok.1 h
    obtain ⟨_, h5, h⟩ := py_bind_eq_ok.1 h
    obtain ⟨_, h6, h⟩ := py_bind_eq_ok.1 h
    refine ⟨by simpa using hcg, pyAssert_eq_ok.1 h4, of_decide_eq_true (pyAssert_eq_ok.1 h5), pyAssert_eq_ok.1 h6, ?_⟩
    cases pt with
    | coords len x => exact absurd h (by simp [atVertex])
    | index i =>
      cases cell with
      | none => exact absurd h (by simp [atVertex])
      | some c =>
        rw [atVertex] at h
        obtain ⟨x, h7, h⟩ := py_bind_eq_ok.1 h
        refine ⟨i, c, x, rfl, rfl, pyGet_eq_ok.1 h7, ?_, h⟩
        rw [gradientDG] at h
        obtain ⟨_, h8, h⟩ := py_bind_eq_ok.1 h
        exact of_decide_eq_true (pyAssert_eq_ok.1 h8)

/-! ## Examples -/

/-- Discontinuous linear functions on two intervals, [0, 1] and [1, 2]. -/
def dgLine : Space ℚ (ℚ × Nat) where
  dim := 4
  numCells := 2
  spaceDim := 2
  cellDofs c := [2 * c, 2 * c + 1]
  basis c l q := if l = 0 then (c + 1 : ℚ) - q.1 else q.1 - c
  dofs _ _ _ := 0

theorem dgLine_wf : dgLine.WF := by
  refine ⟨fun c _ => rfl, fun c _ => by simp [dgLine], fun c hc d hd => ?_⟩
  simp only [dgLine, List.mem_cons, List.not_mem_nil, or_false] at hc hd ⊢
  omega

/-- The two values at the shared vertex 1 of the function with coefficients (10, 20, 30, 40): 20 and 30. -/
example : ∃ M M', pointTraceDG .returns dgLine ⟨1, fun _ => [0]⟩ (fun _ => [0, 1]) 1 0 = .ok M ∧
    pointTraceDG .returns dgLine ⟨1, fun _ => [0]⟩ (fun _ => [0, 1]) 1 1 = .ok M' ∧
    M.act (fun j => 10 * (j + 1)) 0 = 20 ∧ M'.act (fun j => 10 * (j + 1)) 0 = 30 := by
  obtain ⟨M, h, -, -, e⟩ := dg_value dgLine_wf (TV := ⟨1, fun _ => [0]⟩) ⟨rfl, fun _ => rfl⟩ (collisions := fun _ => [0, 1]) (x := 1)
    (cell := 0) (by simp [dgLine]) (by simp) ⟨1, by simp [dgLine], by simp [dgLine]⟩
  obtain ⟨M', h', -, -, e'⟩ := dg_value dgLine_wf (TV := ⟨1, fun _ => [0]⟩) ⟨rfl, fun _ => rfl⟩ (collisions := fun _ => [0, 1]) (x := 1)
    (cell := 1) (by simp [dgLine]) (by simp) ⟨0, by simp [dgLine], by norm_num [dgLine]⟩
  refine ⟨M, M', h, h', ?_, ?_⟩
  · rw [e]; norm_num [fnOn, dgLine, Finset.sum_range_succ]
  · rw [e']; norm_num [fnOn, dgLine, Finset.sum_range_succ]

example : ∃ M, pointTraceCG .fills dgLine 1 (fun _ _ => []) ⟨1, fun _ => [0]⟩ (fun _ => 0) (1 / 4 : ℚ) = .ok M ∧
    M.act (fun j => 10 * (j + 1)) 0 = 25 / 2 := by
  obtain ⟨M, h, -, -, e⟩ := cg_scalar_value_partial dgLine_wf (TV := ⟨1, fun _ => [0]⟩) ⟨rfl, fun _ => rfl⟩ (collide := fun _ => 0)
    (x0 := (1 / 4 : ℚ)) (by simp [dgLine]) (fun _ _ => [])
  exact ⟨M, h, by rw [e]; norm_num [fnOn, dgLine, Finset.sum_range_succ]⟩

example : ∃ M, gradientDG dgLine 1 (fun _ l _ _ => if l = 0 then -1 else 1) (fun _ _ => 2) ⟨1, fun _ => [0]⟩ (fun _ => [0, 1])
    (1 : ℚ) 1 = .ok M ∧ M.act (fun j => 10 * (j + 1)) 0 = 20 := by
  obtain ⟨M, h, -, -, e⟩ := gradient_value dgLine_wf (TV := ⟨1, fun _ => [0]⟩) ⟨rfl, fun _ => rfl⟩ (gdim := 1)
    (grad := fun _ l _ _ => if l = 0 then -1 else 1) (fun _ _ => 2) (collisions := fun _ => [0, 1]) (x := (1 : ℚ)) (cell := 1)
    (by simp [dgLine]) (by simp) ⟨0, by simp [dgLine], 0, by simp, by simp⟩
  exact ⟨M, h, by rw [e]; norm_num [dirOn, gradOn, dgLine, Finset.sum_range_succ]⟩

end Verif.PointTrace
