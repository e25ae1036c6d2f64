import Verif.Lemmas.Average
import Verif.Lemmas.Mat
import Mathlib.Tactic.NormNum
import Mathlib.Tactic.FieldSimp
import Mathlib.Data.Rat.Defs
import Mathlib.Algebra.Order.Field.Rat
/-!
# C35: averages

For all meshes, dof maps, elements, shapes and vectors.
-/
namespace Verif.Average
open Verif Verif.BlockOps Verif.DofMat Verif.Trace Finset
variable {K P : Type} [Field K]

/-- General form: the row of a dof is the quadrature mean of the function extended by zero outside of
    the mesh. -/
theorem average_general {V : Space K (P × Nat)} (hV : V.WF) {L : Line P} {size : Nat} (hs : 0 < size)
    (hL : L.WF size) {collide : P → Nat} {quad : Quad K P} {pts : Nat → Nat → List P}
    {ws : Nat → Nat → List K}
    (hq : ∀ t, t < L.numCells → ∀ d ∈ L.cellDofs t,
      quad (L.coords d) (L.normal t) = .ok (pts t d, ws t d) ∧ (pts t d).length = (ws t d).length) :
    ∃ M, averageMatrix V L size collide quad = .ok M ∧ M.rows = L.dim ∧ M.cols = V.dim ∧
      (∀ t, t < L.numCells → ∀ d ∈ L.cellDofs t, ∀ k, k < size → ∀ u : Nat → K,
        M.act u (d + k) =
          quadMean (zeroOutside V.numCells collide (valueAt V collide u k)) (pts t d) (ws t d)) ∧
      ∀ r, (∀ t, t < L.numCells → ∀ d ∈ L.cellDofs t, ∀ k, k < size → r ≠ d + k) →
        ∀ u : Nat → K, M.act u r = 0 := by
  have hrow : ∀ q ∈ L.pairs, ∃ data, rowData V collide quad (L.coords q.2) (L.normal q.1) = .ok data ∧
      GoodData V.dim data ∧ ∀ (u : Nat → K) (k : Nat), dataAct data u k =
        quadMean (zeroOutside V.numCells collide (valueAt V collide u k)) (pts q.1 q.2) (ws q.1 q.2) := by
    intro q hqm
    obtain ⟨h1, h2⟩ := mem_pairs.1 hqm
    obtain ⟨h3, h4⟩ := hq _ h1 _ h2
    exact rowData_ok hV h3 h4
  have hrow' : ∀ t d, ∃ data, (t, d) ∈ L.pairs →
      rowData V collide quad (L.coords d) (L.normal t) = .ok data ∧
      GoodData V.dim data ∧ ∀ (u : Nat → K) (k : Nat), dataAct data u k =
        quadMean (zeroOutside V.numCells collide (valueAt V collide u k)) (pts t d) (ws t d) := by
    intro t d
    by_cases h : (t, d) ∈ L.pairs
    · obtain ⟨data, h'⟩ := hrow _ h
      exact ⟨data, fun _ => h'⟩
    · exact ⟨[], fun h' => absurd h' h⟩
  choose DATA hDATA using hrow'
  unfold averageMatrix
  by_cases hsize : size = 1
  · subst hsize
    rw [if_pos rfl, scalarAverage]
    obtain ⟨I, J, VS, e, l1, l2, z, r1, r2⟩ := scalarLoop_ok (V := V) (L := L) (collide := collide)
      (quad := quad) (DATA := DATA) L.pairs [] [] [] rfl rfl (fun q hq => (hDATA q.1 q.2 hq).1)
    have hI : ∀ r ∈ I, r < L.dim := by
      intro r hr
      rcases r1 r hr with h | ⟨q, hq, rfl⟩
      · simp at h
      · exact pairs_lt hL q hq 0 (by omega)
    have hJ : ∀ c ∈ J, c < V.dim := by
      intro c hc
      rcases r2 c hc with h | ⟨q, hq, p, hp, rfl⟩
      · simp at h
      · exact (hDATA q.1 q.2 hq).2.1.lt p hp
    have hact : ∀ (u : Nat → K) (d : Nat), d < L.dim →
        ∑ j ∈ range V.dim, (((I.zip (J.zip VS)).filter (fun p => p.1 = d ∧ p.2.1 = j)).map
          (fun p => p.2.2)).sum * u j =
          (L.pairs.map (fun q => if q.2 = d then dataAct (DATA q.1 q.2) u 0 else 0)).sum := by
      intro u d hd
      rw [csr_act L.dim V.dim u d hd, z]
      · simp only [List.zip_nil_left, List.nil_append]
        exact actTriples_pairs u d L.pairs
      · intro p hp
        exact hJ _ (List.of_mem_zip (List.of_mem_zip hp).2).1
    rw [e, py_bind_ok]
    change ∃ M, csr L.dim V.dim I J VS = _ ∧ _
    rw [csr, if_pos ⟨l1, l2, hI, hJ⟩]
    refine ⟨_, rfl, rfl, rfl, fun t ht d hd k hk u => ?_, fun r hr u => ?_⟩
    · have hk0 : k = 0 := by omega
      subst hk0
      have hp : (t, d) ∈ L.pairs := mem_pairs.2 ⟨ht, hd⟩
      have hdl : d < L.dim := pairs_lt hL _ hp 0 (by omega)
      rw [Nat.add_zero, Mat.of_act, if_pos hdl, hact u d hdl, sum_single _ (t, d) L.pairs (pairs_nodup hL) hp]
      · simp only [if_true]
        exact (hDATA t d hp).2.2 u 0
      · intro q hq hne
        refine if_neg (fun hqd => hne ?_)
        exact (pairs_distinct hL q hq (t, d) hp 0 (by omega) 0 (by omega) (by simp [hqd])).1
    · rw [Mat.of_act]
      split
      · rename_i hr'
        rw [hact u r hr']
        refine List.sum_eq_zero (fun x hx => ?_)
        obtain ⟨q, hq, rfl⟩ := List.mem_map.1 hx
        obtain ⟨h1, h2⟩ := mem_pairs.1 hq
        exact if_neg (fun h => hr _ h1 _ h2 0 (by omega) (by simp [h]))
      · rfl
  · rw [if_neg hsize]
    obtain ⟨M, e, hM⟩ := fill_ok (m := L.dim) (n := V.dim) (size := size)
      (DATA := fun t d => some (DATA t d)) (loop := vectorLoop V L size collide quad) (all := L.pairs)
      (fun M => rfl) (fun q ps M _ h => absurd h (by simp))
      (fun q ps M data hq h => by
        obtain rfl := Option.some.inj h
        rw [show q = (q.1, q.2) from rfl, vectorLoop, (hDATA q.1 q.2 hq).1, py_bind_ok])
      (pairs_nodup hL)
      (fun q hq data h => by obtain rfl := Option.some.inj h; exact (hDATA q.1 q.2 hq).2.1)
      (pairs_lt hL) (pairs_distinct hL) L.pairs [] (fun _ _ => 0) rfl (filled_init _ _ _ _)
    refine ⟨Mat.of L.dim V.dim M, by rw [e, py_bind_ok], rfl, rfl, fun t ht d hd k hk u => ?_,
      fun r hr u => ?_⟩
    · have hp : (t, d) ∈ L.pairs := mem_pairs.2 ⟨ht, hd⟩
      rw [Mat.of_act, if_pos (hL.lt t ht d hd k hk)]
      exact (hM.row (t, d) hp _ rfl k hk u).trans ((hDATA t d hp).2.2 u k)
    · rw [Mat.of_act]
      split
      · refine Finset.sum_eq_zero (fun j _ => ?_)
        rw [hM.zero r (fun q hq _ k hk => ?_) j, zero_mul]
        obtain ⟨h1, h2⟩ := mem_pairs.1 hq
        exact hr _ h1 _ h2 k hk
      · rfl

/-- When all the quadrature points are in the mesh: for every vector `u` representing a function `f` (on
    the cells found by collision), the row of a dof gives the quadrature mean of `f` over the shape. -/
theorem average_is_mean_partial {V : Space K (P × Nat)} (hV : V.WF) {L : Line P} {size : Nat} (hs : 0 < size)
    (hL : L.WF size) {collide : P → Nat} {quad : Quad K P} {pts : Nat → Nat → List P}
    {ws : Nat → Nat → List K}
    (hq : ∀ t, t < L.numCells → ∀ d ∈ L.cellDofs t,
      quad (L.coords d) (L.normal t) = .ok (pts t d, ws t d) ∧ (pts t d).length = (ws t d).length) :
    ∃ M, averageMatrix V L size collide quad = .ok M ∧
      ∀ t, t < L.numCells → ∀ d ∈ L.cellDofs t, (∀ p ∈ pts t d, collide p < V.numCells) →
        ∀ k, k < size → ∀ (u : Nat → K) (f : P → K),
        (∀ p ∈ pts t d, fnOn V u (collide p) (p, k) = f p) →
        M.act u (d + k) = quadMean f (pts t d) (ws t d) := by
  obtain ⟨M, e, _, _, h, _⟩ := average_general hV hs hL hq
  refine ⟨M, e, fun t ht d hd hin k hk u f hf => ?_⟩
  rw [h t ht d hd k hk u, quadMean, quadMean, quadSum, quadSum]
  congr 2
  refine List.map_congr_left (fun q hqm => ?_)
  have hp := (List.of_mem_zip hqm).1
  rw [zeroOutside, if_pos (hin _ hp), valueAt, hf _ hp]

theorem quadSum_const (c : K) : ∀ (pts : List P) (ws : List K), pts.length = ws.length →
    quadSum (fun _ => c) pts ws = ws.sum * c
  | [], [], _ => by simp [quadSum]
  | p :: pts, w :: ws, h => by
      rw [quadSum_cons, quadSum_const c pts ws (by simpa using h), List.sum_cons, add_mul]

/-- Constants are reproduced, for shapes with a nonzero measure inside of the mesh. -/
theorem average_of_constant {V : Space K (P × Nat)} (hV : V.WF) {L : Line P} {size : Nat} (hs : 0 < size)
    (hL : L.WF size) {collide : P → Nat} {quad : Quad K P} {pts : Nat → Nat → List P}
    {ws : Nat → Nat → List K}
    (hq : ∀ t, t < L.numCells → ∀ d ∈ L.cellDofs t,
      quad (L.coords d) (L.normal t) = .ok (pts t d, ws t d) ∧ (pts t d).length = (ws t d).length) :
    ∃ M, averageMatrix V L size collide quad = .ok M ∧
      ∀ t, t < L.numCells → ∀ d ∈ L.cellDofs t, (∀ p ∈ pts t d, collide p < V.numCells) →
        (ws t d).sum ≠ 0 → ∀ k, k < size → ∀ (u : Nat → K) (c : K),
        (∀ p ∈ pts t d, fnOn V u (collide p) (p, k) = c) → M.act u (d + k) = c := by
  obtain ⟨M, e, h⟩ := average_is_mean_partial hV hs hL (collide := collide) hq
  refine ⟨M, e, fun t ht d hd hin hw k hk u c hc => ?_⟩
  rw [h t ht d hd hin k hk u (fun _ => c) hc, quadMean, quadSum_const c _ _ (hq t ht d hd).2]
  field_simp

/-- A dof whose quadrature points are all outside of the mesh has a zero row. -/
theorem average_outside {V : Space K (P × Nat)} (hV : V.WF) {L : Line P} {size : Nat} (hs : 0 < size)
    (hL : L.WF size) {collide : P → Nat} {quad : Quad K P} {pts : Nat → Nat → List P}
    {ws : Nat → Nat → List K}
    (hq : ∀ t, t < L.numCells → ∀ d ∈ L.cellDofs t,
      quad (L.coords d) (L.normal t) = .ok (pts t d, ws t d) ∧ (pts t d).length = (ws t d).length) :
    ∃ M, averageMatrix V L size collide quad = .ok M ∧
      ∀ t, t < L.numCells → ∀ d ∈ L.cellDofs t, (∀ p ∈ pts t d, V.numCells ≤ collide p) →
        ∀ k, k < size → ∀ u : Nat → K, M.act u (d + k) = 0 := by
  obtain ⟨M, e, _, _, h, _⟩ := average_general hV hs hL hq
  refine ⟨M, e, fun t ht d hd hout k hk u => ?_⟩
  rw [h t ht d hd k hk u, quadMean, quadSum, List.sum_eq_zero, zero_div]
  intro x hx
  obtain ⟨q, hqm, rfl⟩ := List.mem_map.1 hx
  rw [zeroOutside, if_neg (by have := hout _ (List.of_mem_zip hqm).1; omega), mul_zero]

/-- 3d-1d trace: the value of the function at the point of the dof, on the cell assigned to the cell of
    the line mesh; rows of cells without one are zero. -/
theorem trace3d1d_evaluates {V : Space K (P × Nat)} (hV : V.WF) {L : Line P} {size : Nat}
    (hL : L.WF size) {isCG isDG0 : Bool} (hf : (isCG || isDG0) = true) {cell3d : Nat → Py (Option Nat)}
    {cell : Nat → Option Nat}
    (hc : ∀ t, t < L.numCells → cell3d t = .ok (cell t) ∧ ∀ c, cell t = some c → c < V.numCells) :
    ∃ M, trace3d1d V L size true isCG isDG0 cell3d = .ok M ∧ M.rows = L.dim ∧ M.cols = V.dim ∧
      ∀ t, t < L.numCells → ∀ d ∈ L.cellDofs t, ∀ k, k < size → ∀ u : Nat → K,
        M.act u (d + k) = match cell t with
          | some c => fnOn V u c (L.coords d, k)
          | none => 0 := by
  obtain ⟨M, e, hM⟩ := fill_ok (m := L.dim) (n := V.dim) (size := size)
    (DATA := fun t d => (cell t).map (fun c => basisData V c (L.coords d)))
    (loop := traceLoop V L size cell3d) (all := L.pairs)
    (fun M => rfl)
    (fun q ps M hq h => by
      have h' : cell q.1 = none := by simpa using h
      rw [show q = (q.1, q.2) from rfl, traceLoop, (hc q.1 (mem_pairs.1 hq).1).1, py_bind_ok, h'])
    (fun q ps M data hq h => by
      obtain ⟨c, hc', rfl⟩ := Option.map_eq_some_iff.1 h
      rw [show q = (q.1, q.2) from rfl, traceLoop, (hc q.1 (mem_pairs.1 hq).1).1, py_bind_ok, hc'])
    (pairs_nodup hL)
    (fun q hq data h => by
      obtain ⟨c, hc', rfl⟩ := Option.map_eq_some_iff.1 h
      exact basisData_good hV ((hc q.1 (mem_pairs.1 hq).1).2 c hc') _)
    (pairs_lt hL) (pairs_distinct hL) L.pairs [] (fun _ _ => 0) rfl (filled_init _ _ _ _)
  refine ⟨Mat.of L.dim V.dim M, ?_, rfl, rfl, fun t ht d hd k hk u => ?_⟩
  · rw [trace3d1d, pyAssert_true, py_bind_ok, hf, pyAssert_true, py_bind_ok, e, py_bind_ok]
  · have hp : (t, d) ∈ L.pairs := mem_pairs.2 ⟨ht, hd⟩
    rw [Mat.of_act, if_pos (hL.lt t ht d hd k hk)]
    cases hct : cell t with
    | none =>
      simp only
      refine Finset.sum_eq_zero (fun j _ => ?_)
      rw [hM.zero (d + k) (fun q hq hne k' hk' heq => ?_) j, zero_mul]
      have := (pairs_distinct hL (t, d) hp q hq k hk k' hk' heq).1
      rw [← this, hct] at hne
      exact hne rfl
    | some c =>
      simp only
      rw [hM.row (t, d) hp (basisData V c (L.coords d)) (by simp [hct]) k hk u]
      exact basisData_act hV ((hc t ht).2 c hct) _ u k

/-- The conversion to a vector keeps the checks in front: the assertion errors of `avg_mat`. -/
theorem avg_mat_checks {V : Space K (P × Nat)} {L : Line P} {size : Nat}
    {onMesh isDG sameShape sameCell sameDim isCG isDG0 : Bool} {cell3d : Nat → Py (Option Nat)}
    {collide : P → Nat} {shape : Option (Quad K P)}
    (h : onMesh = false ∨ isDG = false ∨ sameShape = false ∨ sameCell = false ∨ sameDim = false) :
    avgMat V L size onMesh isDG sameShape sameCell sameDim isCG isDG0 cell3d collide shape =
      .error .assertion := by
  rcases h with h | h | h | h | h <;> subst h
  · rfl
  · cases onMesh <;> rfl
  · cases onMesh <;> cases isDG <;> rfl
  · cases onMesh <;> cases isDG <;> cases sameShape <;> rfl
  · cases onMesh <;> cases isDG <;> cases sameShape <;> cases sameCell <;> rfl

/-- `MeasureFunction`: the value at each dof is the total weight of the quadrature at the dof. -/
theorem measureLoop_ok {L : Line P} {quad : Quad K P} {ws : Nat → Nat → List K} : ∀ (ps : List (Nat × Nat))
    (vs : List (Option K)),
    (∀ q ∈ ps, q.2 < vs.length ∧ ∃ pts, quad (L.coords q.2) (L.normal q.1) = .ok (pts, ws q.1 q.2)) →
    (ps.map (fun q => q.2)).Nodup → (∀ q ∈ ps, vs[q.2]? = some none) →
    ∃ vs', measureLoop L quad ps vs = .ok vs' ∧ vs'.length = vs.length ∧
      (∀ q ∈ ps, vs'[q.2]? = some (some (ws q.1 q.2).sum)) ∧
      ∀ d, d ∉ ps.map (fun q => q.2) → vs'[d]? = vs[d]?
  | [], vs, _, _, _ => ⟨vs, rfl, rfl, by simp, fun _ _ => rfl⟩
  | (t, d) :: ps, vs, h, hn, hv => by
      simp only [List.map_cons, List.nodup_cons] at hn
      obtain ⟨hd, pts, hq⟩ := h (t, d) (by simp)
      obtain ⟨vs', e, h1, h2, h3⟩ := measureLoop_ok (L := L) (quad := quad) (ws := ws) ps
        (vs.set d (some (ws t d).sum))
        (fun q hq => by rw [List.length_set]; exact h q (by simp [hq])) hn.2
        (fun q hq => by
          have : d ≠ q.2 := fun e => hn.1 (List.mem_map.2 ⟨q, hq, e.symm⟩)
          rw [List.getElem?_set_ne this]
          exact hv q (by simp [hq]))
      refine ⟨vs', ?_, by rw [h1, List.length_set], fun q hqm => ?_, fun d' hd' => ?_⟩
      · rw [measureLoop, pyGet_eq_ok.2 (hv (t, d) (by simp)), py_bind_ok]
        simp only
        rw [hq, py_bind_ok]
        exact e
      · rcases List.mem_cons.1 hqm with rfl | hqm
        · rw [h3 d hn.1]
          simp only
          rw [List.getElem?_set_self hd]
        · exact h2 q hqm
      · simp only [List.map_cons, List.mem_cons, not_or] at hd'
        rw [h3 d' hd'.2, List.getElem?_set_ne (Ne.symm hd'.1)]

theorem measure_function {L : Line P} (hL : L.WF 1) {quad : Quad K P} {ws : Nat → Nat → List K}
    (hcover : ∀ d, d < L.dim → ∃ t, t < L.numCells ∧ d ∈ L.cellDofs t)
    (hq : ∀ t, t < L.numCells → ∀ d ∈ L.cellDofs t, ∃ pts,
      quad (L.coords d) (L.normal t) = .ok (pts, ws t d)) :
    ∃ m, measureFunction L quad = .ok m ∧ m.length = L.dim ∧
      ∀ t, t < L.numCells → ∀ d ∈ L.cellDofs t, m[d]? = some (ws t d).sum := by
  obtain ⟨vs, e, h1, h2, h3⟩ := measureLoop_ok (L := L) (quad := quad) (ws := ws) L.pairs
    (List.replicate L.dim none)
    (fun q hqm => ⟨by simpa using pairs_lt hL q hqm 0 (by omega), hq _ (mem_pairs.1 hqm).1 _ (mem_pairs.1 hqm).2⟩)
    (by
      refine (pairs_nodup hL).map_on ?_
      intro q hq q' hq' e
      exact (pairs_distinct hL q hq q' hq' 0 (by omega) 0 (by omega) (by simpa using e)).1)
    (fun q hqm => by
      have : q.2 < L.dim := by simpa using pairs_lt hL q hqm 0 (by omega)
      simp [List.getElem?_replicate, this])
  have hlen : vs.length = L.dim := by simpa using h1
  have hall : ∀ d, d < L.dim → ∃ x, vs[d]? = some (some x) := by
    intro d hd
    obtain ⟨t, ht, hdt⟩ := hcover d hd
    exact ⟨_, h2 (t, d) (mem_pairs.2 ⟨ht, hdt⟩)⟩
  have hvs : ∃ m : List K, vs = m.map some := by
    clear e h1 h2 h3
    have hs : ∀ x ∈ vs, ∃ y, x = some y := by
      intro x hx
      obtain ⟨d, hd, rfl⟩ := List.getElem_of_mem hx
      obtain ⟨y, hy⟩ := hall d (by omega)
      rw [List.getElem?_eq_getElem hd] at hy
      exact ⟨y, Option.some.inj hy⟩
    clear hall hlen
    induction vs with
    | nil => exact ⟨[], rfl⟩
    | cons x vs ih =>
      obtain ⟨m, hm⟩ := ih (fun x hx => hs x (by simp [hx]))
      obtain ⟨y, rfl⟩ := hs x (by simp)
      exact ⟨y :: m, by simp [hm]⟩
  obtain ⟨m, rfl⟩ := hvs
  refine ⟨m, ?_, by simpa using hlen, fun t ht d hd => ?_⟩
  · rw [measureFunction, e, py_bind_ok, show (m.map some).all Option.isSome = true by simp, pyAssert_true,
      py_bind_ok]
    simp
  · have := h2 (t, d) (mem_pairs.2 ⟨ht, hd⟩)
    simp only [List.getElem?_map] at this
    cases hm : m[d]? with
    | none => rw [hm] at this; simp at this
    | some x => rw [hm] at this; simpa using this

/-! ## The hypotheses are met; points outside -/

/-- Piecewise constants on two cells `x < 0` and `x ≥ 0` of the interval `[-1, 1]` (with two components
    when evaluated at component 1 the function is doubled). -/
def exV : Space ℚ (ℚ × Nat) where
  dim := 2
  numCells := 2
  spaceDim := 1
  cellDofs c := [c]
  basis _ _ p := if p.2 = 0 then 1 else 2
  dofs _ _ f := f (0, 0)
  isDG := true

theorem exV_wf : exV.WF :=
  ⟨fun c _ => rfl, fun c _ => by simp [exV], fun c hc d hd => by
    simp only [exV, List.mem_cons, List.not_mem_nil, or_false] at hc hd ⊢
    omega⟩

/-- One cell, one dof (and the dof of the second component). -/
def exL : Line ℚ := ⟨2, 1, fun _ => [0], fun _ => 0, fun _ => 1⟩

theorem exL_wf (size : Nat) (h : size ≤ 2) : exL.WF size := by
  refine ⟨fun t _ => by simp [exL], fun t _ d hd k hk => ?_, fun t ht t' ht' d hd d' hd' k hk k' hk' e => ?_⟩
  · simp only [exL, List.mem_singleton] at hd ⊢
    omega
  · simp only [exL, List.mem_singleton] at hd hd' ht ht'
    omega

def exCollide (p : ℚ) : Nat := if p < -1 then 7 else if p < 0 then 0 else if p ≤ 1 then 1 else 7

/-- Points `x ± r`, with weights 1 and 3. -/
def exQuad (r : ℚ) : Quad ℚ ℚ := fun x _ => .ok ([x - r, x + r], [1, 3])

/-- Inside of the mesh: the mean with weights 1/4 and 3/4. -/
example : ∃ M, averageMatrix exV exL 2 exCollide (exQuad (1 / 2)) = .ok M ∧
    ∀ u : Nat → ℚ, M.act u 0 = u 0 / 4 + 3 * u 1 / 4 := by
  obtain ⟨M, e, h⟩ := average_is_mean_partial exV_wf (by omega) (exL_wf 2 (by omega)) (collide := exCollide)
    (quad := exQuad (1 / 2)) (pts := fun _ _ => [0 - 1 / 2, 0 + 1 / 2]) (ws := fun _ _ => [1, 3])
    (fun t _ d _ => ⟨rfl, rfl⟩)
  refine ⟨M, e, fun u => ?_⟩
  rw [h 0 (by simp [exL]) 0 (by simp [exL]) ?_ 0 (by omega) u (fun p => if p < 0 then u 0 else u 1) ?_]
  · simp [quadMean, quadSum]; norm_num; ring
  · intro p hp
    simp only [List.mem_cons, List.not_mem_nil, or_false] at hp
    rcases hp with rfl | rfl <;> norm_num [exCollide, exV]
  · intro p hp
    simp only [List.mem_cons, List.not_mem_nil, or_false] at hp
    rcases hp with rfl | rfl <;> norm_num [exCollide, exV, fnOn]

/-- The property fails for shapes which are not contained in the mesh: the points outside do not
    contribute but their weight is counted, so that the average of the constant 1 is not 1. -/
theorem average_of_constant_wrong_outside : ∃ M,
    averageMatrix exV exL 1 exCollide (fun x _ => .ok ([x - 1 / 2, x + 2], [1, 3])) = .ok M ∧
    (∀ c p, fnOn exV (fun _ => 1) c (p, 0) = 1) ∧ M.act (fun _ => 1) 0 = 1 / 4 := by
  obtain ⟨M, e, _, _, h, _⟩ := average_general exV_wf (by omega) (exL_wf 1 (by omega)) (collide := exCollide)
    (quad := fun x _ => .ok ([x - 1 / 2, x + 2], [1, 3])) (pts := fun _ _ => [0 - 1 / 2, 0 + 2])
    (ws := fun _ _ => [1, 3]) (fun t _ d _ => ⟨rfl, rfl⟩)
  refine ⟨M, e, fun c p => by simp [fnOn, exV], ?_⟩
  have := h 0 (by simp [exL]) 0 (by simp [exL]) 0 (by omega) (fun _ => 1)
  rw [Nat.add_zero] at this
  rw [this]
  norm_num [quadMean, quadSum, zeroOutside, valueAt, exCollide, exV, fnOn]

example : ∃ m, measureFunction ⟨1, 1, fun _ => [0], fun _ => 0, fun _ => 1⟩ (exQuad 1) = .ok m ∧
    m[0]? = some ([1, 3] : List ℚ).sum := by
  obtain ⟨m, e, _, h⟩ := measure_function (L := ⟨1, 1, fun _ => [0], fun _ => 0, fun _ => 1⟩)
    (quad := exQuad 1) (ws := fun _ _ => [1, 3])
    ⟨fun t _ => by simp, fun t _ d hd k hk => by simp at hd ⊢; omega,
      fun t ht t' ht' d hd d' hd' k hk k' hk' e => by simp at hd hd' ht ht'; omega⟩
    (fun d hd => ⟨0, by simp, by simp at hd; simp [hd]⟩) (fun t _ d _ => ⟨_, rfl⟩)
  exact ⟨m, e, h 0 (by simp) 0 (by simp)⟩

/-- Both components of the trace, on the cell `1`. -/
example : ∃ M, trace3d1d exV exL 2 true true false (cellByMap [(0, 5)] (fun _ => [1, 0])) = .ok M ∧
    ∀ u : Nat → ℚ, M.act u 0 = u 1 ∧ M.act u 1 = u 1 * 2 := by
  obtain ⟨M, e, _, _, h⟩ := trace3d1d_evaluates exV_wf (exL_wf 2 (by omega)) (isCG := true) (isDG0 := false)
    rfl (cell3d := cellByMap [(0, 5)] (fun _ => [1, 0])) (cell := fun _ => some 1)
    (fun t ht => by
      have : t = 0 := by simp only [exL] at ht; omega
      subst this
      exact ⟨rfl, fun c hc => by
        obtain rfl := Option.some.inj hc
        simp [exV]⟩)
  refine ⟨M, e, fun u => ⟨?_, ?_⟩⟩
  · have := h 0 (by simp [exL]) 0 (by simp [exL]) 0 (by omega) u
    rw [Nat.add_zero] at this
    rw [this]
    simp [fnOn, exV]
  · have := h 0 (by simp [exL]) 0 (by simp [exL]) 1 (by omega) u
    rw [Nat.zero_add] at this
    rw [this]
    simp [fnOn, exV]

end Verif.Average
