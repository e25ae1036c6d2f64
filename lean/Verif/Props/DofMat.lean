import Verif.Lemmas.DofMat
import Mathlib.Data.Rat.Defs
import Mathlib.Algebra.Ring.Rat
import Mathlib.Tactic.Ring
import Mathlib.Tactic.NormNum
import Mathlib.Tactic.IntervalCases
/-!
# C33: restriction, interpolation and non-conforming trace matrices evaluate degrees of freedom

Rows of the matrices, applied to any coefficient vector `u`, are the degrees of freedom of the target
space applied to the function `u` on the chosen cell.
-/
namespace Verif.DofMat
open Verif Verif.BlockOps Finset
variable {K X : Type} [CommRing K]

/-- If the shared degrees of freedom of `u` do not depend on the cell, then entry `d` of `M u` is the
    degree of freedom as defined by *any* of the cells which have it. -/
theorem EvaluatesDofs.all {V TV : Space K X} {cells : List Nat} {choice : Nat → Nat} {M : Mat K}
    (h : EvaluatesDofs V TV cells (fun t _ => some (choice t)) M) {u : Nat → K}
    (hu : Unambiguous V TV cells choice u) {t l d : Nat} (ht : t ∈ cells)
    (hl : (TV.cellDofs t)[l]? = some d) :
    M.act u d = TV.dofs t l (fnOn V u (choice t)) := by
  obtain ⟨t', l', ht', hf⟩ := exists_firstAt (TV := TV) ⟨t, ht, List.mem_of_getElem? hl⟩
  have h1 := h.row u t' l' d hf
  obtain ⟨pre, post, _, _, hl'⟩ := hf
  simp only at h1
  rw [h1]
  exact hu t' ht' t ht l' l d hl' hl

/-- `restriction_matrix` evaluates the degrees of freedom of the space on the submesh on the parent
    cells. -/
theorem restriction_evaluates_dofs {V TV : Space K X} (hV : V.WF) (hT : TV.WF) (hL : TV.LinearDofs)
    {mapping : List (Nat × Nat)} {parent : Nat → Nat}
    (hmap : ∀ t, t < TV.numCells → mapping.lookup t = some (parent t) ∧ parent t < V.numCells) :
    ∃ M, restrictionMatrix V TV mapping = .ok M ∧
      EvaluatesDofs V TV (List.range TV.numCells) (fun t _ => some (parent t)) M := by
  obtain ⟨s, h, hI⟩ := cellLoop_ok (V := V) (TV := TV) hT (put := putRow V TV .insert id)
    (prep := fun t s => do
      let c ← dictGet mapping t
      let vb ← setCell V s.vb c
      .ok ({ s with vb := vb }, fun _ => .ok (some c)))
    (ROW := fun t l _ j => match some (parent t) with
      | some c => rowVal V TV id t l c j
      | none => 0)
    (fun t s ht hs => by
      obtain ⟨h1, h2⟩ := hmap t ht
      refine ⟨{ s with vb := { s.vb with cell := parent t } }, fun _ => .ok (some (parent t)), ?_, rfl,
        rfl, rfl, rfl, ?_⟩
      · simp [dictGet, h1, setCell_ok h2]
      · exact rowGood_put hV hT (choice := fun t _ => some (parent t)) ht (fun _ _ => rfl)
          (fun d c _ hc => by simp only [Option.some.injEq] at hc; omega))
    (List.range TV.numCells) [] (St.init V TV) (by simp) (inv_init V TV _)
  refine ⟨Mat.of TV.dim V.dim s.mat, by rw [restrictionMatrix, h]; rfl, ?_⟩
  exact evaluates_of_inv (choice := fun t _ => some (parent t)) hV hT hL (by simp)
    (fun t d c ht _ hc => by
      simp only [Option.some.injEq] at hc
      have := (hmap t ht).2
      omega) hI.mat

/-- A submesh cell without a parent makes `restriction_matrix` raise `KeyError`. -/
theorem restriction_missing_parent {V TV : Space K X} {mapping : List (Nat × Nat)}
    (hn : 0 < TV.numCells) (h : mapping.lookup 0 = none) :
    restrictionMatrix V TV mapping = .error .keyError := by
  rw [restrictionMatrix, show TV.numCells = (TV.numCells - 1) + 1 by omega, List.range_succ_eq_map]
  simp [cellLoop, setCell, hn, dictGet, h]

/-- `restriction_mat` refuses to map between different elements and to meshes which are not submeshes
    of the mesh; otherwise it is the matrix of `restriction_matrix`. -/
theorem restriction_mat_checks (V TV : Space K X) (sameElement onMesh : Bool) (meshId : Nat)
    (maps : List (Nat × List (Nat × Nat))) :
    restrictionMat V TV sameElement onMesh meshId maps =
      match maps.lookup meshId with
      | some m => if sameElement && onMesh then restrictionMatrix V TV m else .error .assertion
      | none => .error .assertion := by
  cases sameElement <;> cases onMesh <;> cases h : maps.lookup meshId <;> simp [restrictionMat, h]

/-- `interpolation_mat` evaluates the degrees of freedom of `Q` at functions of `V` cell by cell. -/
theorem interpolation_evaluates_dofs {V Q : Space K X} (hV : V.WF) (hQ : Q.WF) (hL : Q.LinearDofs)
    (hn : V.numCells = Q.numCells) :
    ∃ M, interpolationMat V Q true true = .ok M ∧
      EvaluatesDofs V Q (List.range V.numCells) (fun t _ => some t) M := by
  obtain ⟨s, h, hI⟩ := cellLoop_ok (V := V) (TV := Q) hQ (put := putRow V Q .insert id)
    (prep := fun t s => do
      let vb ← setCell V s.vb t
      .ok ({ s with vb := vb }, fun _ => .ok (some t)))
    (ROW := fun t l _ j => match some t with
      | some c => rowVal V Q id t l c j
      | none => 0)
    (fun t s ht hs => by
      refine ⟨{ s with vb := { s.vb with cell := t } }, fun _ => .ok (some t), ?_, rfl,
        rfl, rfl, rfl, ?_⟩
      · simp [setCell_ok (hn ▸ ht : t < V.numCells)]
      · exact rowGood_put hV hQ (choice := fun t _ => some t) ht (fun _ _ => rfl)
          (fun d c _ hc => by simp only [Option.some.injEq] at hc; omega))
    (List.range V.numCells) [] (St.init V Q) (by simp [hn]) (inv_init V Q _)
  refine ⟨Mat.of Q.dim V.dim s.mat, by rw [interpolationMat]; simp [h], ?_⟩
  exact evaluates_of_inv (choice := fun t _ => some t) hV hQ hL (by simp [hn])
    (fun t d c ht _ hc => by simp only [Option.some.injEq] at hc; omega) hI.mat

/-- Spaces of different shape or on different meshes are refused. -/
theorem interpolation_checks (V Q : Space K X) (a b : Bool) (h : ¬ (a = true ∧ b = true)) :
    interpolationMat V Q a b = .error .assertion := by
  cases a <;> cases b <;> simp_all [interpolationMat]

/-- `nonconforming_trace_mat` evaluates every degree of freedom of `T` on the cell hit by its point;
    rows of dofs whose points hit no cell are zero. -/
theorem nonconforming_evaluates_dofs {V T : Space K X} (hV : V.WF) (hT : T.WF) (hL : T.LinearDofs)
    {collisions : List Nat} (hlen : collisions.length = T.dim) :
    ∃ M, nonconformingTraceMat V T true collisions = .ok M ∧
      EvaluatesDofs V T (List.range T.numCells)
        (fun _ d => if collisions.getD d 0 < V.numCells then some (collisions.getD d 0) else none) M := by
  obtain ⟨s, h, hI⟩ := cellLoop_ok (V := V) (TV := T) hT (put := putRow V T .insert id)
    (prep := fun _ s => .ok (s, fun d => do
      let c ← pyGet collisions d
      .ok (if c ≥ V.numCells then none else some c)))
    (ROW := fun t l d j =>
      match (fun _ d => if collisions.getD d 0 < V.numCells then some (collisions.getD d 0) else none :
        Nat → Nat → Option Nat) t d with
      | some c => rowVal V T id t l c j
      | none => 0)
    (fun t s ht hs => by
      refine ⟨s, _, rfl, rfl, rfl, rfl, rfl, ?_⟩
      refine rowGood_put hV hT
        (choice := fun _ d => if collisions.getD d 0 < V.numCells then some (collisions.getD d 0) else none)
        ht (fun d hd => ?_) (fun d c hd hc => ?_)
      · have hd' : d < collisions.length := by omega
        rw [pyGet_ok hd', py_bind_ok]
        simp only [List.getD_eq_getElem?_getD, List.getElem?_eq_getElem hd', Option.getD_some]
        by_cases hc : collisions[d] < V.numCells
        · simp [hc, Nat.not_le.2 hc]
        · simp [hc, Nat.not_lt.1 hc]
      · simp only [Option.ite_none_right_eq_some, Option.some.injEq] at hc
        omega)
    (List.range T.numCells) [] (St.init V T) (by simp) (inv_init V T _)
  refine ⟨Mat.of T.dim V.dim s.mat, by rw [nonconformingTraceMat]; simp [h], ?_⟩
  refine evaluates_of_inv hV hT hL (by simp) (fun t d c ht _ hc => ?_) hI.mat
  simp only [Option.ite_none_right_eq_some, Option.some.injEq] at hc
  omega

/-! ## Injection -/

/-- The method 'interpolate' returns dolfin's transfer matrix. -/
theorem injection_interpolate_partial (Vc Vf : Space K X) (transfer : Mat K) (items : List (Nat × Nat)) :
    injectionMatrix Vc Vf true .interpolate transfer items = .ok transfer := rfl

/-- The method 'project' is not implemented. -/
theorem injection_project (Vc Vf : Space K X) (transfer : Mat K) (items : List (Nat × Nat)) :
    injectionMatrix Vc Vf true .project transfer items = .error .valueError := rfl

theorem scatter_length {α : Type} : ∀ (is : List Nat) (vs a : List α),
    (scatter is vs a).length = a.length
  | [], _, _ => by simp [scatter]
  | _ :: _, [], _ => by simp [scatter]
  | i :: is, v :: vs, a => by rw [scatter, scatter_length]; simp

/-- Any other method raises `UnboundLocalError` on every nonempty refined mesh: the fallback uses the
    name `mat` before it is assigned. -/
theorem injection_fallback_raises (Vc Vf : Space K X) (hf : Vf.WF) (transfer : Mat K)
    (items : List (Nat × Nat)) (hi : items ≠ []) (hn : 0 < Vf.numCells) (hs : 0 < Vf.spaceDim) :
    injectionMatrix Vc Vf true .other transfer items = .error .unboundLocal := by
  have hlen : (fineToCoarse items).length = items.length := by simp [fineToCoarse, scatter_length]
  have hdl : (Vf.cellDofs 0).length = Vf.spaceDim := hf.len 0 hn
  cases hc : fineToCoarse items with
  | nil => rw [hc] at hlen; exact absurd (List.length_eq_zero_iff.1 hlen.symm) hi
  | cons c cs =>
    cases hd : Vf.cellDofs 0 with
    | nil => rw [hd] at hdl; simp at hdl; omega
    | cons d ds =>
      have hdl : d < Vf.dim := hf.lt 0 hn d (by simp [hd])
      simp [injectionMatrix, hi, hc, injectionCells, hd, injectionRows, pyGet, hdl]

/-- There is a matrix exactly for the method 'interpolate' and spaces on the refined mesh. -/
theorem injection_returns_iff (Vc Vf : Space K X) (hf : Vf.WF) (transfer : Mat K)
    (items : List (Nat × Nat)) (hn : 0 < Vf.numCells) (hs : 0 < Vf.spaceDim) (onMesh : Bool) (method : Method) :
    (∃ A, injectionMatrix Vc Vf onMesh method transfer items = .ok A) ↔ onMesh = true ∧ method = .interpolate := by
  cases onMesh
  · simp [injectionMatrix]
  · cases method
    · simp [injectionMatrix]
    · simp [injectionMatrix]
    · by_cases hi : items = []
      · simp [injectionMatrix, hi]
      · simp [injection_fallback_raises Vc Vf hf transfer items hi hn hs]

/-- The reordering of the map from fine to coarse cells is the identity when the dict lists the fine
    cells in order ... -/
theorem fineToCoarse_sorted (vals : List Nat) :
    fineToCoarse ((List.range vals.length).zip vals) = vals := by
  have hk : ((List.range vals.length).zip vals).map (·.1) = List.range vals.length := by
    rw [List.map_fst_zip]; simp
  have hv : ((List.range vals.length).zip vals).map (·.2) = vals := by
    rw [List.map_snd_zip]; simp
  have hrank : ∀ n k, k ≤ n → rank (List.range n) k = k := by
    intro n k h
    rw [rank, List.countP_eq_length_filter, show n = k + (n - k) by omega, List.range_add,
      List.filter_append, List.filter_eq_self.2 (by simp), List.filter_eq_nil_iff.2 (by simp)]
    simp
  have hargs : argsort (List.range vals.length) = List.range vals.length := by
    rw [argsort, List.length_range]
    conv_rhs => rw [← List.map_id (List.range vals.length)]
    refine List.map_congr_left (fun i hi => ?_)
    have hi' := List.mem_range.1 hi
    rw [id, List.findIdx_eq (by simpa using hi')]
    simp only [List.getElem_range, decide_eq_true_eq, decide_eq_false_iff_not]
    refine ⟨hrank _ _ (by omega), fun j hj => ?_⟩
    rw [hrank _ _ (by omega)]
    omega
  have hscat : ∀ (vs a pre : List Nat), a.length = vs.length →
      scatter (List.range' pre.length vs.length) vs (pre ++ a) = pre ++ vs := by
    intro vs
    induction vs with
    | nil => intro a pre h; simp [scatter, List.length_eq_zero_iff.1 h]
    | cons v vs ih =>
      intro a pre h
      cases a with
      | nil => simp at h
      | cons b a =>
        rw [List.length_cons, List.range'_succ, scatter]
        have := ih a (pre ++ [v]) (by simpa using h)
        simp only [List.length_append, List.length_singleton, List.append_assoc,
          List.singleton_append] at this
        rw [← this]
        simp
  rw [fineToCoarse, hk, hv, hargs, List.range_eq_range']
  simpa using hscat vals vals [] rfl

/-- ... and wrong in general: with the fine cells listed as `1, 2, 0` and coarse cells `11, 12, 10`
    fine cell `0` is sent to the coarse cell of the fine cell `2`. -/
theorem fineToCoarse_wrong :
    ∃ items : List (Nat × Nat), (items.map (·.1)).Nodup ∧
      (fineToCoarse items)[0]? ≠ items.lookup 0 :=
  ⟨[(1, 11), (2, 12), (0, 10)], by decide, by decide⟩

/-! ## The hypotheses are met: continuous piecewise linear functions on a line -/

/-- P1 functions on the cells `[o, o+1], …, [o+n-1, o+n]`. -/
def lineP1 (o n : Nat) : Space ℚ ℚ where
  dim := n + 1
  numCells := n
  spaceDim := 2
  cellDofs c := [c, c + 1]
  basis c l x := if l = 0 then (o + c + 1 : ℚ) - x else x - (o + c)
  dofs c l f := f (o + c + l)

theorem lineP1_wf (o n : Nat) : (lineP1 o n).WF :=
  ⟨fun c _ => rfl, fun c _ => by simp [lineP1], fun c hc d hd => by
    simp only [lineP1, List.mem_cons, List.not_mem_nil, or_false] at hc hd ⊢
    omega⟩

theorem lineP1_linear (o n : Nat) : (lineP1 o n).LinearDofs := ⟨fun _ _ _ _ => rfl, fun _ _ _ _ => rfl⟩

/-- Restriction of P1 functions on `[0, 3]` to the submesh `[1, 3]`: entry `d` of the result is the
    coefficient `d + 1`. -/
example : ∃ M, restrictionMatrix (lineP1 0 3) (lineP1 1 2) [(0, 1), (1, 2)] = .ok M ∧
    ∀ u : Nat → ℚ, M.act u 0 = u 1 ∧ M.act u 1 = u 2 ∧ M.act u 2 = u 3 := by
  obtain ⟨M, h, hM⟩ := restriction_evaluates_dofs (lineP1_wf 0 3) (lineP1_wf 1 2) (lineP1_linear 1 2)
    (mapping := [(0, 1), (1, 2)]) (parent := fun t => t + 1)
    (fun t ht => by
      simp only [lineP1] at ht
      interval_cases t <;> exact ⟨rfl, by simp [lineP1]⟩)
  refine ⟨M, h, fun u => ⟨?_, ?_, ?_⟩⟩
  · rw [hM.row u 0 0 0 ⟨[], [1], rfl, by simp, rfl⟩]
    simp [lineP1, fnOn]
  · rw [hM.row u 0 1 1 ⟨[], [1], rfl, by simp, rfl⟩]
    simp [lineP1, fnOn, Finset.sum_range_succ]
  · rw [hM.row u 1 1 2 ⟨[0], [], rfl, by simp [lineP1], rfl⟩]
    simp [lineP1, fnOn, Finset.sum_range_succ]
    ring

/-- Continuous functions are unambiguous. -/
example (u : Nat → ℚ) : Unambiguous (lineP1 0 3) (lineP1 1 2) (List.range 2) (fun t => t + 1) u := by
  have key : ∀ t l d, t < 2 → ((lineP1 1 2).cellDofs t)[l]? = some d →
      (lineP1 1 2).dofs t l (fnOn (lineP1 0 3) u (t + 1)) = u (d + 1) := by
    intro t l d ht hl
    have hl2 : l < 2 := by
      by_contra hc
      rw [List.getElem?_eq_none (by simp [lineP1]; omega)] at hl
      simp at hl
    interval_cases t <;> interval_cases l <;> simp [lineP1] at hl <;> subst hl <;>
      simp [lineP1, fnOn, Finset.sum_range_succ] <;> ring
  intro t ht t' ht' l l' d hl hl'
  rw [key t l d (List.mem_range.1 ht) hl, key t' l' d (List.mem_range.1 ht') hl']

example : ∃ M, interpolationMat (lineP1 0 3) (lineP1 0 3) true true = .ok M :=
  let ⟨M, h, _⟩ := interpolation_evaluates_dofs (lineP1_wf 0 3) (lineP1_wf 0 3) (lineP1_linear 0 3) rfl
  ⟨M, h⟩

/-- From the cells `[0, 1], [1, 2]` to their halves. -/
example (transfer : Mat ℚ) : ¬ ∃ A, injectionMatrix (lineP1 0 2) (lineP1 0 4) true .other transfer [(0, 0), (1, 0), (2, 1), (3, 1)] = .ok A := by
  rw [injection_returns_iff _ _ (lineP1_wf 0 4) _ _ (by simp [lineP1]) (by simp [lineP1])]
  simp

/-- The point of the last dof hits no cell: its row is zero. -/
example : ∃ M, nonconformingTraceMat (lineP1 0 2) (lineP1 1 2) true [1, 1, 7] = .ok M ∧
    ∀ u : Nat → ℚ, M.act u 0 = u 1 ∧ M.act u 2 = 0 := by
  obtain ⟨M, h, hM⟩ := nonconforming_evaluates_dofs (lineP1_wf 0 2) (lineP1_wf 1 2) (lineP1_linear 1 2)
    (collisions := [1, 1, 7]) rfl
  refine ⟨M, h, fun u => ⟨?_, ?_⟩⟩
  · rw [hM.row u 0 0 0 ⟨[], [1], rfl, by simp, rfl⟩]
    simp [lineP1, fnOn]
  · rw [hM.row u 1 1 2 ⟨[0], [], rfl, by simp [lineP1], rfl⟩]
    simp [lineP1]

end Verif.DofMat
