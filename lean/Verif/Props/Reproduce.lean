import Verif.Model.Reproduce
import Verif.Spec.Reproduce
import Verif.Props.DofMat
import Mathlib.Tactic.LinearCombination
/-!
# C124: injection, restriction and interpolation into a space which contains the function change nothing

Unlike C33, which says what the entries of the result are, this is about the function the result represents.
-/
namespace Verif.DofMat
open Verif Verif.BlockOps Finset
variable {K X : Type} [CommRing K]

/-- `injection_matrix` of the sandbox evaluates the degrees of freedom of the fine space on the parent cells. -/
theorem sandbox_injection_evaluates_dofs {Vc Vf : Space K X} (hV : Vc.WF) (hT : Vf.WF) (hL : Vf.LinearDofs)
    {parents : List Nat} (hn : parents.length = Vf.numCells) (hp : ∀ c ∈ parents, c < Vc.numCells) :
    ∃ M, sandboxInjection Vc Vf true true true parents = .ok M ∧
      EvaluatesDofs Vc Vf (List.range Vf.numCells) (fun t _ => some (parents.getD t 0)) M := by
  have hget : ∀ t, (h : t < Vf.numCells) → pyGet parents t = .ok (parents.getD t 0) ∧ parents.getD t 0 < Vc.numCells := by
    intro t h
    have h' : t < parents.length := by omega
    rw [pyGet_ok h', List.getD_eq_getElem?_getD, List.getElem?_eq_getElem h', Option.getD_some]
    exact ⟨rfl, hp _ (List.getElem_mem h')⟩
  obtain ⟨s, h, hI⟩ := cellLoop_ok (V := Vc) (TV := Vf) hT (put := putRow Vc Vf .insert id)
    (prep := parentPrep Vc parents)
    (ROW := fun t l _ j => match some (parents.getD t 0) with
      | some c => rowVal Vc Vf id t l c j
      | none => 0)
    (fun t s ht hs => by
      obtain ⟨h1, h2⟩ := hget t ht
      refine ⟨{ s with vb := { s.vb with cell := parents.getD t 0 } }, fun _ => .ok (some (parents.getD t 0)), ?_, rfl,
        rfl, rfl, rfl, ?_⟩
      · simp only [parentPrep, h1, setCell_ok h2, py_bind_ok]
      · exact rowGood_put hV hT (choice := fun t _ => some (parents.getD t 0)) ht (fun _ _ => rfl)
          (fun d c _ hc => by simp only [Option.some.injEq] at hc; omega))
    (List.range parents.length) [] (St.init Vc Vf) (by simp [hn]) (inv_init Vc Vf _)
  refine ⟨Mat.of Vf.dim Vc.dim s.mat, by rw [sandboxInjection]; simp [h], ?_⟩
  rw [← hn]
  exact evaluates_of_inv (choice := fun t _ => some (parents.getD t 0)) hV hT hL (by simp [hn])
    (fun t d c ht _ hc => by
      simp only [Option.some.injEq] at hc
      have := (hget t ht).2
      omega) hI.mat

/-- Meshes which are not parent and child are refused. -/
theorem sandbox_injection_checks (Vc Vf : Space K X) (a b c : Bool) (parents : List Nat)
    (h : ¬ (a = true ∧ b = true ∧ c = true)) : sandboxInjection Vc Vf a b c parents = .error .assertion := by
  cases a <;> cases b <;> cases c <;> simp_all [sandboxInjection]

/-- A degree of freedom of a combination of basis functions. -/
theorem dofs_fnOn {V TV : Space K X} (hL : TV.LinearDofs) (u : Nat → K) (t i c : Nat) :
    TV.dofs t i (fnOn V u c) =
      ∑ l ∈ range V.spaceDim, u ((V.cellDofs c).getD l 0) * TV.dofs t i (V.basis c l) := by
  unfold fnOn
  induction V.spaceDim with
  | zero =>
    have := hL.smul t i 0 (fun _ => 0)
    simpa using this
  | succ n ih =>
    simp only [sum_range_succ]
    rw [hL.add, hL.smul, ih]

/-- A matrix which evaluates the degrees of freedom of a space which contains the function maps coefficients to coefficients of the
    same function. -/
theorem EvaluatesDofs.same {V TV : Space K X} (hT : TV.WF) (hL : TV.LinearDofs) {parent : Nat → Nat} {M : Mat K}
    (h : EvaluatesDofs V TV (List.range TV.numCells) (fun t _ => some (parent t)) M)
    {pts : Nat → X → Prop} (hc : LocallyContains V TV parent pts) {u : Nat → K}
    (hu : Unambiguous V TV (List.range TV.numCells) parent u) : SameFunction V TV parent pts u (M.act u) := by
  intro t ht x hx
  have hcoef : ∀ i, i < TV.spaceDim → M.act u ((TV.cellDofs t).getD i 0) = TV.dofs t i (fnOn V u (parent t)) := by
    intro i hi
    have hi' : i < (TV.cellDofs t).length := by rw [hT.len t ht]; exact hi
    refine h.all hu (List.mem_range.2 ht) ?_
    rw [List.getD_eq_getElem?_getD, List.getElem?_eq_getElem hi', Option.getD_some]
  have : fnOn TV (M.act u) t x =
      ∑ i ∈ range TV.spaceDim, TV.dofs t i (fnOn V u (parent t)) * TV.basis t i x := by
    unfold fnOn
    refine sum_congr rfl fun i hi => ?_
    rw [hcoef i (mem_range.1 hi)]
    rfl
  rw [this]
  simp only [dofs_fnOn hL, sum_mul]
  rw [sum_comm]
  unfold fnOn
  refine sum_congr rfl fun l hl => ?_
  rw [← hc t ht l (mem_range.1 hl) x hx, mul_sum]
  refine sum_congr rfl fun i _ => ?_
  ring

/-- Injection into a space on a refined mesh which contains the coarse functions (sandbox/injection_mat.py). -/
theorem sandbox_injection_same_function {Vc Vf : Space K X} (hV : Vc.WF) (hT : Vf.WF) (hL : Vf.LinearDofs)
    {parents : List Nat} (hn : parents.length = Vf.numCells) (hp : ∀ c ∈ parents, c < Vc.numCells)
    {pts : Nat → X → Prop} (hc : LocallyContains Vc Vf (fun t => parents.getD t 0) pts) :
    ∃ M, sandboxInjection Vc Vf true true true parents = .ok M ∧
      ∀ u, Unambiguous Vc Vf (List.range Vf.numCells) (fun t => parents.getD t 0) u →
        SameFunction Vc Vf (fun t => parents.getD t 0) pts u (M.act u) := by
  obtain ⟨M, h, hM⟩ := sandbox_injection_evaluates_dofs hV hT hL hn hp
  exact ⟨M, h, fun u hu => hM.same hT hL hc hu⟩

/-- Restriction to a submesh. -/
theorem restriction_same_function {V TV : Space K X} (hV : V.WF) (hT : TV.WF) (hL : TV.LinearDofs)
    {mapping : List (Nat × Nat)} {parent : Nat → Nat}
    (hmap : ∀ t, t < TV.numCells → mapping.lookup t = some (parent t) ∧ parent t < V.numCells)
    {pts : Nat → X → Prop} (hc : LocallyContains V TV parent pts) :
    ∃ M, restrictionMatrix V TV mapping = .ok M ∧
      ∀ u, Unambiguous V TV (List.range TV.numCells) parent u → SameFunction V TV parent pts u (M.act u) := by
  obtain ⟨M, h, hM⟩ := restriction_evaluates_dofs hV hT hL hmap
  exact ⟨M, h, fun u hu => hM.same hT hL hc hu⟩

/-- Interpolation on the same mesh. -/
theorem interpolation_same_function {V Q : Space K X} (hV : V.WF) (hQ : Q.WF) (hL : Q.LinearDofs)
    (hn : V.numCells = Q.numCells) {pts : Nat → X → Prop} (hc : LocallyContains V Q (fun t => t) pts) :
    ∃ M, interpolationMat V Q true true = .ok M ∧
      ∀ u, Unambiguous V Q (List.range Q.numCells) (fun t => t) u → SameFunction V Q (fun t => t) pts u (M.act u) := by
  obtain ⟨M, h, hM⟩ := interpolation_evaluates_dofs hV hQ hL hn
  rw [hn] at hM
  exact ⟨M, h, fun u hu => hM.same hQ hL hc hu⟩

/-- P1 functions on the cells `[0, 2], …, [2n-2, 2n]`. -/
def coarseP1 (n : Nat) : Space ℚ ℚ where
  dim := n + 1
  numCells := n
  spaceDim := 2
  cellDofs c := [c, c + 1]
  basis c l x := if l = 0 then (2 * c + 2 - x) / 2 else (x - 2 * c) / 2
  dofs c l f := f (2 * c + 2 * l)

/-- From `[0, 2], [2, 4]` to the four halves: the hypotheses hold for all coefficient vectors. -/
example : ∃ M, sandboxInjection (coarseP1 2) (lineP1 0 4) true true true [0, 0, 1, 1] = .ok M ∧
    ∀ u, SameFunction (coarseP1 2) (lineP1 0 4) (fun t => [0, 0, 1, 1].getD t 0) (fun _ _ => True) u (M.act u) := by
  obtain ⟨M, h, hM⟩ := sandbox_injection_same_function (Vc := coarseP1 2) (Vf := lineP1 0 4)
    ⟨fun c _ => rfl, fun c _ => by simp [coarseP1], fun c hc d hd => by
      simp only [coarseP1, List.mem_cons, List.not_mem_nil, or_false] at hc hd ⊢
      omega⟩ (lineP1_wf 0 4) (lineP1_linear 0 4) (parents := [0, 0, 1, 1]) rfl (by simp [coarseP1])
    (pts := fun _ _ => True) (by
      intro t ht l hl x _
      simp only [lineP1, coarseP1] at ht hl
      interval_cases t <;> interval_cases l <;> simp [lineP1, coarseP1, Finset.sum_range_succ] <;> ring)
  refine ⟨M, h, fun u => hM u ?_⟩
  have key : ∀ t l d, t < 4 → ((lineP1 0 4).cellDofs t)[l]? = some d →
      (lineP1 0 4).dofs t l (fnOn (coarseP1 2) u ([0, 0, 1, 1].getD t 0)) =
        if d = 0 then u 0 else if d = 1 then (u 0 + u 1) / 2 else if d = 2 then u 1 else
          if d = 3 then (u 1 + u 2) / 2 else u 2 := by
    intro t l d ht hl
    have hl2 : l < 2 := by
      by_contra hc
      rw [List.getElem?_eq_none (by simp [lineP1]; omega)] at hl
      simp at hl
    interval_cases t <;> interval_cases l <;> simp [lineP1] at hl <;> subst hl <;>
      simp [lineP1, coarseP1, fnOn, Finset.sum_range_succ] <;> ring_nf <;> simp
  intro t ht t' ht' l l' d hl hl'
  rw [key t l d (List.mem_range.1 ht) hl, key t' l' d (List.mem_range.1 ht') hl']

end Verif.DofMat
