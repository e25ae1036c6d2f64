import Verif.Model.SurfaceMean
import Verif.Spec.SurfaceMean
import Verif.Props.Trace
import Verif.Lemmas.Mat
import Mathlib.Tactic.FieldSimp
/-! # Lemmas about means over surfaces -/
namespace Verif.SurfaceMean
open Verif Verif.DofMat Verif.Trace Finset
variable {K X : Type} [Field K]

theorem LinearIntegral.zero {int : Nat → (X → K) → K} (h : LinearIntegral int) (t : Nat) :
    int t (fun _ => 0) = 0 := by
  have := h.smul t 0 (fun _ => 0)
  simpa using this

theorem LinearIntegral.sum {int : Nat → (X → K) → K} (h : LinearIntegral int) (t : Nat) {ι : Type} (s : Finset ι)
    (f : ι → X → K) : int t (fun x => ∑ i ∈ s, f i x) = ∑ i ∈ s, int t (f i) := by
  classical
  induction s using Finset.induction_on with
  | empty => simpa using h.zero t
  | insert a s ha ih =>
    rw [sum_insert ha, ← ih, ← h.add]
    congr 1
    funext x
    rw [sum_insert ha]

theorem meanRow_act {TV : Space K X} (hT : TV.WF) {int : Nat → (X → K) → K} (hI : LinearIntegral int) (a : K)
    (w : Nat → K) :
    (meanRow TV int a).act w 0 = a * ∑ t ∈ range TV.numCells, ∑ l ∈ range TV.spaceDim,
      w ((TV.cellDofs t).getD l 0) * int t (TV.basis t l) := by
  have h1 : ∀ d ∈ range TV.dim, (meanRow TV int a).e 0 d * w d =
      ∑ t ∈ range TV.numCells, ∑ l ∈ range TV.spaceDim,
        if (TV.cellDofs t)[l]? = some d then a * (w d * int t (TV.basis t l)) else 0 := by
    intro d hd
    rw [meanRow, Mat.of_e, if_pos ⟨by omega, by simpa using hd⟩, sum_mul]
    refine sum_congr rfl (fun t _ => ?_)
    rw [sum_mul]
    refine sum_congr rfl (fun l _ => ?_)
    split
    · rw [hI.smul]; ring
    · simp
  rw [Mat.act]
  change ∑ d ∈ range TV.dim, _ = _
  rw [sum_congr rfl h1, sum_comm, mul_sum]
  refine sum_congr rfl (fun t ht => ?_)
  rw [sum_comm, mul_sum]
  refine sum_congr rfl (fun l hl => ?_)
  have ht' : t < TV.numCells := by simpa using ht
  have hl' : l < (TV.cellDofs t).length := by rw [hT.len t ht']; simpa using hl
  have hd : (TV.cellDofs t)[l] < TV.dim := hT.lt t ht' _ (List.getElem_mem hl')
  have hg : (TV.cellDofs t).getD l 0 = (TV.cellDofs t)[l] := by
    rw [List.getD_eq_getElem?_getD, List.getElem?_eq_getElem hl']; rfl
  rw [hg, List.getElem?_eq_getElem hl', sum_eq_single (TV.cellDofs t)[l]]
  · rw [if_pos rfl]
  · intro d _ hne
    rw [if_neg (fun h => hne (by simpa using h.symm))]
  · intro h
    exact absurd (by simpa using hd) h

theorem mem_allCells {marks : List Nat} {t : Nat} (h : t < marks.length) :
    t ∈ traceCells marks marks.dedup := by
  rw [mem_traceCells]
  exact ⟨marks[t], by simp, List.getElem?_eq_getElem h⟩

theorem areaSum (n : Nat) (vol : Nat → K) : ((List.range n).map vol).sum = area n vol := by
  rw [area]
  induction n with
  | zero => rfl
  | succ n ih => rw [List.range_succ, List.map_append, List.sum_append, ih, sum_range_succ]; simp

end Verif.SurfaceMean
