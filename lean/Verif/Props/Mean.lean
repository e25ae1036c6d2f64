import Verif.Spec.Mean
import Verif.Lemmas.Trace
import Verif.Lemmas.Patch
import Verif.Lemmas.Mat
import Mathlib.Tactic.FieldSimp
import Mathlib.Tactic.NormNum
import Mathlib.Algebra.Order.Field.Rat
/-!
# C101: means over domains
-/
namespace Verif.Mean
open Verif Verif.DofMat Verif.Trace Finset
variable {K X : Type}

theorem IsMeasure.sum [CommRing K] {n : Nat} {m : Measure K X} (h : IsMeasure n m) {p : Nat × ((X → K) → K)} (hp : p ∈ m)
    {ι : Type} (s : Finset ι) (f : ι → X → K) : p.2 (fun x => ∑ i ∈ s, f i x) = ∑ i ∈ s, p.2 (f i) := by
  classical
  induction s using Finset.induction_on with
  | empty => simpa using h.smul p hp 0 (fun _ => 0)
  | insert a s ha ih =>
    rw [sum_insert ha, ← ih, ← h.add p hp]
    exact congrArg p.2 (funext fun x => sum_insert ha)

theorem sum_list [CommRing K] {α : Type} (s : Finset Nat) (f : Nat → α → K) : ∀ l : List α,
    ∑ d ∈ s, (l.map (f d)).sum = (l.map (fun p => ∑ d ∈ s, f d p)).sum
  | [] => by simp
  | a :: l => by simp [sum_add_distrib, sum_list s f l]

theorem zip_sum [CommRing K] (f : Nat → K) (n : Nat) (u : Nat → K) :
    (((List.range n).zip ((List.range n).map f)).map (fun p => p.2 * u p.1)).sum = ∑ d ∈ range n, f d * u d := by
  induction n with
  | zero => simp
  | succ n ih =>
    rw [List.range_succ, List.map_append, List.zip_append (by simp), List.map_append, List.sum_append, ih, sum_range_succ]
    simp

theorem values_act [CommRing K] {V : Space K X} (hV : V.WF) {m : Measure K X} (hm : IsMeasure V.numCells m) (w : X → K)
    (u : Nat → K) :
    ∑ d ∈ range V.dim, (m.map (fun p => ∑ l ∈ range V.spaceDim,
      if (V.cellDofs p.1)[l]? = some d then p.2 (fun x => V.basis p.1 l x * w x) else 0)).sum * u d =
      integral m (fun c x => fnOn V u c x * w x) := by
  simp only [← List.sum_map_mul_right]
  rw [sum_list, integral]
  congr 1
  refine List.map_congr_left (fun p hp => ?_)
  have hc := hm.cell p hp
  have e : (fun x => fnOn V u p.1 x * w x) =
      fun x => ∑ l ∈ range V.spaceDim, u ((V.cellDofs p.1).getD l 0) * (V.basis p.1 l x * w x) := by
    funext x
    rw [fnOn, sum_mul]
    exact sum_congr rfl (fun l _ => by ring)
  rw [e, hm.sum hp]
  simp only [sum_mul]
  rw [sum_comm]
  refine sum_congr rfl (fun l hl => ?_)
  have hl' : l < (V.cellDofs p.1).length := by rw [hV.len _ hc]; simpa using hl
  have hd : (V.cellDofs p.1)[l] < V.dim := hV.lt _ hc _ (List.getElem_mem hl')
  rw [List.getD_eq_getElem?_getD, List.getElem?_eq_getElem hl', Option.getD_some, hm.smul p hp,
    sum_eq_single (V.cellDofs p.1)[l]]
  · rw [if_pos rfl, mul_comm]
  · intro d _ hne
    rw [if_neg (fun h => hne (by simpa using h.symm)), zero_mul]
  · intro h
    exact absurd (by simpa using hd) h

/-- **C101** The matrix of a mean has one row, which gives the integral of the function times the weight (1 by default) over
the measure (the mesh by default). -/
theorem mean_integrates [CommRing K] {V : Space K X} (hV : V.WF) {int : Nat → (X → K) → K}
    {data : Option (X → K) × Option (Measure K X)}
    (hm : IsMeasure V.numCells (data.2.getD (allCells V int))) :
    ∃ M, meanMat V int 1 data = .ok M ∧ M.rows = 1 ∧ M.cols = V.dim ∧
      ∀ u, M.act u 0 = integral (data.2.getD (allCells V int)) (fun c x => fnOn V u c x * data.1.getD (fun _ => 1) x) := by
  have e1 : measureOf V int data.2 = data.2.getD (allCells V int) := by
    cases data.2 <;> rfl
  have e2 : weightOf data.1 = data.1.getD (fun _ : X => (1 : K)) := by
    cases data.1 <;> rfl
  unfold meanMat
  simp only [e1, e2]
  generalize data.2.getD (allCells V int) = m at hm
  generalize data.1.getD (fun _ => 1) = w
  have hlen : (meanValues V w m).length = V.dim := by simp [meanValues]
  rw [csr, if_pos ⟨by simp [hlen], by simp [hlen], fun r hr => by
    rw [List.eq_of_mem_replicate hr]; exact Nat.one_pos, fun c hc => List.mem_range.1 hc⟩]
  refine ⟨_, rfl, rfl, rfl, fun u => ?_⟩
  rw [Mat.of_act, if_pos Nat.one_pos, csr_act 1 V.dim u 0 Nat.one_pos, Patch.actTriples_row, if_pos rfl,
    ← values_act hV hm w u, meanValues]
  · exact zip_sum _ _ u
  · intro p hp
    exact List.mem_range.1 (List.of_mem_zip (List.of_mem_zip hp).2).1

/-- The documented value `|domain|^{-1} * \int_{domain} v *dx` is not what is computed: without a weight, the row gives the
mean for all functions only if the volume of the domain is 1. -/
theorem mean_iff_unit_volume [Field K] {V : Space K X} (hV : V.WF) (hc : HasConstants V) {int : Nat → (X → K) → K}
    {measure : Option (Measure K X)} (hm : IsMeasure V.numCells (measure.getD (allCells V int)))
    (hv : volume (measure.getD (allCells V int)) ≠ 0) {M : Mat K} (hM : meanMat V int 1 (none, measure) = .ok M) :
    (∀ u, M.act u 0 = mean (measure.getD (allCells V int)) (fnOn V u)) ↔ volume (measure.getD (allCells V int)) = 1 := by
  obtain ⟨M', hM', -, -, h⟩ := mean_integrates hV (data := (none, measure)) hm
  rw [hM] at hM'
  cases hM'
  simp only [Option.getD_none, mul_one] at h
  constructor
  · intro ha
    obtain ⟨u, hu⟩ := hc
    have := ha u
    rw [h u, mean] at this
    have e : integral (measure.getD (allCells V int)) (fun c x => fnOn V u c x) = volume (measure.getD (allCells V int)) := by
      rw [volume]; congr 1; funext c x; exact hu c x
    rw [show fnOn V u = fun c x => fnOn V u c x from rfl, e, div_self hv] at this
    exact this
  · intro h1 u
    rw [h u, mean, h1, div_one]

/-- With the inverse of the volume as weight, the row gives the mean. -/
theorem mean_weighted_partial [Field K] {V : Space K X} (hV : V.WF) {int : Nat → (X → K) → K}
    {measure : Option (Measure K X)} (hm : IsMeasure V.numCells (measure.getD (allCells V int))) :
    ∃ M, meanMat V int 1 (some (fun _ => 1 / volume (measure.getD (allCells V int))), measure) = .ok M ∧
      ∀ u, M.act u 0 = mean (measure.getD (allCells V int)) (fnOn V u) := by
  obtain ⟨M, hM, -, -, h⟩ := mean_integrates hV
    (data := (some (fun _ => 1 / volume (measure.getD (allCells V int))), measure)) hm
  refine ⟨M, hM, fun u => ?_⟩
  rw [h u]
  simp only [Option.getD_some]
  rw [mean, div_eq_mul_one_div (integral _ _), integral, integral, ← List.sum_map_mul_right]
  congr 1
  refine List.map_congr_left (fun p hp => ?_)
  rw [mul_comm, ← hm.smul p hp]
  exact congrArg p.2 (funext fun x => mul_comm _ _)

/-! ## The hypotheses are met -/

/-- Piecewise constants on two intervals of length 1. -/
def twoCells : Space ℚ Unit where
  dim := 2
  numCells := 2
  spaceDim := 1
  cellDofs c := [c]
  basis _ _ _ := 1
  dofs _ _ f := f ()
  isDG := true

theorem twoCells_wf : twoCells.WF :=
  ⟨fun c _ => rfl, fun c _ => by simp [twoCells], fun c hc d hd => by
    simp only [twoCells, List.mem_singleton] at hc hd ⊢
    omega⟩

theorem twoCells_measure : IsMeasure 2 (allCells twoCells (fun _ f => f ())) := by
  refine ⟨fun p hp => ?_, fun p hp f g => ?_, fun p hp a f => ?_⟩ <;>
    obtain ⟨c, hc, rfl⟩ := List.mem_map.1 hp
  · exact List.mem_range.1 hc
  · rfl
  · rfl

/-- On a domain of volume 2: the mean of 1 is 2 without weight, and 1 with weight 1/2. -/
theorem mean_of_constant_wrong : ∃ M, meanMat twoCells (fun _ f => f ()) 1 (none, none) = .ok M ∧
    (∀ c x, fnOn twoCells (fun _ => 1) c x = 1) ∧ mean (allCells twoCells (fun _ f => f ())) (fun _ _ => 1) = 1 ∧
    M.act (fun _ => 1) 0 = 2 := by
  obtain ⟨M, hM, -, -, h⟩ := mean_integrates twoCells_wf (int := fun _ f => f ()) (data := (none, none)) twoCells_measure
  refine ⟨M, hM, fun c x => by simp [fnOn, twoCells], ?_, ?_⟩
  · norm_num [mean, volume, integral, allCells, twoCells, List.range_succ]
  · rw [h]
    norm_num [integral, allCells, twoCells, List.range_succ, fnOn]

example : ∃ M, meanMat twoCells (fun _ f => f ()) 1 (some (fun _ => 1 / 2), none) = .ok M ∧
    ∀ u, M.act u 0 = (u 0 + u 1) / 2 := by
  obtain ⟨M, hM, h⟩ := mean_weighted_partial twoCells_wf (int := fun _ f => f ()) (measure := none) twoCells_measure
  have hv : volume (allCells twoCells (fun _ f => f ())) = 2 := by
    norm_num [volume, integral, allCells, twoCells, List.range_succ]
  simp only [Option.getD_none, hv] at hM h
  refine ⟨M, hM, fun u => ?_⟩
  rw [h u, mean, hv]
  norm_num [integral, allCells, twoCells, List.range_succ, fnOn]

example : HasConstants twoCells := ⟨fun _ => 1, fun c x => by simp [fnOn, twoCells]⟩

end Verif.Mean
