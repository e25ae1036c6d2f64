import Verif.Lemmas.MatFreeExact
import Verif.Spec.MatFreeExact
/-!
# C97: `FESpaceOperator.collapse` for any contents of the work vector
-/
namespace Verif.MatFree
open Verif Matrix

variable {K : Type} [CommRing K] {m n : Nat}

/-- **C97**.  For every linear operator and every content `x0` of the vector returned by `create_vec`: column `i`
of the matrix is the operator applied to the vector which is zero before `i`, one at `i` and `x0` after `i`; the
matrix has the action of the operator exactly if `x0 j` times the image of the `j`-th unit vector is zero
for all `j` except the first. -/
theorem femCollapse_any (hn : 0 < n) (op : Op K m n) (L : (Fin n → K) →ₗ[K] (Fin m → K))
    (h : ∀ x, op x = .ok (L x)) (x0 : Fin n → K) :
    ∃ A, (FemOp.mk op none).calls [x0] = .ok [A] ∧ (∀ i, A *ᵥ Pi.single i 1 = L (probe x0 i)) ∧
      ((∀ x, .ok (A *ᵥ x) = op x) ↔ ∀ j : Fin n, 0 < j.val → x0 j • L (Pi.single j 1) = 0) := by
  obtain rfl : op = fun x => .ok (L x) := funext h
  have e : femColumns (fun x => .ok (L x)) (List.finRange n) x0 = .ok ((List.finRange n).map (fun i => L (probe x0 i))) := by
    rw [femColumns_pairwise L _ _ (List.pairwise_lt_finRange n)]
    congr 2
    funext i
    congr 1
    funext j
    simp [probe]
  have hne : (List.finRange n).map (fun i => L (probe x0 i)) ≠ [] := by
    intro hc
    have := congrArg List.length hc
    simp at this; omega
  let A : Matrix (Fin m) (Fin n) K := fun i j => L (probe x0 j) i
  have hA : stackT (n := n) ((List.finRange n).map (fun i => L (probe x0 i))) = .ok A := by
    rw [stackT, if_neg hne]
    congr 1
    funext i j
    simp [A]
  have hcol : ∀ i, A *ᵥ Pi.single i 1 = L (probe x0 i) := by
    intro i
    rw [Matrix.mulVec_single_one]
    rfl
  refine ⟨A, ?_, hcol, ?_⟩
  · rw [FemOp.calls, FemOp.collapse]
    simp only [e, py_bind_ok, hA, FemOp.calls]
  · -- differences of consecutive columns
    have hprobe : ∀ i : Fin n, probe x0 i = Pi.single i 1 + ∑ j, (if i < j then x0 j else 0) • Pi.single j (1 : K) := by
      intro i
      funext k
      rw [Pi.add_apply, Finset.sum_apply]
      rw [Finset.sum_eq_single k (fun b _ hb => by simp [Pi.single_eq_of_ne (Ne.symm hb)]) (by simp)]
      simp only [probe, Pi.smul_apply, Pi.single_eq_same, smul_eq_mul, mul_one]
      by_cases h1 : k = i
      · subst h1; simp
      · rw [if_neg h1, Pi.single_eq_of_ne h1, zero_add]
        by_cases h2 : k < i
        · rw [if_pos h2, if_neg (not_lt.2 h2.le)]
        · rw [if_neg h2, if_pos (lt_of_le_of_ne (not_lt.1 h2) (Ne.symm h1))]
    have hL : ∀ i, L (probe x0 i) = L (Pi.single i 1) + ∑ j, if i < j then x0 j • L (Pi.single j 1) else 0 := by
      intro i
      rw [hprobe, map_add, map_sum]
      congr 1
      refine Finset.sum_congr rfl (fun j _ => ?_)
      split <;> simp
    constructor
    · intro hx j hj
      have hz : ∀ i, (∑ j, if i < j then x0 j • L (Pi.single j 1) else 0) = 0 := by
        intro i
        have := Except.ok.inj (hx (Pi.single i 1))
        rw [hcol, hL] at this
        simpa using this
      have h1 := hz j
      have h2 := hz ⟨j.val - 1, by omega⟩
      have : (∑ k, if (⟨j.val - 1, by omega⟩ : Fin n) < k then x0 k • L (Pi.single k 1) else 0) =
          x0 j • L (Pi.single j 1) + ∑ k, if j < k then x0 k • L (Pi.single k 1) else 0 := by
        rw [← Finset.add_sum_erase Finset.univ _ (Finset.mem_univ j),
          ← Finset.add_sum_erase Finset.univ (fun k => if j < k then x0 k • L (Pi.single k 1) else 0) (Finset.mem_univ j)]
        rw [if_pos (show (⟨j.val - 1, by omega⟩ : Fin n) < j from by rw [Fin.lt_def]; simp; omega),
          if_neg (lt_irrefl j), zero_add]
        congr 1
        refine Finset.sum_congr rfl (fun k hk => ?_)
        have hkj : k.val ≠ j.val := fun hc => (Finset.mem_erase.1 hk).1 (Fin.ext hc)
        congr 1
        rw [Fin.lt_def, Fin.lt_def, eq_iff_iff]
        simp only
        omega
      rw [this, h1, add_zero] at h2
      exact h2
    · intro hx x
      congr 1
      have hz : ∀ i, L (probe x0 i) = L (Pi.single i 1) := by
        intro i
        rw [hL, Finset.sum_eq_zero, add_zero]
        intro j _
        split
        · rename_i hij
          exact hx j (by have := Fin.lt_def.1 hij; omega)
        · rfl
      have : A = LinearMap.toMatrix' L := by
        ext i j
        rw [LinearMap.toMatrix'_apply]
        show L (probe x0 j) i = _
        rw [hz j]
      rw [this, LinearMap.toMatrix'_mulVec]

/-- The operator `(x, y) ↦ x` does not see the second entry: any work vector will do. -/
example : ∃ A, (FemOp.mk (fun x : Fin 2 → ℤ => (.ok (fun _ : Fin 1 => x 0) : Py (Fin 1 → ℤ))) none).calls [![7, 5]] = .ok [A] ∧
    ∀ x, .ok (A *ᵥ x) = (.ok (fun _ : Fin 1 => x 0) : Py (Fin 1 → ℤ)) := by
  obtain ⟨A, h1, _, h2⟩ := femCollapse_any (by decide) (fun x : Fin 2 → ℤ => .ok (fun _ : Fin 1 => x 0))
    (LinearMap.funLeft ℤ ℤ (fun _ => 0)) (fun _ => rfl) ![7, 5]
  refine ⟨A, h1, h2.2 (fun j hj => ?_)⟩
  obtain rfl : j = 1 := by omega
  funext k
  simp [LinearMap.funLeft]

end Verif.MatFree
