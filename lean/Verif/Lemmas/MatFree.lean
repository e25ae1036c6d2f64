import Verif.Model.MatFree
import Verif.Lemmas.BlockOps
/-! # Lemmas about matrix-free operators -/
namespace Verif.MatFree
open Verif

variable {K : Type} [CommRing K] {m n : Nat}

theorem femColumns_zero (L : (Fin n → K) →ₗ[K] (Fin m → K)) : ∀ (is : List (Fin n)),
    femColumns (fun x => .ok (L x)) is 0 = .ok (is.map (fun i => L (Pi.single i 1)))
  | [] => rfl
  | i :: is => by
      have e : Function.update (Function.update (0 : Fin n → K) i 1) i 0 = 0 := by
        simp
      rw [femColumns, py_bind_ok, e, femColumns_zero L is]
      rfl

theorem basisColumns_zero (L : (Fin n → K) →ₗ[K] (Fin m → K)) : ∀ (is : List (Fin n)),
    basisColumns (fun x => .ok (L x)) is (fun _ => 0) = .ok (is.map (fun i => L (Pi.single i 1)))
  | [] => rfl
  | i :: is => by
      have e : (fun j => Function.update (fun _ => (0 : K)) i 1 j * 0) = fun _ : Fin n => 0 := by
        funext j; simp
      rw [basisColumns, py_bind_ok, e, basisColumns_zero L is]
      rfl

theorem stackT_columns (hn : 0 < n) (L : (Fin n → K) →ₗ[K] (Fin m → K)) :
    stackT ((List.finRange n).map (fun i => L (Pi.single i 1))) =
      .ok (LinearMap.toMatrix' L) := by
  have hne : (List.finRange n).map (fun i => L (Pi.single i 1)) ≠ [] := by
    intro h
    have := congrArg List.length h
    simp at this; omega
  rw [stackT, if_neg hne]
  congr 1
  ext i j
  rw [LinearMap.toMatrix'_apply]
  simp

end Verif.MatFree
