import Verif.Lemmas.MatFree
/-! # Columns computed with any work vector -/
namespace Verif.MatFree
open Verif Matrix

variable {K : Type} [CommRing K] {m n : Nat}

theorem femColumns_pairwise (op : (Fin n → K) → (Fin m → K)) : ∀ (l : List (Fin n)) (x : Fin n → K),
    l.Pairwise (· < ·) → femColumns (fun x => .ok (op x)) l x =
      .ok (l.map (fun i => op (fun j => if j = i then 1 else if j ∈ l ∧ j < i then 0 else x j)))
  | [], _, _ => rfl
  | i :: l, x, h => by
      obtain ⟨h1, h2⟩ := List.pairwise_cons.1 h
      rw [femColumns]
      simp only [py_bind_ok]
      rw [femColumns_pairwise op l _ h2]
      simp only [py_bind_ok, List.map_cons]
      congr 2
      · congr 1
        funext j
        by_cases hj : j = i
        · subst hj; simp
        · have : ¬ (j ∈ i :: l ∧ j < i) := by
            rintro ⟨hm, hlt⟩
            rcases List.mem_cons.1 hm with rfl | hm
            · exact hj rfl
            · exact absurd (h1 j hm) (not_lt.2 hlt.le)
          rw [Function.update_of_ne hj, if_neg hj, if_neg this]
      · refine List.map_congr_left (fun i' hi' => ?_)
        congr 1
        funext j
        by_cases hj : j = i'
        · simp [hj]
        · rw [if_neg hj, if_neg hj]
          by_cases hji : j = i
          · subst hji
            rw [if_pos (c := j ∈ j :: l ∧ j < i') ⟨by simp, h1 i' hi'⟩]
            split
            · rfl
            · simp
          · rw [Function.update_of_ne hji, Function.update_of_ne hji]
            simp [hji]

end Verif.MatFree
