import Verif.Props.BlockForm
/-! # Lemmas on orderings -/
namespace Verif.BlockForm
open Verif Ufl BlockOps
variable {S : Type} [DecidableEq S]

theorem checkOrdering_two {n : Nat} {p : List Int} (h : checkOrdering n p = .ok ()) : 2 ≤ n := by
  rw [checkOrdering] at h
  obtain ⟨step, h1, h⟩ := py_bind_eq_ok.mp h
  obtain ⟨_, h2, h⟩ := py_bind_eq_ok.mp h
  obtain ⟨_, h3, h4⟩ := py_bind_eq_ok.mp h
  have hl : p.length = n := by simpa using pyAssert_eq_ok.1 h3
  by_contra hn
  have hs : (p.mergeSort (· ≤ ·)).length = n := by rw [List.length_mergeSort, hl]
  have hd : diffs (p.mergeSort (· ≤ ·)) = [] := by
    match p.mergeSort (· ≤ ·), hs with
    | [], _ => rfl
    | [_], _ => rfl
    | _ :: _ :: _, hs => simp at hs; omega
  rw [hd] at h1
  cases h1

end Verif.BlockForm
