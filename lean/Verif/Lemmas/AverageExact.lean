import Verif.Props.Average
import Verif.Spec.AverageExact
/-! # Lemmas on weights of points -/
namespace Verif.Average
open Verif Verif.BlockOps Verif.DofMat Verif.Trace Finset
variable {K P : Type} [Field K]

theorem weightOf_split (limit : Nat) (collide : P → Nat) : ∀ (pts : List P) (ws : List K), pts.length = ws.length →
    weightOf (fun p => collide p < limit) pts ws + weightOf (fun p => limit ≤ collide p) pts ws = ws.sum
  | [], [], _ => by simp [weightOf]
  | [], _ :: _, h => by simp at h
  | _ :: _, [], h => by simp at h
  | p :: pts, w :: ws, h => by
      have ih := weightOf_split limit collide pts ws (by simpa using h)
      simp only [weightOf, List.zip_cons_cons, List.filter_cons, List.sum_cons] at ih ⊢
      rw [← ih]
      by_cases hp : collide p < limit
      · have : ¬ limit ≤ collide p := by omega
        simp [hp, this, add_assoc]
      · have : limit ≤ collide p := by omega
        simp [hp, this]; ring

theorem quadSum_constant (limit : Nat) (collide : P → Nat) (f : P → K) (c : K) :
    ∀ (pts : List P) (ws : List K), (∀ p ∈ pts, collide p < limit → f p = c) →
    quadSum (zeroOutside limit collide f) pts ws = c * weightOf (fun p => collide p < limit) pts ws
  | [], _, _ => by simp [quadSum, weightOf]
  | _ :: _, [], _ => by simp [quadSum, weightOf]
  | p :: pts, w :: ws, h => by
      have ih := quadSum_constant limit collide f c pts ws (fun q hq => h q (by simp [hq]))
      simp only [quadSum, weightOf, List.zip_cons_cons, List.filter_cons, List.map_cons, List.sum_cons] at ih ⊢
      rw [ih]
      by_cases hp : collide p < limit
      · simp [hp, zeroOutside, h p (by simp) hp]; ring
      · simp [hp, zeroOutside]

end Verif.Average
