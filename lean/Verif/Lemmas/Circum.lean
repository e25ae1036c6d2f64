import Verif.Model.Circum
import Verif.Spec.Circum
import Verif.Spec.Center
import Verif.Lemmas.RefineExact
import Mathlib.Tactic.FieldSimp
import Mathlib.Tactic.LinearCombination
/-!
# Circumcentres of triangles in the plane
-/
namespace Verif.Refine
open Verif Verif.BlockOps Verif.Center Matrix
variable {K : Type} [Field K] [LinearOrder K] [IsStrictOrderedRing K]

/-- Twice the signed area. -/
def det3 (a b c : K × K) : K := (b.1 - a.1) * (c.2 - a.2) - (b.2 - a.2) * (c.1 - a.1)

omit [IsStrictOrderedRing K] in
theorem triArea_eq (a b c : K × K) : triArea [a, b, c] = |det3 a b c / 2| := rfl

theorem det3_ne {a b c : K × K} (h : 0 < triArea [a, b, c]) : det3 a b c ≠ 0 := by
  intro h0
  rw [triArea_eq, h0] at h
  simp at h

omit [LinearOrder K] [IsStrictOrderedRing K] in
theorem comb3 (u v t : K) (a b c : K × K) : comb K [u, v, t] [a, b, c] = u • a + v • b + t • c := by
  simp [comb, add_assoc]

/-- The weights of the circumcentre. -/
theorem triCircumcenter_weights {solve : Solver K 2} (hs : Solves solve) {a b c : K × K} (hD : det3 a b c ≠ 0) :
    ∃ u v t : K, u + v + t = 1 ∧ triCircumcenter solve [a, b, c] = comb K [u, v, t] [a, b, c] ∧
      u * (2 * det3 a b c ^ 2) = corner a b c * sqDist b c ∧ v * (2 * det3 a b c ^ 2) = corner b c a * sqDist c a ∧
      t * (2 * det3 a b c ^ 2) = corner c a b * sqDist a b ∧
      Equidistant a b c (triCircumcenter solve [a, b, c]) := by
  obtain ⟨a1, a2⟩ := a
  obtain ⟨b1, b2⟩ := b
  obtain ⟨c1, c2⟩ := c
  have hdet : (!![(![b1, b2] - ![a1, a2]) ⬝ᵥ (![b1, b2] - ![a1, a2]), (![b1, b2] - ![a1, a2]) ⬝ᵥ (![c1, c2] - ![a1, a2]);
      (![c1, c2] - ![a1, a2]) ⬝ᵥ (![b1, b2] - ![a1, a2]), (![c1, c2] - ![a1, a2]) ⬝ᵥ (![c1, c2] - ![a1, a2])] :
      Matrix (Fin 2) (Fin 2) K).det ≠ 0 := by
    rw [Matrix.det_fin_two_of]
    simp only [dotProduct, Fin.sum_univ_two, Pi.sub_apply, Matrix.cons_val_zero, Matrix.cons_val_one]
    have : det3 (a1, a2) (b1, b2) (c1, c2) ^ 2 ≠ 0 := pow_ne_zero _ hD
    unfold det3 at this
    intro h0
    apply this
    linear_combination h0
  have hsol := hs _ ((1 / 2 : K) • ![(![b1, b2] - ![a1, a2]) ⬝ᵥ (![b1, b2] - ![a1, a2]),
    (![c1, c2] - ![a1, a2]) ⬝ᵥ (![c1, c2] - ![a1, a2])]) hdet
  have hdef : triCircumcenter solve [(a1, a2), (b1, b2), (c1, c2)] =
      (a1 + (solve !![(![b1, b2] - ![a1, a2]) ⬝ᵥ (![b1, b2] - ![a1, a2]), (![b1, b2] - ![a1, a2]) ⬝ᵥ (![c1, c2] - ![a1, a2]);
      (![c1, c2] - ![a1, a2]) ⬝ᵥ (![b1, b2] - ![a1, a2]), (![c1, c2] - ![a1, a2]) ⬝ᵥ (![c1, c2] - ![a1, a2])]
      ((1 / 2 : K) • ![(![b1, b2] - ![a1, a2]) ⬝ᵥ (![b1, b2] - ![a1, a2]),
    (![c1, c2] - ![a1, a2]) ⬝ᵥ (![c1, c2] - ![a1, a2])])) 0 * (b1 - a1) +
       (solve !![(![b1, b2] - ![a1, a2]) ⬝ᵥ (![b1, b2] - ![a1, a2]), (![b1, b2] - ![a1, a2]) ⬝ᵥ (![c1, c2] - ![a1, a2]);
      (![c1, c2] - ![a1, a2]) ⬝ᵥ (![b1, b2] - ![a1, a2]), (![c1, c2] - ![a1, a2]) ⬝ᵥ (![c1, c2] - ![a1, a2])]
      ((1 / 2 : K) • ![(![b1, b2] - ![a1, a2]) ⬝ᵥ (![b1, b2] - ![a1, a2]),
    (![c1, c2] - ![a1, a2]) ⬝ᵥ (![c1, c2] - ![a1, a2])])) 1 * (c1 - a1),
       a2 + (solve !![(![b1, b2] - ![a1, a2]) ⬝ᵥ (![b1, b2] - ![a1, a2]), (![b1, b2] - ![a1, a2]) ⬝ᵥ (![c1, c2] - ![a1, a2]);
      (![c1, c2] - ![a1, a2]) ⬝ᵥ (![b1, b2] - ![a1, a2]), (![c1, c2] - ![a1, a2]) ⬝ᵥ (![c1, c2] - ![a1, a2])]
      ((1 / 2 : K) • ![(![b1, b2] - ![a1, a2]) ⬝ᵥ (![b1, b2] - ![a1, a2]),
    (![c1, c2] - ![a1, a2]) ⬝ᵥ (![c1, c2] - ![a1, a2])])) 0 * (b2 - a2) +
       (solve !![(![b1, b2] - ![a1, a2]) ⬝ᵥ (![b1, b2] - ![a1, a2]), (![b1, b2] - ![a1, a2]) ⬝ᵥ (![c1, c2] - ![a1, a2]);
      (![c1, c2] - ![a1, a2]) ⬝ᵥ (![b1, b2] - ![a1, a2]), (![c1, c2] - ![a1, a2]) ⬝ᵥ (![c1, c2] - ![a1, a2])]
      ((1 / 2 : K) • ![(![b1, b2] - ![a1, a2]) ⬝ᵥ (![b1, b2] - ![a1, a2]),
    (![c1, c2] - ![a1, a2]) ⬝ᵥ (![c1, c2] - ![a1, a2])])) 1 * (c2 - a2)) := rfl
  rw [hdef]
  clear hdef
  generalize solve _ _ = y at hsol ⊢
  have e0 := congrFun hsol 0
  have e1 := congrFun hsol 1
  simp only [Matrix.mulVec, dotProduct, Fin.sum_univ_two, Matrix.of_apply, Pi.sub_apply, Matrix.cons_val_zero, Matrix.cons_val_one,
    Matrix.cons_val', Matrix.cons_val_fin_one, Pi.smul_apply, smul_eq_mul] at e0 e1
  generalize y 0 = p at *
  generalize y 1 = q at *
  clear hsol hdet y
  refine ⟨1 - p - q, p, q, by ring, ?_, ?_, ?_, ?_, ?_⟩
  · rw [comb3]
    simp only [Prod.smul_mk, smul_eq_mul, Prod.mk_add_mk, Prod.mk.injEq]
    constructor <;> ring
  · unfold det3 corner sqDist
    linear_combination (-(2 * ((c1 - a1) * (c1 - a1) + (c2 - a2) * (c2 - a2))) + 2 * ((b1 - a1) * (c1 - a1) + (b2 - a2) * (c2 - a2))) * e0 +
      (2 * ((b1 - a1) * (c1 - a1) + (b2 - a2) * (c2 - a2)) - 2 * ((b1 - a1) * (b1 - a1) + (b2 - a2) * (b2 - a2))) * e1
  · unfold det3 corner sqDist
    linear_combination (2 * ((c1 - a1) * (c1 - a1) + (c2 - a2) * (c2 - a2))) * e0 -
      2 * ((b1 - a1) * (c1 - a1) + (b2 - a2) * (c2 - a2)) * e1
  · unfold det3 corner sqDist
    linear_combination (2 * ((b1 - a1) * (b1 - a1) + (b2 - a2) * (b2 - a2))) * e1 -
      2 * ((b1 - a1) * (c1 - a1) + (b2 - a2) * (c2 - a2)) * e0
  · unfold Equidistant sqDist
    constructor
    · linear_combination 2 * e0
    · linear_combination 2 * e1

/-- A mesh of triangles: cells are triples. -/
theorem isCell_triple {M : RMesh (K × K)} (hM : M.OK 3) {c : Nat} {l : List (K × K)} (hl : IsCell M c l) :
    ∃ p q r, l = [p, q, r] := List.length_eq_three.1 (isCell_length hM hl)

omit [IsStrictOrderedRing K] in
theorem circumcenters_get {solve : Solver K 2} {M : RMesh (K × K)} {c : Nat} {l : List (K × K)} (hl : IsCell M c l) :
    (circumcenters solve M.coords M.cells)[c]? = some (triCircumcenter solve l) := by
  obtain ⟨cell, hc, hf⟩ := hl
  unfold circumcenters
  rw [List.getElem?_map, hc, Option.map_some]
  congr 2
  clear hc
  induction hf with
  | nil => rfl
  | cons h _ ih => rw [List.map_cons, ih, List.getD_eq_getElem?_getD, h]; rfl

omit [IsStrictOrderedRing K] in
theorem circumcenters_length {solve : Solver K 2} (x : List (K × K)) (cells : List (List Nat)) :
    (circumcenters solve x cells).length = cells.length := by
  unfold circumcenters
  rw [List.length_map]

/-- One refinement succeeds exactly if all circumcentres pass. -/
theorem circumcenter_once_iff {solve : Solver K 2} {hmin : List (K × K) → List (List Nat) → K} {strict : K} {M : RMesh (K × K)}
    (hM : M.OK 3) :
    ((∃ F, refineOnce triArea (circumcenters solve) hmin strict 2 3 M = .ok F) ↔
      ∀ c l, IsCell M c l → Passes triArea strict (hmin M.coords M.cells * strict) 3 l (triCircumcenter solve l)) ∧
    ((∃ F, refineOnce triArea (circumcenters solve) hmin strict 2 3 M = .ok F) ∨
      refineOnce triArea (circumcenters solve) hmin strict 2 3 M = .error .assertion) := by
  obtain ⟨h1, h2⟩ := refineOnce_iff (area := triArea) (newPts := circumcenters solve) (hmin := hmin) (strict := strict)
    (tdim := 2) (.inr (.inl rfl)) hM (circumcenters_length _ _)
  refine ⟨h1.trans ⟨fun h c l hl => h c l _ hl (circumcenters_get hl), fun h c l x hl hx => ?_⟩, h2⟩
  rw [circumcenters_get hl] at hx
  injection hx with hx
  rw [← hx]
  exact h c l hl

/-- The steps of one refinement, without the condition that new points are inside. -/
theorem circumcenter_step {solve : Solver K 2} {hmin : List (K × K) → List (List Nat) → K} {strict : K} {M F : RMesh (K × K)}
    (hM : M.OK 3) (h : refineOnce triArea (circumcenters solve) hmin strict 2 3 M = .ok F)
    (hin : ∀ c l, IsCell M c l → OpenHull K l (triCircumcenter solve l)) :
    ∃ x : Nat → K × K, Step M F 3 x ∧ (∀ c l, IsCell M c l → OpenHull K l (x c)) ∧
      ∀ c l, IsCell M c l → x c = triCircumcenter solve l := by
  classical
  let np : List (K × K) → List (List Nat) → List (K × K) := fun x cells =>
    if x = M.coords ∧ cells = M.cells then circumcenters solve x cells else centroids K x cells
  have hnp : np M.coords M.cells = circumcenters solve M.coords M.cells := if_pos ⟨rfl, rfl⟩
  have h' : refineOnce triArea np hmin strict 2 3 M = .ok F := by
    rw [← h]
    unfold refineOnce
    rw [hnp]
  have hp : Inner K np 3 := by
    intro M' hM'
    by_cases e : M'.coords = M.coords ∧ M'.cells = M.cells
    · have e' : np M'.coords M'.cells = circumcenters solve M.coords M.cells := by rw [e.1, e.2, hnp]
      rw [e', circumcenters_length, e.2]
      refine ⟨rfl, ?_⟩
      intro c l x hl hx
      have hl' : IsCell M c l := by
        obtain ⟨cell, hc, hf⟩ := hl
        rw [e.1] at hf
        rw [e.2] at hc
        exact ⟨cell, hc, hf⟩
      rw [circumcenters_get hl'] at hx
      injection hx with hx
      rw [← hx]
      exact hin c l hl'
    · have e' : np M'.coords M'.cells = centroids K M'.coords M'.cells := if_neg e
      rw [e']
      exact centroids_inner (by omega) M' hM'
  obtain ⟨hn, hco, hv, hcm, hch⟩ := refineOnce_eq_ok h'
  obtain ⟨x, hx1, hx2⟩ := step hM hp h'
  refine ⟨x, hx1, hx2, ?_⟩
  intro c l hl
  have hc := hx1.cell c l hl 0 (by omega)
  obtain ⟨cell, hce, hf⟩ := id hl
  obtain ⟨g1, g2⟩ := (children_eq_ok hch).2 c cell hce 0 (by omega)
  obtain ⟨l', hl', -⟩ := g2
  have h1 : IsCell F (c * 3 + 0) l' := ⟨_, g1, hl'⟩
  have h2 := isCell_unique hc h1
  rw [← h2] at hl'
  have h3 := List.forall₂_iff_get.1 hl'
  have hlen : (cell.eraseIdx (3 - 1 - 0)).length = (l.eraseIdx (3 - 1 - 0)).length := (forall₂_eraseIdx hf _).length_eq
  have h4 := h3.2 (cell.eraseIdx (3 - 1 - 0)).length (by simp) (by rw [hlen]; simp)
  rw [List.get_eq_getElem, List.get_eq_getElem, List.getElem_append_right (le_refl _), List.getElem_append_right (le_of_eq hlen.symm)] at h4
  simp only [List.getElem_singleton] at h4
  rw [hco, hnp, List.getElem?_append_right (by omega), Nat.add_sub_cancel_left, circumcenters_get hl] at h4
  injection h4 with h4
  exact h4.symm

end Verif.Refine
