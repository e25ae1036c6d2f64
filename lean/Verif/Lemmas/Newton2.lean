import Verif.Lemmas.Newton
import Verif.Lemmas.Workflow
/-! # Coefficient vectors in Newton's method -/
namespace Verif.Newton
open Verif Ufl BlockOps BlockForm Collapse IIFunction Workflow Reduced ListUtils Program Jacobian Finset

section Heaps

theorem update_spec : ∀ (ps : List (Fn × Fn)) (h h' : Heap ℝ), (ps.map (fun p => p.1.addr)).Nodup →
    (∀ p ∈ ps, ∀ q ∈ ps, p.1.addr ≠ q.2.addr) → update ps h = .ok h' →
    (∀ p ∈ ps, (h.vec p.1.addr).length = (h.vec p.2.addr).length ∧
      h'.vec p.1.addr = List.zipWith (fun a b => a + (-1) * b) (h.vec p.1.addr) (h.vec p.2.addr)) ∧
    ∀ a, (∀ p ∈ ps, p.1.addr ≠ a) → h'.vec a = h.vec a
  | [], h, h', _, _, hok => by
      rw [update] at hok
      injection hok with hok
      subst hok
      simp
  | (u, d) :: rest, h, h', hnd, hdis, hok => by
      rw [update] at hok
      split at hok
      · rename_i hlen
        simp only [List.map_cons, List.nodup_cons, List.mem_map, not_exists, not_and] at hnd
        obtain ⟨h1, h2⟩ := update_spec rest _ h' hnd.2
          (fun p hp q hq => hdis p (List.mem_cons_of_mem _ hp) q (List.mem_cons_of_mem _ hq)) hok
        have hp1 : ∀ p ∈ rest, p.1.addr ≠ u.addr := fun p hp => hnd.1 p hp
        have hp2 : ∀ p ∈ rest, p.2.addr ≠ u.addr := fun p hp =>
          (hdis (u, d) (by simp) p (List.mem_cons_of_mem _ hp)).symm
        refine ⟨?_, ?_⟩
        · intro p hp
          rcases List.mem_cons.1 hp with rfl | hp
          · refine ⟨hlen, ?_⟩
            rw [h2 u.addr hp1, put_same]
          · have := h1 p hp
            rwa [put_other _ (hp1 p hp), put_other _ (hp2 p hp)] at this
        · intro a ha
          rw [h2 a (fun p hp => ha p (List.mem_cons_of_mem _ hp)), put_other _ (ha (u, d) (by simp)).symm]
      · cases hok

theorem update_returns : ∀ (ps : List (Fn × Fn)) (h : Heap ℝ), (ps.map (fun p => p.1.addr)).Nodup →
    (∀ p ∈ ps, ∀ q ∈ ps, p.1.addr ≠ q.2.addr) →
    (∀ p ∈ ps, (h.vec p.1.addr).length = (h.vec p.2.addr).length) → ∃ h', update ps h = .ok h'
  | [], h, _, _, _ => ⟨h, rfl⟩
  | (u, d) :: rest, h, hnd, hdis, hlen => by
      rw [update, if_pos (hlen (u, d) (by simp))]
      simp only [List.map_cons, List.nodup_cons, List.mem_map, not_exists, not_and] at hnd
      refine update_returns rest _ hnd.2
        (fun p hp q hq => hdis p (List.mem_cons_of_mem _ hp) q (List.mem_cons_of_mem _ hq)) (fun p hp => ?_)
      rw [put_other _ (hnd.1 p hp), put_other _ (hdis (u, d) (by simp) p (List.mem_cons_of_mem _ hp)).symm]
      exact hlen p (List.mem_cons_of_mem _ hp)

theorem l2_sq (x : List ℝ) : l2 x ^ 2 = (x.map (fun c => c ^ 2)).sum := by
  rw [l2, Real.sq_sqrt]
  refine List.sum_nonneg (fun c hc => ?_)
  obtain ⟨d, _, rfl⟩ := List.mem_map.1 hc
  positivity

theorem zip_diff : ∀ (x y : List ℝ), x.length = y.length →
    (List.zipWith (fun a b => (b - a) ^ 2) x (List.zipWith (fun a b => a + (-1) * b) x y)) = y.map (fun c => c ^ 2)
  | [], [], _ => rfl
  | a :: x, b :: y, h => by
      simp only [List.zipWith_cons_cons, List.map_cons, List.cons.injEq]
      exact ⟨by ring, zip_diff x y (by simpa using h)⟩

/-- The size of the update is the distance of the new coefficients from the old ones. -/
theorem size_change : ∀ (xs ys zs : List (List ℝ)), List.Forall₂ (fun x y => x.length = y.length) xs ys →
    zs = List.zipWith (fun x y => List.zipWith (fun a b => a + (-1) * b) x y) xs ys → size ys = change xs zs := by
  intro xs ys zs h hz
  subst hz
  rw [size, change]
  congr 2
  induction h with
  | nil => rfl
  | cons h1 _ ih =>
      simp only [List.map_cons, List.zipWith_cons_cons]
      rw [ih, l2_sq, zip_diff _ _ h1]

variable {W : Type} [NormedAddCommGroup W] [NormedSpace ℝ W]

/-- The function with coefficients `x`. -/
noncomputable def lin (φ : Nat → W) (x : List ℝ) : W := ∑ d ∈ range x.length, fnOf x d • φ d

theorem lin_sub (φ : Nat → W) (x y : List ℝ) (h : x.length = y.length) :
    lin φ (List.zipWith (fun a b => a + (-1) * b) x y) = lin φ x - lin φ y := by
  unfold lin
  rw [← h, ← Finset.sum_sub_distrib, List.length_zipWith, ← h, Nat.min_self]
  refine Finset.sum_congr rfl (fun d hd => ?_)
  have hd := Finset.mem_range.1 hd
  have hd' : d < y.length := by omega
  simp only [fnOf, List.getD_eq_getElem?_getD, List.getElem?_zipWith, List.getElem?_eq_getElem hd,
    List.getElem?_eq_getElem hd', Option.getD_some]
  rw [← sub_smul]
  congr 1
  ring

theorem sum_single (up : List Fn) (hu : Unshared up) (δ : Nat → W) (hδ : ∀ a, (∀ y ∈ up, y.addr ≠ a) → δ a = 0) :
    (up.map (fun y => (Pi.single y.addr (δ y.addr) : Nat → W))).sum = δ := by
  induction up generalizing δ with
  | nil => funext a; simp [hδ a (by simp)]
  | cons y up ih =>
      simp only [Unshared, List.map_cons, List.nodup_cons, List.mem_map, not_exists, not_and] at hu
      have hne : ∀ z ∈ up, z.addr ≠ y.addr := fun z hz => hu.1 z hz
      have hsame : up.map (fun z => (Pi.single z.addr (δ z.addr) : Nat → W)) =
          up.map (fun z => (Pi.single z.addr (Function.update δ y.addr 0 z.addr) : Nat → W)) := by
        refine List.map_congr_left (fun z hz => ?_)
        rw [Function.update_of_ne (hne z hz)]
      rw [List.map_cons, List.sum_cons, hsame, ih hu.2 (Function.update δ y.addr 0)]
      · funext a
        by_cases ha : a = y.addr
        · subst ha; simp
        · simp [ha]
      · intro a ha
        by_cases hay : a = y.addr
        · subst hay; simp
        · rw [Function.update_of_ne hay]
          refine hδ a (fun z hz => ?_)
          rcases List.mem_cons.1 hz with rfl | hz
          · exact Ne.symm hay
          · exact ha z hz

end Heaps
end Verif.Newton
