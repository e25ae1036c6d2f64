import Verif.Lemmas.RefineTotal
/-!
# C81: refinement by inner points gives conforming meshes
-/
namespace Verif.Refine
open Verif Verif.BlockOps
variable {K E : Type} [Field K] [LinearOrder K] [IsStrictOrderedRing K] [AddCommGroup E] [Module K E]

/-- If the mesh is conforming and new points are inside of their cells then the mesh refined any number of times is
    conforming. -/
theorem refine_conforming {area : List E → K} {newPts : List E → List (List Nat) → List E}
    {hmin : List E → List (List Nat) → K} {strict : K} {tdim n : Nat} {M F : RMesh E} {nrefs : Int} (hM : M.OK n)
    (hC : M.Conforming K) (hp : Inner K newPts n) (h : innerPointRefine area newPts hmin strict tdim n M nrefs = .ok F) :
    F.Conforming K := by
  unfold innerPointRefine at h
  rw [py_bind_eq_ok] at h
  obtain ⟨M0, h0, h⟩ := h
  obtain ⟨x, hs, hx, -⟩ := istep hM hp h0
  obtain ⟨y, hs', -⟩ := step hM hp h0
  have h1 := hs.conforming hM hx hC
  split at h
  · exact refineMore_conforming hp _ hs'.ok h1 h
  · injection h with h
    rw [← h]
    exact h1

/-- C81.  `centroid_refine` of a conforming mesh is conforming. -/
theorem centroid_refine_conforming {area : List E → K} {hmin : List E → List (List Nat) → K} {strict : K} {tdim n : Nat}
    {M F : RMesh E} {nrefs : Int} (hM : M.OK n) (hC : M.Conforming K)
    (h : innerPointRefine area (centroids K) hmin strict tdim n M nrefs = .ok F) : F.Conforming K := by
  have hn : 0 < n := by
    have h' := h
    unfold innerPointRefine at h'
    rw [py_bind_eq_ok] at h'
    obtain ⟨M0, h0, -⟩ := h'
    have := (refineOnce_eq_ok h0).1
    omega
  exact refine_conforming hM hC (centroids_inner hn) h

/-- C81.  It succeeds for intervals, triangles and tetrahedra unless cells get as small as `1E-15`. -/
theorem centroid_refine_total {area : List E → K} {hmin : List E → List (List Nat) → K} {strict : K} {tdim n : Nat}
    {M : RMesh E} {nrefs : Int} (ha : Barycentric K area n) (hn : n = 2 ∨ n = 3 ∨ n = 4 ∧ tdim = 3) (hM : M.OK n)
    (hh : ∀ x cells, 0 < hmin x cells) (hA : ∀ c l, IsCell M c l → (n : K) ^ levels nrefs / 10 ^ 15 < area l) :
    ∃ F, innerPointRefine area (centroids K) hmin strict tdim n M nrefs = .ok F := by
  have hn0 : 0 < n := by omega
  have hn' : (0 : K) < (n : K) := Nat.cast_pos.2 hn0
  have hn1 : (1 : K) ≤ (n : K) := by exact_mod_cast hn0
  obtain ⟨m, hm⟩ : ∃ m, levels nrefs = m + 1 := by
    unfold levels
    split
    · exact ⟨nrefs.toNat - 1, by omega⟩
    · exact ⟨0, rfl⟩
  rw [hm] at hA
  obtain ⟨M0, h0, har⟩ := refineOnce_total (strict := strict) (tdim := tdim) ha hn hM (hh M.coords M.cells) (by
    intro c l hl
    refine lt_of_le_of_lt ?_ (hA c l hl)
    apply div_le_div_of_nonneg_right _ (by positivity)
    rw [pow_succ]
    exact le_mul_of_one_le_left hn'.le (one_le_pow₀ hn1))
  have hin := centroids_inner (K := K) (E := E) hn0
  obtain ⟨x, hs, hx⟩ := step hM hin h0
  have l0 : Level (K := K) M M0 n 1 := by
    refine ⟨hs.ok, hs.pos, hs.tiles hM hx, hs.coords, hs.vmap, by rw [hs.ncells, pow_one], ?_⟩
    intro i hi
    rw [hs.ncells] at hi
    rw [hs.cmap, childToParent_get, if_pos hi, pow_one]
  unfold innerPointRefine
  rw [h0]
  simp only [py_bind_ok]
  by_cases hr : 1 < nrefs
  · have e : M0.vmap.map (fun p => p.1) = List.range M.coords.length ∧
        M0.vmap.map (fun p => p.2) = List.range M.coords.length := by
      rw [hs.vmap]
      simp [List.map_map, Function.comp_def]
    rw [if_pos hr, e.1, e.2]
    refine refineMore_total ha hn hh _ l0 ?_
    have em : (nrefs - 1).toNat = m := by
      unfold levels at hm
      rw [if_pos hr] at hm
      omega
    rw [em]
    intro i l' hl'
    obtain ⟨c, l, hcl, hal⟩ := har i l' hl'
    have := hA c l hcl
    rw [pow_succ (n : K) m] at this
    rw [hal, one_div, inv_mul_eq_div, lt_div_iff₀ hn', div_mul_eq_mul_div]
    exact this
  · rw [if_neg hr]
    exact ⟨M0, rfl⟩

/-- The bound is sharp: if some cell is too small for one refinement then the call fails. -/
theorem centroid_refine_small {area : List E → K} {hmin : List E → List (List Nat) → K} {strict : K} {tdim n : Nat}
    {M : RMesh E} {nrefs : Int} (ha : Barycentric K area n) (hM : M.OK n) {c : Nat} {l : List E} (hl : IsCell M c l)
    (hA : area l ≤ (n : K) / 10 ^ 15) :
    ¬ ∃ F, innerPointRefine area (centroids K) hmin strict tdim n M nrefs = .ok F := by
  rintro ⟨F, h⟩
  unfold innerPointRefine at h
  rw [py_bind_eq_ok] at h
  obtain ⟨M0, h0, -⟩ := h
  obtain ⟨hn, hco, -, -, hch⟩ := refineOnce_eq_ok h0
  have hn0 : 0 < n := by omega
  have hn' : (0 : K) < (n : K) := Nat.cast_pos.2 hn0
  obtain ⟨-, hcell⟩ := children_eq_ok hch
  obtain ⟨cell, hc, hf⟩ := id hl
  obtain ⟨-, l', hl', hbig⟩ := hcell c cell hc 0 hn0
  have e : l' = l.eraseIdx (n - 1 - 0) ++ [(1 / (n : K)) • l.sum] := by
    refine forall₂_unique hl' (List.rel_append ?_ (.cons ?_ .nil))
    · refine (forall₂_eraseIdx hf _).imp (fun v p h => ?_)
      rw [hco, List.getElem?_append_left (List.getElem?_eq_some_iff.1 h).1]
      exact h
    · rw [hco, List.getElem?_append_right (by omega), Nat.add_sub_cancel_left]
      exact centroids_get hM hl
  rw [e, centroid_area ha hn0 (isCell_length hM hl) (by omega), one_div, one_div, inv_mul_eq_div, lt_div_iff₀ hn',
    inv_mul_eq_div] at hbig
  exact absurd hbig (not_lt.2 hA)

/-! ## Cells of curves and surfaces -/

/-- Lengths in any dimension. -/
theorem segArea_barycentric {norm : E → K} (hN : ∀ (a : K) x, norm (a • x) = |a| * norm x) :
    Barycentric K (segArea norm) 2 := by
  have hneg : ∀ x, norm (-x) = norm x := by
    intro x
    have := hN (-1) x
    rwa [abs_neg, abs_one, one_mul, neg_one_smul] at this
  constructor
  · intro l w hl hw hs i a hi
    obtain ⟨p, q, rfl⟩ : ∃ p q, l = [p, q] := List.length_eq_two.1 hl
    obtain ⟨u, v, rfl⟩ : ∃ p q, w = [p, q] := List.length_eq_two.1 hw
    have hlt : i < 2 := by have := (List.getElem?_eq_some_iff.1 hi).1; simpa using this
    have hs' : u = 1 - v := by simp at hs; linear_combination hs
    interval_cases i
    · obtain rfl : u = a := by simpa using hi
      simp only [comb, List.zipWith_cons_cons, List.zipWith_nil_left, List.sum_cons, List.sum_nil, List.eraseIdx_cons_zero,
        List.cons_append, List.nil_append, segArea]
      rw [← hN, ← hneg]
      congr 1
      rw [hs']; module
    · obtain rfl : v = a := by simpa using hi
      simp only [comb, List.zipWith_cons_cons, List.zipWith_nil_left, List.sum_cons, List.sum_nil, List.eraseIdx_cons_zero,
        List.eraseIdx_cons_succ, List.cons_append, List.nil_append, segArea]
      rw [← hN]
      congr 1
      rw [hs']; module
  · intro l x i hl hi
    obtain ⟨p, q, rfl⟩ : ∃ p q, l = [p, q] := List.length_eq_two.1 hl
    interval_cases i <;>
    · simp only [List.eraseIdx_cons_zero, List.eraseIdx_cons_succ, List.cons_append, List.nil_append, segArea]
      rw [← hneg, neg_sub]

/-- Areas of triangles in the space. -/
theorem surfArea_barycentric {norm : K × K × K → K} (hN : ∀ (a : K) x, norm (a • x) = |a| * norm x) :
    Barycentric K (surfArea norm) 3 := by
  have hneg : ∀ x, norm (-x) = norm x := by
    intro x
    have := hN (-1) x
    rwa [abs_neg, abs_one, one_mul, neg_one_smul] at this
  have pos : ∀ {a : K} {x y : K × K × K}, x = a • y → norm x / 2 = |a| * (norm y / 2) := by
    intro a x y h
    rw [h, hN, mul_div_assoc]
  have neg : ∀ {a : K} {x y : K × K × K}, x = -(a • y) → norm x / 2 = |a| * (norm y / 2) := by
    intro a x y h
    rw [h, hneg, hN, mul_div_assoc]
  constructor
  · intro l w hl hw hs i a hi
    obtain ⟨p, q, r, rfl⟩ : ∃ p q r, l = [p, q, r] := List.length_eq_three.1 hl
    obtain ⟨u, v, t, rfl⟩ : ∃ p q r, w = [p, q, r] := List.length_eq_three.1 hw
    have hlt : i < 3 := by have := (List.getElem?_eq_some_iff.1 hi).1; simpa using this
    have hs' : u = 1 - v - t := by simp at hs; linear_combination hs
    interval_cases i
    · obtain rfl : u = a := by simpa using hi
      simp only [comb, List.zipWith_cons_cons, List.zipWith_nil_left, List.sum_cons, List.sum_nil, List.eraseIdx_cons_zero,
        List.cons_append, List.nil_append, surfArea]
      apply pos
      simp only [cross, Prod.ext_iff, Prod.fst_add, Prod.snd_add, Prod.smul_fst, Prod.smul_snd, smul_eq_mul, Prod.fst_zero,
        Prod.snd_zero, Prod.fst_sub, Prod.snd_sub]
      rw [hs']
      refine ⟨?_, ?_, ?_⟩ <;> ring
    · obtain rfl : v = a := by simpa using hi
      simp only [comb, List.zipWith_cons_cons, List.zipWith_nil_left, List.sum_cons, List.sum_nil, List.eraseIdx_cons_zero,
        List.eraseIdx_cons_succ, List.cons_append, List.nil_append, surfArea]
      apply neg
      simp only [cross, Prod.ext_iff, Prod.fst_add, Prod.snd_add, Prod.smul_fst, Prod.smul_snd, smul_eq_mul, Prod.fst_zero,
        Prod.snd_zero, Prod.fst_sub, Prod.snd_sub, Prod.fst_neg, Prod.snd_neg]
      rw [hs']
      refine ⟨?_, ?_, ?_⟩ <;> ring
    · obtain rfl : t = a := by simpa using hi
      simp only [comb, List.zipWith_cons_cons, List.zipWith_nil_left, List.sum_cons, List.sum_nil, List.eraseIdx_cons_zero,
        List.eraseIdx_cons_succ, List.cons_append, List.nil_append, surfArea]
      apply pos
      simp only [cross, Prod.ext_iff, Prod.fst_add, Prod.snd_add, Prod.smul_fst, Prod.smul_snd, smul_eq_mul, Prod.fst_zero,
        Prod.snd_zero, Prod.fst_sub, Prod.snd_sub]
      rw [hs']
      refine ⟨?_, ?_, ?_⟩ <;> ring
  · intro l x i hl hi
    obtain ⟨p, q, r, rfl⟩ : ∃ p q r, l = [p, q, r] := List.length_eq_three.1 hl
    interval_cases i <;>
    · simp only [List.eraseIdx_cons_zero, List.eraseIdx_cons_succ, List.cons_append, List.nil_append, surfArea]
      congr 2
      simp only [cross, Prod.ext_iff, Prod.fst_sub, Prod.snd_sub]
      refine ⟨?_, ?_, ?_⟩ <;> ring

/-- A norm. -/
example : ∀ (a : ℚ) (x : ℚ × ℚ × ℚ), max |(a • x).1| (max |(a • x).2.1| |(a • x).2.2|) = |a| * max |x.1| (max |x.2.1| |x.2.2|) := by
  intro a x
  simp only [Prod.smul_fst, Prod.smul_snd, smul_eq_mul, abs_mul, mul_max_of_nonneg _ _ (abs_nonneg a)]

/-! ## The square -/

theorem square_conforming : square.Conforming ℚ := by
  have c0 : ∀ p (w : Nat → ℚ), square.Coords 0 p w → (∀ v, 0 ≤ w v) ∧ (∀ v, v ∉ [0, 1, 2] → w v = 0) ∧
      w 0 + w 1 + w 2 = 1 ∧ p = (w 1 + w 2, w 2) := by
    intro p w h
    obtain ⟨h1, h2, h3, h4⟩ := (Coords_iff (cell := [0, 1, 2]) rfl (by simp [square])).1 h
    refine ⟨h1, h2, by simpa [add_assoc] using h3, ?_⟩
    rw [← h4]
    simp [square]
  have c1 : ∀ p (w : Nat → ℚ), square.Coords 1 p w → (∀ v, 0 ≤ w v) ∧ (∀ v, v ∉ [0, 2, 3] → w v = 0) ∧
      w 0 + w 2 + w 3 = 1 ∧ p = (w 2, w 2 + w 3) := by
    intro p w h
    obtain ⟨h1, h2, h3, h4⟩ := (Coords_iff (cell := [0, 2, 3]) rfl (by simp [square])).1 h
    refine ⟨h1, h2, by simpa [add_assoc] using h3, ?_⟩
    rw [← h4]
    simp [square]
  have fin : ∀ {w w' : Nat → ℚ}, (∀ v, 4 ≤ v → w v = 0) → (∀ v, 4 ≤ v → w' v = 0) → w 0 = w' 0 → w 1 = w' 1 → w 2 = w' 2 →
      w 3 = w' 3 → w = w' := by
    intro w w' h h' e0 e1 e2 e3
    funext v
    rcases Nat.lt_or_ge v 4 with hv | hv
    · interval_cases v <;> assumption
    · rw [h v hv, h' v hv]
  have z0 : ∀ {w : Nat → ℚ}, (∀ v, v ∉ [0, 1, 2] → w v = 0) → (∀ v, 4 ≤ v → w v = 0) ∧ w 3 = 0 := by
    intro w h
    refine ⟨fun v hv => h v ?_, h 3 (by simp)⟩
    simp only [List.mem_cons, List.not_mem_nil, or_false]
    omega
  have z1 : ∀ {w : Nat → ℚ}, (∀ v, v ∉ [0, 2, 3] → w v = 0) → (∀ v, 4 ≤ v → w v = 0) ∧ w 1 = 0 := by
    intro w h
    refine ⟨fun v hv => h v ?_, h 1 (by simp)⟩
    simp only [List.mem_cons, List.not_mem_nil, or_false]
    omega
  have lt : ∀ {c p} {w : Nat → ℚ}, square.Coords c p w → c = 0 ∨ c = 1 := by
    rintro c p w ⟨cell, l, h, -⟩
    have := (List.getElem?_eq_some_iff.1 h).1
    simp [square] at this
    omega
  have mixed : ∀ {p} {w w' : Nat → ℚ}, square.Coords 0 p w → square.Coords 1 p w' → w = w' := by
    intro p w w' h h'
    obtain ⟨h1, h2, h3, h4⟩ := c0 p w h
    obtain ⟨h1', h2', h3', h4'⟩ := c1 p w' h'
    obtain ⟨z, z3⟩ := z0 h2
    obtain ⟨z', z1⟩ := z1 h2'
    rw [h4] at h4'
    simp only [Prod.mk.injEq] at h4'
    have := h1 1
    have := h1' 3
    apply fin z z' <;> linarith [h4'.1, h4'.2]
  apply Inj.conforming
  · intro c c' p w w' h h'
    rcases lt h with rfl | rfl <;> rcases lt h' with rfl | rfl
    · obtain ⟨h1, h2, h3, h4⟩ := c0 p w h
      obtain ⟨h1', h2', h3', h4'⟩ := c0 p w' h'
      obtain ⟨z, z3⟩ := z0 h2
      obtain ⟨z', z3'⟩ := z0 h2'
      rw [h4] at h4'
      simp only [Prod.mk.injEq] at h4'
      apply fin z z' <;> linarith [h4'.1, h4'.2]
    · exact mixed h h'
    · exact (mixed h' h).symm
    · obtain ⟨h1, h2, h3, h4⟩ := c1 p w h
      obtain ⟨h1', h2', h3', h4'⟩ := c1 p w' h'
      obtain ⟨z, z3⟩ := z1 h2
      obtain ⟨z', z3'⟩ := z1 h2'
      rw [h4] at h4'
      simp only [Prod.mk.injEq] at h4'
      apply fin z z' <;> linarith [h4'.1, h4'.2]
  · intro cell hc
    simp only [square, List.mem_cons, List.not_mem_nil, or_false] at hc
    rcases hc with rfl | rfl <;> decide
  · intro c c' cell cell' h h' hp
    have l1 := (List.getElem?_eq_some_iff.1 h).1
    have l2 := (List.getElem?_eq_some_iff.1 h').1
    simp only [square, List.length_cons, List.length_nil] at l1 l2
    have e1 : c = 0 ∨ c = 1 := by omega
    have e2 : c' = 0 ∨ c' = 1 := by omega
    rcases e1 with rfl | rfl <;> rcases e2 with rfl | rfl
    · rfl
    · simp only [square, List.getElem?_cons_zero, List.getElem?_cons_succ, Option.some.injEq] at h h'
      subst h h'
      exact absurd hp (by decide)
    · simp only [square, List.getElem?_cons_zero, List.getElem?_cons_succ, Option.some.injEq] at h h'
      subst h h'
      exact absurd hp (by decide)
    · rfl

theorem square_ok : square.OK 3 := by
  intro c hc
  simp only [square, List.mem_cons, List.not_mem_nil, or_false] at hc
  rcases hc with rfl | rfl <;> exact ⟨rfl, by simp [square]⟩

/-- The square can be refined ten times, the meshes are conforming. -/
example : ∃ F, innerPointRefine triArea (centroids ℚ) (fun _ _ => 1) (1 / 10 ^ 10) 2 3 square 10 = .ok F ∧
    F.Conforming ℚ ∧ Tiles ℚ square F := by
  obtain ⟨F, h⟩ := centroid_refine_total (strict := 1 / 10 ^ 10) (tdim := 2) (nrefs := 10) (hmin := fun _ _ => (1 : ℚ)) triArea_barycentric
    (Or.inr (Or.inl rfl)) square_ok (fun _ _ => one_pos) (by
      rintro c l ⟨cell, hc, hl⟩
      have l1 := (List.getElem?_eq_some_iff.1 hc).1
      simp only [square, List.length_cons, List.length_nil] at l1
      have e1 : c = 0 ∨ c = 1 := by omega
      rcases e1 with rfl | rfl
      · simp only [square, List.getElem?_cons_zero, Option.some.injEq] at hc
        subst hc
        have := forall₂_unique (c := [((0 : ℚ), (0 : ℚ)), (1, 0), (1, 1)]) hl (.cons rfl (.cons rfl (.cons rfl .nil)))
        rw [this, show levels 10 = 10 from rfl]
        norm_num [triArea]
      · simp only [square, List.getElem?_cons_zero, List.getElem?_cons_succ, Option.some.injEq] at hc
        subst hc
        have := forall₂_unique (c := [((0 : ℚ), (0 : ℚ)), (1, 1), (0, 1)]) hl (.cons rfl (.cons rfl (.cons rfl .nil)))
        rw [this, show levels 10 = 10 from rfl]
        norm_num [triArea])
  exact ⟨F, h, centroid_refine_conforming square_ok square_conforming h, centroid_refine_tiles square_ok h⟩

/-- A small triangle is not refined. -/
example : ¬ ∃ F, innerPointRefine triArea (centroids ℚ) (fun _ _ => 1) (1 / 10 ^ 10) 2 3
    (⟨[(0, 0), (1 / 10 ^ 8, 0), (0, 1 / 10 ^ 8)], [[0, 1, 2]], [], []⟩ : RMesh (ℚ × ℚ)) 1 = .ok F := by
  refine centroid_refine_small (c := 0) (l := [((0 : ℚ), (0 : ℚ)), (1 / 10 ^ 8, 0), (0, 1 / 10 ^ 8)]) triArea_barycentric ?_
    ⟨[0, 1, 2], rfl, .cons rfl (.cons rfl (.cons rfl .nil))⟩ (by norm_num [triArea])
  intro c hc
  simp only [List.mem_cons, List.not_mem_nil, or_false] at hc
  subst hc
  exact ⟨rfl, by simp⟩

end Verif.Refine
