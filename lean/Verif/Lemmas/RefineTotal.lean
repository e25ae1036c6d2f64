import Verif.Lemmas.RefineConform
import Verif.Lemmas.CenterVec
import Verif.Props.Refine
/-!
# Refinement by centroids does not fail
-/
namespace Verif.Refine
open Verif Verif.BlockOps
variable {K E : Type} [Field K] [LinearOrder K] [IsStrictOrderedRing K] [AddCommGroup E] [Module K E]

omit [AddCommGroup E] in
theorem cellPts_ok {x : List E} {cell : List Nat} {l : List E}
    (h : List.Forall₂ (fun (v : Nat) p => x[v]? = some p) cell l) : cellPts x cell = .ok l := by
  unfold cellPts
  rw [pyMap_eq_ok]
  exact h.imp (fun _ _ h => pyGet_eq_ok.2 h)

omit [IsStrictOrderedRing K] [AddCommGroup E] [Module K E] in
theorem children_ok {area : List E → K} {x : List E} {n : Nat} : ∀ {cells : List (List Nat)} {center : Nat},
    (∀ (c : Nat) cell, cells[c]? = some cell → ∀ i, i < n → ∃ l,
      List.Forall₂ (fun (v : Nat) p => x[v]? = some p) (cell.eraseIdx i ++ [center + c]) l ∧ 1 / 10 ^ 15 < area l) →
    ∃ cs, children area x n center cells = .ok cs
  | [], _, _ => ⟨[], rfl⟩
  | cell :: cells, center, h => by
      have h0 : ∃ cs, pyMap (child area x cell center) (omitted n) = .ok cs ∧ List.Forall₂ (fun _ _ => True) (omitted n) cs := by
        apply CenterVec.pyMap_exists
        intro i hi
        have hin : i < n := by simpa [omitted] using hi
        obtain ⟨l, hl, ha⟩ := h 0 cell rfl i hin
        refine ⟨cell.eraseIdx i ++ [center], ?_, trivial⟩
        unfold child
        rw [cellPts_ok (by simpa using hl)]
        simp only [py_bind_ok, decide_eq_true ha, pyAssert_true]
      obtain ⟨cs, hcs, -⟩ := h0
      obtain ⟨rest, hr⟩ := children_ok (area := area) (x := x) (n := n) (cells := cells) (center := center + 1) (by
        intro c ce hce i hi
        have := h (c + 1) ce (by simpa using hce) i hi
        have e : center + 1 + c = center + (c + 1) := by omega
        rw [e]
        exact this)
      refine ⟨cs ++ rest, ?_⟩
      unfold children
      rw [hcs, hr]
      rfl

omit [LinearOrder K] [IsStrictOrderedRing K] in
theorem comb_replicate (a : K) (l : List E) : comb K (List.replicate l.length a) l = a • l.sum := by
  induction l with
  | nil => simp [comb]
  | cons p l ih => rw [List.length_cons, List.replicate_succ, comb_cons, ih, List.sum_cons, smul_add]

/-- The children of the centroid have the same area. -/
theorem centroid_area {area : List E → K} {n : Nat} (ha : Barycentric K area n) (hn : 0 < n) {l : List E} (hl : l.length = n) {i : Nat}
    (hi : i < n) : area (l.eraseIdx i ++ [(1 / (n : K)) • l.sum]) = 1 / n * area l := by
  have hn' : (0 : K) < (n : K) := Nat.cast_pos.2 hn
  have e : (1 / (n : K)) • l.sum = comb K (List.replicate n (1 / (n : K))) l := by
    rw [← comb_replicate, hl]
  rw [e, ha.child l _ hl (by simp) (by rw [List.sum_replicate, nsmul_eq_mul]; field_simp) i (1 / (n : K)) (by simp [hi]),
    abs_of_pos (by positivity)]

theorem centroids_get {M : RMesh E} {n c : Nat} (hM : M.OK n) {l : List E} (hl : IsCell M c l) :
    (centroids K M.coords M.cells)[c]? = some ((1 / (n : K)) • l.sum) := by
  obtain ⟨cell, hc, hf⟩ := hl
  unfold centroids
  rw [List.getElem?_map, hc, Option.map_some, (hM cell (List.mem_of_getElem? hc)).1]
  congr 3
  clear hc
  induction hf with
  | nil => rfl
  | cons h _ ih =>
      rw [List.map_cons, ih, List.getD_eq_getElem?_getD, h]
      rfl

/-- One refinement succeeds if the cells are large enough, and divides areas by the number of vertices of a cell. -/
theorem refineOnce_total {area : List E → K} {hmin : List E → List (List Nat) → K} {strict : K} {tdim n : Nat} {M : RMesh E}
    (ha : Barycentric K area n) (hn : n = 2 ∨ n = 3 ∨ n = 4 ∧ tdim = 3) (hM : M.OK n)
    (hh : 0 < hmin M.coords M.cells) (hA : ∀ c l, IsCell M c l → (n : K) / 10 ^ 15 < area l) :
    ∃ F, refineOnce area (centroids K) hmin strict tdim n M = .ok F ∧
      ∀ i l', IsCell F i l' → ∃ c l, IsCell M c l ∧ area l' = 1 / n * area l := by
  have hn0 : 0 < n := by omega
  have hn' : (0 : K) < (n : K) := Nat.cast_pos.2 hn0
  have hin := centroids_inner (K := K) (E := E) hn0
  obtain ⟨hlen, hop⟩ := hin M hM
  have hpts : ∃ ps, pyMap (cellPts M.coords) M.cells = .ok ps ∧
      List.Forall₂ (fun cell l => List.Forall₂ (fun (v : Nat) p => M.coords[v]? = some p) cell l) M.cells ps := by
    apply CenterVec.pyMap_exists
    intro cell hcell
    obtain ⟨l, hl⟩ := forall₂_points (hM cell hcell).2
    exact ⟨l, cellPts_ok hl, hl⟩
  obtain ⟨ps, hps, hpf⟩ := hpts
  have hpc : ∀ (c : Nat) l, ps[c]? = some l → IsCell M c l := by
    intro c l hcl
    have hlt : c < M.cells.length := by rw [hpf.length_eq]; exact (List.getElem?_eq_some_iff.1 hcl).1
    have := (List.forall₂_iff_get.1 hpf).2 c hlt (List.getElem?_eq_some_iff.1 hcl).1
    refine ⟨M.cells[c], List.getElem?_eq_getElem hlt, ?_⟩
    rw [← (List.getElem?_eq_some_iff.1 hcl).2]
    exact this
  have hch : ∃ cs, children area (M.coords ++ centroids K M.coords M.cells) n M.coords.length M.cells = .ok cs := by
    apply children_ok
    intro c cell hc i hi
    obtain ⟨l, hl⟩ := isCell_exists hM (List.getElem?_eq_some_iff.1 hc).1
    obtain ⟨cell', hc', hf⟩ := id hl
    rw [hc] at hc'
    injection hc' with hc'
    subst hc'
    refine ⟨l.eraseIdx i ++ [(1 / (n : K)) • l.sum], ?_, ?_⟩
    · refine List.rel_append ?_ (.cons ?_ .nil)
      · refine (forall₂_eraseIdx hf i).imp (fun v p h => ?_)
        rw [List.getElem?_append_left (List.getElem?_eq_some_iff.1 h).1]
        exact h
      · rw [List.getElem?_append_right (by omega), Nat.add_sub_cancel_left]
        exact centroids_get hM hl
    · rw [centroid_area ha hn0 (isCell_length hM hl) hi]
      have := hA c l hl
      rw [div_lt_iff₀ (by positivity)] at this ⊢
      rw [one_div, mul_assoc, inv_mul_eq_div, one_lt_div hn']
      exact this
  obtain ⟨cs, hcs⟩ := hch
  have hok : refineOnce area (centroids K) hmin strict tdim n M =
      .ok ⟨M.coords ++ centroids K M.coords M.cells, cs, (List.range M.coords.length).map (fun v => (v, v)),
        childToParent n M.cells.length⟩ := by
    have h1 : (decide (n = 2) || decide (n = 3) || (decide (n = 4) && decide (tdim = 3))) = true := by
      rcases hn with h | h | ⟨h, h'⟩ <;> simp [h]
      exact h'
    have h2 : (!decide (0 < strict) || ((centroids K M.coords M.cells).zip ps).all
        (fun p => pointIsInside area (hmin M.coords M.cells * strict) p.1 p.2)) = true := by
      by_cases hs : 0 < strict
      · rw [Bool.or_eq_true]
        right
        rw [List.all_eq_true]
        intro q hq
        obtain ⟨c, hc⟩ := List.getElem?_of_mem hq
        rw [List.getElem?_zip_eq_some] at hc
        have hcell := hpc c q.2 hc.2
        refine point_is_inside_complete ha (isCell_length hM hcell) (mul_pos hh hs) ?_
        obtain ⟨w, w1, w2, w3⟩ := hop c q.2 q.1 hcell hc.1
        exact ⟨w, w1, fun a haw => (w2 a haw).le, w3⟩
      · simp [hs]
    unfold refineOnce
    rw [h1, hps]
    simp only [pyAssert_true, py_bind_ok]
    rw [h2, hcs]
    rfl
  refine ⟨_, hok, ?_⟩
  intro i l' hl'
  obtain ⟨x, hs, -, hx⟩ := istep hM hin hok
  obtain ⟨ce, hce, hf⟩ := hl'
  obtain ⟨c, cell, j, hc, hjn, -, hj, rfl⟩ := hs.which hM hce
  have hcl := (List.getElem?_eq_some_iff.1 hc).1
  obtain ⟨l, hl⟩ := isCell_exists hM hcl
  refine ⟨c, l, hl, ?_⟩
  obtain ⟨cell', hc', hfl⟩ := id hl
  rw [hc] at hc'
  injection hc' with hc'
  subst hc'
  have e : l' = l.eraseIdx j ++ [x c] := by
    refine forall₂_unique hf (List.rel_append ?_ (.cons (hs.new c hcl) .nil))
    refine (forall₂_eraseIdx hfl j).imp (fun v p h => ?_)
    change (M.coords ++ _)[v]? = some p
    rw [List.getElem?_append_left (List.getElem?_eq_some_iff.1 h).1]
    exact h
  have hxc := hx c hcl
  rw [centroids_get hM hl] at hxc
  injection hxc with hxc
  rw [e, ← hxc, centroid_area ha hn0 (isCell_length hM hl) hjn]

/-- Any number of refinements. -/
theorem refineMore_total {area : List E → K} {hmin : List E → List (List Nat) → K} {strict : K} {tdim n : Nat} {M : RMesh E}
    (ha : Barycentric K area n) (hn : n = 2 ∨ n = 3 ∨ n = 4 ∧ tdim = 3) (hh : ∀ x cells, 0 < hmin x cells) :
    ∀ (m : Nat) {M0 : RMesh E} {k : Nat}, Level (K := K) M M0 n k →
    (∀ c l, IsCell M0 c l → (n : K) ^ m / 10 ^ 15 < area l) →
    ∃ F, refineMore area (centroids K) hmin strict tdim n m M0 (List.range M.coords.length) (List.range M.coords.length) = .ok F
  | 0, M0, k, _, _ => ⟨M0, rfl⟩
  | m + 1, M0, k, h0, hA => by
      have hn0 : 0 < n := by omega
      have hn' : (0 : K) < (n : K) := Nat.cast_pos.2 hn0
      have hn1 : (1 : K) ≤ (n : K) := by exact_mod_cast hn0
      obtain ⟨M1, h1, har⟩ := refineOnce_total (strict := strict) (tdim := tdim) ha hn h0.ok (hh M0.coords M0.cells) (by
        intro c l hl
        refine lt_of_le_of_lt ?_ (hA c l hl)
        apply div_le_div_of_nonneg_right _ (by positivity)
        rw [pow_succ]
        exact le_mul_of_one_le_left hn'.le (one_le_pow₀ hn1))
      have hin := centroids_inner (K := K) (E := E) hn0
      obtain ⟨x, hs, hx⟩ := step h0.ok hin h1
      have hcm : ∃ cmap, pyMap (pyGet M0.cmap) M1.cmap = .ok cmap ∧ List.Forall₂ (fun _ _ => True) M1.cmap cmap := by
        apply CenterVec.pyMap_exists
        intro c hc
        rw [hs.cmap] at hc
        obtain ⟨i, hi⟩ := List.getElem?_of_mem hc
        rw [childToParent_get] at hi
        split at hi
        · rename_i hlt
          injection hi with hi
          have hcl : c < M0.cells.length := by rw [← hi]; exact (Nat.div_lt_iff_lt_mul hn0).2 hlt
          exact ⟨_, pyGet_eq_ok.2 (h0.cmap c hcl), trivial⟩
        · simp at hi
      obtain ⟨cmap, hcm, -⟩ := hcm
      obtain ⟨e, hl⟩ := level_step hin h0 h1 hcm
      obtain ⟨F, hF⟩ := refineMore_total (strict := strict) (tdim := tdim) ha hn hh m hl (by
        intro i l' hl'
        obtain ⟨c, l, hcl, hal⟩ := har i l' hl'
        have := hA c l hcl
        rw [pow_succ (n : K) m] at this
        rw [hal]
        rw [one_div, inv_mul_eq_div, lt_div_iff₀ hn', div_mul_eq_mul_div]
        exact this)
      refine ⟨F, ?_⟩
      unfold refineMore
      rw [h1]
      simp only [py_bind_ok]
      rw [hcm]
      simp only [py_bind_ok]
      rw [e]
      simpa using hF

end Verif.Refine
