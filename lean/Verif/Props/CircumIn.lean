import Verif.Lemmas.CircumIn
import Mathlib.LinearAlgebra.Prod
import Mathlib.LinearAlgebra.Pi
/-!
# C109: refinement by circumcentres of intervals, triangles and tetrahedra
-/
namespace Verif.Refine
open Verif Verif.BlockOps Verif.Center Matrix
variable {K : Type} [Field K] [LinearOrder K] [IsStrictOrderedRing K]

/-- Dimensions of cells and of the space for which `CellCircumcenter` has working code. -/
def Covered (tdim d : Nat) : Prop := (tdim, d) ∈ [(1, 2), (2, 2), (2, 3), (3, 3)]

/-! ## Areas -/

omit [IsStrictOrderedRing K] in
theorem Barycentric.congr {E : Type} [AddCommGroup E] [Module K E] {area area' : List E → K} {n : Nat} (h : Barycentric K area n)
    (he : ∀ l, l.length = n → area' l = area l) : Barycentric K area' n := by
  have len : ∀ (l : List E) (x : E) (i : Nat), l.length = n → i < n → (l.eraseIdx i ++ [x]).length = n := by
    intro l x i hl hi
    rw [List.length_append, List.length_eraseIdx_of_lt (by omega), hl]
    simp
    omega
  constructor
  · intro l w hl hw hs i a hi
    have hin : i < n := by rw [← hw]; exact (List.getElem?_eq_some_iff.1 hi).1
    rw [he _ (len l _ i hl hin), he l hl]
    exact h.child l w hl hw hs i a hi
  · intro l x i hl hi
    rw [he _ (len l x i hl hi), he _ (by
      have := len l x i hl hi
      simp only [List.length_append, List.length_cons, List.length_nil] at this ⊢
      omega)]
    exact h.front l x i hl hi

/-- `simplex_area` is proportional to barycentric coordinates. -/
theorem simplexArea_barycentric {norm : (m : Nat) → (Fin m → K) → K} (hN : ∀ m (a : K) x, norm m (a • x) = |a| * norm m x)
    {tdim d : Nat} (hc : Covered tdim d) : Barycentric K (simplexArea norm d) (tdim + 1) := by
  unfold Covered at hc
  simp only [List.mem_cons, Prod.mk.injEq, List.not_mem_nil, or_false] at hc
  let f2 : (Fin 2 → K) →ₗ[K] K × K := LinearMap.prod (LinearMap.proj 0) (LinearMap.proj 1)
  let f3 : (Fin 3 → K) →ₗ[K] K × K × K :=
    LinearMap.prod (LinearMap.proj 0) (LinearMap.prod (LinearMap.proj 1) (LinearMap.proj 2))
  rcases hc with ⟨rfl, rfl⟩ | ⟨rfl, rfl⟩ | ⟨rfl, rfl⟩ | ⟨rfl, rfl⟩
  · refine (segArea_barycentric (norm := norm 2) (hN 2)).congr ?_
    intro l hl
    obtain ⟨p, q, rfl⟩ := List.length_eq_two.1 hl
    rfl
  · refine ((triArea_barycentric (K := K)).comap f2).congr ?_
    intro l hl
    obtain ⟨p, q, r, rfl⟩ := List.length_eq_three.1 hl
    rfl
  · refine ((surfArea_barycentric (norm := fun p => norm 3 ![p.1, p.2.1, p.2.2]) ?_).comap f3).congr ?_
    · intro a x
      rw [← hN]
      congr 1
      funext i
      fin_cases i <;> rfl
    · intro l hl
      obtain ⟨p, q, r, rfl⟩ := List.length_eq_three.1 hl
      rfl
  · refine ((tetArea_barycentric (K := K)).comap f3).congr ?_
    intro l hl
    rcases l with _ | ⟨a, _ | ⟨b, _ | ⟨c, _ | ⟨e, _ | ⟨g, l⟩⟩⟩⟩⟩ <;> simp at hl
    rfl

/-! ## The calls -/

section
variable {solve2 : Solver K 2} {solve3 : Solver K 3} {norm : (m : Nat) → (Fin m → K) → K} {tdim d : Nat}
  {hmin : List (Fin d → K) → List (List Nat) → K} {strict : K} {M : RMesh (Fin d → K)}

theorem circumcenterOf_ok (hc : Covered tdim d) {l : List (Fin d → K)} (hl : l.length = tdim + 1) :
    cellCircumcenter solve2 solve3 tdim d l = .ok (circumcenterOf solve2 solve3 tdim d l) := by
  obtain ⟨y, hy⟩ := circumcenter_total_partial solve2 solve3 l hl hc
  unfold circumcenterOf
  rw [hy]

theorem circumcenterOf_correct (h2 : Solves solve2) (h3 : Solves solve3) (hc : Covered tdim d) {l : List (Fin d → K)}
    (hl : l.length = tdim + 1) (hi : AffInd K l) : IsCircumcenter l (circumcenterOf solve2 solve3 tdim d l) :=
  circumcenter_correct h2 h3 hi (circumcenterOf_ok hc hl)

theorem circumcentersIn_get {c : Nat} {l : List (Fin d → K)} (hl : IsCell M c l) :
    (circumcentersIn solve2 solve3 tdim d M.coords M.cells)[c]? = some (circumcenterOf solve2 solve3 tdim d l) := by
  obtain ⟨cell, hc, hf⟩ := hl
  unfold circumcentersIn
  rw [List.getElem?_map, hc, Option.map_some]
  congr 2
  clear hc
  induction hf with
  | nil => rfl
  | cons h _ ih => rw [List.map_cons, ih, List.getD_eq_getElem?_getD, h]; rfl

theorem circumcentersIn_length (x : List (Fin d → K)) (cells : List (List Nat)) :
    (circumcentersIn solve2 solve3 tdim d x cells).length = cells.length := by
  unfold circumcentersIn
  rw [List.length_map]

theorem covered_cells (hc : Covered tdim d) : tdim + 1 = 2 ∨ tdim + 1 = 3 ∨ tdim + 1 = 4 ∧ tdim = 3 := by
  unfold Covered at hc
  simp only [List.mem_cons, Prod.mk.injEq, List.not_mem_nil, or_false] at hc
  omega

theorem circumcenterRefineIn_eq (hc : Covered tdim d) (hM : M.OK (tdim + 1)) (nrefs : Int) :
    circumcenterRefineIn solve2 solve3 norm hmin strict tdim M nrefs =
      innerPointRefine (simplexArea norm d) (circumcentersIn solve2 solve3 tdim d) hmin strict tdim (tdim + 1) M nrefs := by
  have h1 : (decide (tdim + 1 = 2) || decide (tdim + 1 = 3) || (decide (tdim + 1 = 4) && decide (tdim = 3))) = true := by
    rcases covered_cells hc with h | h | ⟨h, h'⟩
    · simp [h]
    · simp [h]
    · simp [h']
  obtain ⟨ys, hys, -⟩ : ∃ ys, pyMap (fun cell => (do
      let ps ← cellPts M.coords cell
      cellCircumcenter solve2 solve3 tdim d ps : Py _)) M.cells = .ok ys ∧ List.Forall₂ (fun _ _ => True) M.cells ys := by
    apply CenterVec.pyMap_exists
    intro cell hcell
    obtain ⟨hlen, hv⟩ := hM cell hcell
    obtain ⟨l, hl⟩ := forall₂_points hv
    refine ⟨circumcenterOf solve2 solve3 tdim d l, ?_, trivial⟩
    rw [cellPts_ok hl, py_bind_ok]
    exact circumcenterOf_ok hc (by rw [← hl.length_eq]; exact hlen)
  unfold circumcenterRefineIn
  rw [h1, pyAssert_true, py_bind_ok, hys, py_bind_ok]

/-- One refinement. -/
theorem circumcenterIn_once_iff (hc : Covered tdim d) (hM : M.OK (tdim + 1)) :
    ((∃ F, refineOnce (simplexArea norm d) (circumcentersIn solve2 solve3 tdim d) hmin strict tdim (tdim + 1) M = .ok F) ↔
      ∀ c l, IsCell M c l → Passes (simplexArea norm d) strict (hmin M.coords M.cells * strict) (tdim + 1) l
        (circumcenterOf solve2 solve3 tdim d l)) ∧
    ((∃ F, refineOnce (simplexArea norm d) (circumcentersIn solve2 solve3 tdim d) hmin strict tdim (tdim + 1) M = .ok F) ∨
      refineOnce (simplexArea norm d) (circumcentersIn solve2 solve3 tdim d) hmin strict tdim (tdim + 1) M = .error .assertion) := by
  obtain ⟨h1, h2⟩ := refineOnce_iff (area := simplexArea norm d) (newPts := circumcentersIn solve2 solve3 tdim d) (hmin := hmin)
    (strict := strict) (tdim := tdim) (covered_cells hc) hM (circumcentersIn_length _ _)
  refine ⟨h1.trans ⟨fun h c l hl => h c l _ hl (circumcentersIn_get hl), fun h c l x hl hx => ?_⟩, h2⟩
  rw [circumcentersIn_get hl] at hx
  injection hx with hx
  rw [← hx]
  exact h c l hl

/-- **C109** A mesh is refined once if the circumcentre of each of its cells is inside of the cell, and parts are not below the
bound: the children tile the cells, and a child has the circumcentre of its parent in place of a vertex. -/
theorem circumcenter_inside (h2 : Solves solve2) (h3 : Solves solve3)
    (hN : ∀ m (a : K) x, norm m (a • x) = |a| * norm m x) (hc : Covered tdim d) (hM : M.OK (tdim + 1))
    (hh : 0 < hmin M.coords M.cells) {nrefs : Int} (hn : nrefs ≤ 1)
    (hA : ∀ i l, IsCell M i l → AffInd K l ∧ ∀ y, IsCircumcenter l y → OpenHull K l y ∧
      ∀ k, k ≤ tdim → 1 / 10 ^ 15 < simplexArea norm d (l.eraseIdx k ++ [y])) :
    ∃ F, circumcenterRefineIn solve2 solve3 norm hmin strict tdim M nrefs = .ok F ∧ Tiles K M F ∧
      F.cells.length = (tdim + 1) * M.cells.length ∧
      ∀ i l, IsCell F i l → ∃ c l0 k y, F.cmap[i]? = some c ∧ IsCell M c l0 ∧ k ≤ tdim ∧ IsCircumcenter l0 y ∧
        l = l0.eraseIdx k ++ [y] := by
  have hcc : ∀ c l, IsCell M c l → IsCircumcenter l (circumcenterOf solve2 solve3 tdim d l) := fun c l hl =>
    circumcenterOf_correct h2 h3 hc (isCell_length hM hl) (hA c l hl).1
  have hin : ∀ c l, IsCell M c l → OpenHull K l (circumcenterOf solve2 solve3 tdim d l) := fun c l hl =>
    ((hA c l hl).2 _ (hcc c l hl)).1
  obtain ⟨F, hF⟩ := (circumcenterIn_once_iff (solve2 := solve2) (solve3 := solve3) (norm := norm) (hmin := hmin)
    (strict := strict) hc hM).1.2 (by
    intro i l hl
    constructor
    · intro hst
      obtain ⟨w, w1, w2, w3⟩ := hin i l hl
      exact point_is_inside_complete (simplexArea_barycentric hN hc) (isCell_length hM hl) (mul_pos hh hst)
        ⟨w, w1, fun a ha => (w2 a ha).le, w3⟩
    · intro k hk
      exact ((hA i l hl).2 _ (hcc i l hl)).2 k (by omega))
  obtain ⟨x, hst, hxo, hxe⟩ := step_at hM (circumcenterOf solve2 solve3 tdim d) (circumcentersIn_length _ _)
    (fun c l hl => circumcentersIn_get hl) hin hF
  refine ⟨F, ?_, hst.tiles hM hxo, by rw [hst.ncells, mul_comm], ?_⟩
  · rw [circumcenterRefineIn_eq hc hM]
    unfold innerPointRefine
    rw [hF, py_bind_ok, if_neg (by omega)]
  · intro i l' hl'
    have hlt := isCell_lt hl'
    rw [hst.ncells] at hlt
    have hcm : F.cmap[i]? = some (i / (tdim + 1)) := by rw [hst.cmap, childToParent_get, if_pos hlt]
    obtain ⟨-, l, hl, rfl⟩ := hst.child hM hcm hl'
    refine ⟨_, l, _, _, hcm, hl, ?_, ?_, rfl⟩
    · omega
    · rw [hxe _ _ hl]
      exact hcc _ _ hl

omit [IsStrictOrderedRing K] in
theorem innerPointRefine_error {E : Type} {area : List E → K} {np : List E → List (List Nat) → List E}
    {hmin : List E → List (List Nat) → K} {M : RMesh E} {n : Nat} (nrefs : Int) {e : PyErr}
    (h : refineOnce area np hmin strict tdim n M = .error e) :
    innerPointRefine area np hmin strict tdim n M nrefs = .error e := by
  unfold innerPointRefine
  rw [h]
  rfl

/-- **C109** A mesh is refused if the circumcentre of some cell is on the boundary of the cell, or outside unless the tolerance
covers the part which is outside. -/
theorem circumcenter_not_inside (h2 : Solves solve2) (h3 : Solves solve3)
    (hN : ∀ m (a : K) x, norm m (a • x) = |a| * norm m x) (hc : Covered tdim d) (hM : M.OK (tdim + 1)) {i : Nat}
    {l : List (Fin d → K)} (hl : IsCell M i l) (hi : AffInd K l) (hA : 0 ≤ simplexArea norm d l) {w : List K} {k : Nat} {a : K}
    (hw : w.length = l.length) (hs : w.sum = 1) (hy : IsCircumcenter l (comb K w l)) (hk : w[k]? = some a)
    (ha : a = 0 ∨ a < 0 ∧ 0 < strict ∧
      hmin M.coords M.cells * strict ≤ 2 * simplexArea norm d (l.eraseIdx k ++ [comb K w l])) (nrefs : Int) :
    circumcenterRefineIn solve2 solve3 norm hmin strict tdim M nrefs = .error .assertion := by
  rw [circumcenterRefineIn_eq hc hM]
  apply innerPointRefine_error
  obtain ⟨hiff, hor⟩ := circumcenterIn_once_iff (solve2 := solve2) (solve3 := solve3) (norm := norm) (hmin := hmin)
    (strict := strict) hc hM
  refine hor.resolve_left (fun hok => ?_)
  obtain ⟨p1, p2⟩ := hiff.1 hok i l hl
  have hlen := isCell_length hM hl
  rw [circumcenter_unique (circumcenterOf_correct h2 h3 hc hlen hi) hy] at p1 p2
  have hb := simplexArea_barycentric hN hc
  have hch := hb.child l w hlen (hw.trans hlen) hs k a hk
  have hkl : k < tdim + 1 := by rw [← hlen, ← hw]; exact (List.getElem?_eq_some_iff.1 hk).1
  have e15 : (0 : K) < 1 / 10 ^ 15 := by positivity
  rcases ha with rfl | ⟨ha, hst, htol⟩
  · have := p2 k hkl
    rw [hch, abs_zero, zero_mul] at this
    exact absurd this (not_lt.2 e15.le)
  · rw [hch] at htol
    have := negative_outside hb hlen (hw.trans hlen) hs hA (List.mem_of_getElem? hk) ha htol
    rw [p1 hst] at this
    exact Bool.noConfusion this

/-- **C109** Triangles and tetrahedra, in any dimension, cannot be refined twice by circumcentres, unless some cell of the mesh
refined once is so small that the tolerance covers it. -/
theorem circumcenter_never_twice (h2 : Solves solve2) (h3 : Solves solve3)
    (hN : ∀ m (a : K) x, norm m (a • x) = |a| * norm m x) (hc : Covered tdim d) (ht : 2 ≤ tdim) (hM : M.OK (tdim + 1))
    (hne : M.cells ≠ []) (hst : 0 < strict) (hA : ∀ i l, IsCell M i l → AffInd K l ∧ 0 ≤ simplexArea norm d l)
    {M1 : RMesh (Fin d → K)} (h1 : circumcenterRefineIn solve2 solve3 norm hmin strict tdim M 1 = .ok M1)
    (htol : ∀ i l, IsCell M1 i l → hmin M.coords M.cells * strict ≤ 2 * simplexArea norm d l ∧
      hmin M1.coords M1.cells * strict ≤ 2 * simplexArea norm d l) {nrefs : Int} (hn : 2 ≤ nrefs) :
    circumcenterRefineIn solve2 solve3 norm hmin strict tdim M nrefs = .error .assertion := by
  rw [circumcenterRefineIn_eq hc hM] at h1 ⊢
  have h0 : refineOnce (simplexArea norm d) (circumcentersIn solve2 solve3 tdim d) hmin strict tdim (tdim + 1) M = .ok M1 := by
    unfold innerPointRefine at h1
    rw [py_bind_eq_ok] at h1
    obtain ⟨M', h', h1⟩ := h1
    rw [if_neg (by omega)] at h1
    injection h1 with h1
    rw [← h1, h']
  have hpass := (circumcenterIn_once_iff (solve2 := solve2) (solve3 := solve3) (norm := norm) (hmin := hmin) (strict := strict)
    hc hM).1.1 ⟨M1, h0⟩
  have hb := simplexArea_barycentric hN hc
  have e15 : (0 : K) < 1 / 10 ^ 15 := by positivity
  have hcc : ∀ c l, IsCell M c l → IsCircumcenter l (circumcenterOf solve2 solve3 tdim d l) := fun c l hl =>
    circumcenterOf_correct h2 h3 hc (isCell_length hM hl) (hA c l hl).1
  -- weights of all circumcentres are positive
  have hin : ∀ c l, IsCell M c l → OpenHull K l (circumcenterOf solve2 solve3 tdim d l) := by
    intro c l hl
    have hlen := isCell_length hM hl
    obtain ⟨⟨w, w1, w2, w3⟩, -⟩ := hcc c l hl
    obtain ⟨p1, p2⟩ := hpass c l hl
    refine ⟨w, w1, ?_, w2, w3⟩
    intro a haw
    obtain ⟨k, hk, rfl⟩ := List.getElem_of_mem haw
    have hkn : k < tdim + 1 := by omega
    have hch := hb.child l w hlen (w1.trans hlen) w2 k _ (List.getElem?_eq_getElem hk)
    by_contra hneg
    rcases lt_or_eq_of_le (not_lt.1 hneg) with hneg | hz
    · have hcell := refined_cell h0 hl (circumcentersIn_get hl) (j := tdim - k) (by omega)
      have e : tdim + 1 - 1 - (tdim - k) = k := by omega
      rw [e] at hcell
      have := (htol _ _ hcell).1
      rw [← w3, hch] at this
      have hout := negative_outside hb hlen (w1.trans hlen) w2 (hA c l hl).2 haw hneg this
      rw [w3, p1 hst] at hout
      exact Bool.noConfusion hout
    · have := p2 k hkn
      rw [← w3, hch, hz, abs_zero, zero_mul] at this
      exact absurd this (not_lt.2 e15.le)
  obtain ⟨x, hstep, hxo, hxe⟩ := step_at hM (circumcenterOf solve2 solve3 tdim d) (circumcentersIn_length _ _)
    (fun c l hl => circumcentersIn_get hl) hin h0
  have htiles := hstep.tiles hM hxo
  have hfail : refineOnce (simplexArea norm d) (circumcentersIn solve2 solve3 tdim d) hmin strict tdim (tdim + 1) M1 =
      .error .assertion := by
    obtain ⟨hiff, hor⟩ := circumcenterIn_once_iff (solve2 := solve2) (solve3 := solve3) (norm := norm) (hmin := hmin)
      (strict := strict) hc hstep.ok
    refine hor.resolve_left (fun hok => ?_)
    have hp2 := hiff.1 hok
    obtain ⟨l, hl⟩ := isCell_exists hM (List.length_pos_iff.2 hne)
    have hlen := isCell_length hM hl
    obtain ⟨w, w1, w2, w3, w4⟩ := hin 0 l hl
    have hwne : w ≠ [] := by
      intro h
      rw [h] at w1
      simp at w1
      omega
    obtain ⟨k, hk, hsmall⟩ := small_weight hwne w3
    have hkl : k < l.length := by rw [← w1]; exact hk
    set y := circumcenterOf solve2 solve3 tdim d l with hy
    have hcell := refined_cell h0 hl (circumcentersIn_get hl) (j := tdim - k) (by omega)
    have e : tdim + 1 - 1 - (tdim - k) = k := by omega
    rw [e] at hcell
    have hpar : M1.cmap[0 * (tdim + 1) + (tdim - k)]? = some 0 := by
      rw [hstep.cmap, childToParent_get, if_pos (by
        have h0' : 1 ≤ M.cells.length := List.length_pos_iff.2 hne
        have := Nat.mul_le_mul_right (tdim + 1) h0'
        omega)]
      congr 1
      rw [Nat.div_eq_of_lt]
      omega
    have hchild := htiles.nondegenerate 0 l hl (hA 0 l hl).1 _ _ hpar hcell
    have hlen' := isCell_length hstep.ok hcell
    have hcirc := circumcenterOf_correct h2 h3 hc hlen' hchild
    obtain ⟨q1, q2⟩ := hp2 _ _ hcell
    obtain ⟨⟨u, u1, u2, u3⟩, u4⟩ := hcirc
    -- split the lists
    have hl_split : l = l.take k ++ l[k] :: l.drop (k + 1) := by simp
    have hw_split : w = w.take k ++ w[k] :: w.drop (k + 1) := by simp
    have herase : l.eraseIdx k = l.take k ++ l.drop (k + 1) := List.eraseIdx_eq_take_drop_succ ..
    obtain ⟨ub, t, rfl⟩ : ∃ ub t, u = ub ++ [t] := by
      rcases List.eq_nil_or_concat u with h | ⟨ub, t, h⟩
      · rw [h] at u1
        simp at u1
      · exact ⟨ub, t, by simpa using h⟩
    have hub : ub.length = (l.eraseIdx k).length := by simpa using u1
    have hR : ∀ p ∈ l, dist2 y p = dist2 y l[k] := fun p hp => (hcc 0 l hl).2 p hp _ (List.getElem_mem hkl)
    have hbase : ∀ q ∈ l.take k ++ l.drop (k + 1), q ∈ l := by
      intro q hq
      rw [← herase] at hq
      exact List.mem_of_mem_eraseIdx hq
    have ht1 : t ≤ -1 := by
      refine apex_weight (l1 := l.take k) (l2 := l.drop (k + 1)) (p := l[k]) (y := y)
        (z := circumcenterOf solve2 solve3 tdim d (l.eraseIdx k ++ [y])) (w1 := w.take k) (w2 := w.drop (k + 1)) (ub := ub)
        (a := w[k]) (R := dist2 y l[k]) ?_ ?_ (w2 _ (List.getElem_mem hk)) ?_ ?_ ?_ ?_ rfl ?_ ?_ ?_ u2 ?_
      · simp [w1]
      · simp [w1]
      · have h3' : (3 : K) ≤ (w.length : K) := by
          rw [w1, hlen]
          exact_mod_cast (by omega : 3 ≤ tdim + 1)
        have := w2 _ (List.getElem_mem hk)
        nlinarith
      · rw [← hw_split]; exact w3
      · rw [← hw_split, ← hl_split]; exact w4
      · exact radius_pos (hA 0 l hl).1 (by omega) hR
      · exact fun q hq => hR q (hbase q hq)
      · rw [← herase]; exact hub
      · intro q hq
        rw [← herase] at hq
        exact u4 q (List.mem_append_left _ hq) y (List.mem_append_right _ (List.mem_singleton.2 rfl))
      · rw [← herase]; exact u3
    have hAc : 0 ≤ simplexArea norm d (l.eraseIdx k ++ [y]) := ((hpass 0 l hl).2 k (by omega)).le.trans' e15.le
    have hout := negative_outside hb hlen' (u1.trans hlen') u2 hAc (a := t) (by simp) (by linarith)
      (tol := hmin M1.coords M1.cells * strict) (by
        refine le_trans (htol _ _ hcell).2 ?_
        have : (1 : K) ≤ |t| := by rw [abs_of_neg (by linarith)]; linarith
        nlinarith [mul_le_mul_of_nonneg_right this hAc])
    rw [u3, q1 hst] at hout
    exact Bool.noConfusion hout
  unfold innerPointRefine
  rw [h0, py_bind_ok, if_pos (by omega)]
  obtain ⟨j, hj⟩ : ∃ j, (nrefs - 1).toNat = j + 1 := ⟨(nrefs - 1).toNat - 1, by omega⟩
  rw [hj]
  unfold refineMore
  rw [hfail]
  rfl

end

/-- **C109** Intervals in the plane are refined as by `centroid_refine`, any number of times. -/
theorem circumcenter_intervals_centroid {solve2 : Solver K 2} {solve3 : Solver K 3} {norm : (m : Nat) → (Fin m → K) → K}
    {hmin : List (Fin 2 → K) → List (List Nat) → K} {strict : K} {M : RMesh (Fin 2 → K)} (hM : M.OK 2) (nrefs : Int) :
    circumcenterRefineIn solve2 solve3 norm hmin strict 1 M nrefs =
      innerPointRefine (simplexArea norm 2) (centroids K) hmin strict 1 2 M nrefs := by
  rw [circumcenterRefineIn_eq (by simp [Covered]) hM]
  refine innerPointRefine_congr (centroids_inner (by omega)) ?_ hM nrefs
  intro M' hM'
  unfold circumcentersIn centroids
  refine List.map_congr_left (fun cell hcell => ?_)
  obtain ⟨a, b, rfl⟩ := List.length_eq_two.1 (hM' cell hcell).1
  have : circumcenterOf solve2 solve3 1 2 [M'.coords.getD a 0, M'.coords.getD b 0] =
      circumcenter12 (M'.coords.getD a 0) (M'.coords.getD b 0) := rfl
  simp only [List.map_cons, List.map_nil]
  rw [this]
  funext i
  fin_cases i <;> simp [circumcenter12]

omit [IsStrictOrderedRing K] in
/-- **C109** Intervals on the line and in the space are not refined. -/
theorem circumcenter_intervals_raise {solve2 : Solver K 2} {solve3 : Solver K 3} {norm : (m : Nat) → (Fin m → K) → K} {strict : K}
    (nrefs : Int) :
    (∀ (hmin : List (Fin 1 → K) → List (List Nat) → K) (M : RMesh (Fin 1 → K)), M.OK 2 → M.cells ≠ [] →
      circumcenterRefineIn solve2 solve3 norm hmin strict 1 M nrefs = .error .keyError) ∧
    ∀ (hmin : List (Fin 3 → K) → List (List Nat) → K) (M : RMesh (Fin 3 → K)), M.OK 2 → M.cells ≠ [] →
      circumcenterRefineIn solve2 solve3 norm hmin strict 1 M nrefs = .error .runtimeError := by
  have first : ∀ {d : Nat} (M : RMesh (Fin d → K)), M.OK 2 → M.cells ≠ [] → ∃ cell cells p q, M.cells = cell :: cells ∧
      cellPts M.coords cell = .ok [p, q] := by
    intro d M hM hne
    obtain ⟨cell, cells, he⟩ := List.exists_cons_of_ne_nil hne
    obtain ⟨h1, h2⟩ := hM cell (by rw [he]; simp)
    obtain ⟨l, hl⟩ := forall₂_points h2
    obtain ⟨p, q, rfl⟩ := List.length_eq_two.1 (hl.length_eq.symm.trans h1)
    exact ⟨cell, cells, p, q, he, cellPts_ok hl⟩
  constructor
  · intro hmin M hM hne
    obtain ⟨cell, cells, p, q, he, hp⟩ := first M hM hne
    unfold circumcenterRefineIn
    rw [he]
    unfold pyMap
    rw [hp]
    rfl
  · intro hmin M hM hne
    obtain ⟨cell, cells, p, q, he, hp⟩ := first M hM hne
    unfold circumcenterRefineIn
    rw [he]
    unfold pyMap
    rw [hp]
    rfl

/-! ## Examples -/

/-- A regular tetrahedron. -/
def regular : RMesh (Fin 3 → ℚ) := ⟨[![1, 1, 1], ![1, -1, -1], ![-1, 1, -1], ![-1, -1, 1]], [[0, 1, 2, 3]], [], []⟩

def sumNorm (m : Nat) (x : Fin m → ℚ) : ℚ := ∑ i, |x i|

theorem sumNorm_smul (m : Nat) (a : ℚ) (x : Fin m → ℚ) : sumNorm m (a • x) = |a| * sumNorm m x := by
  unfold sumNorm
  rw [Finset.mul_sum]
  exact Finset.sum_congr rfl (fun i _ => by rw [Pi.smul_apply, smul_eq_mul, abs_mul])

theorem regular_ok : regular.OK 4 := by
  intro cell hcell
  simp only [regular, List.mem_cons, List.not_mem_nil, or_false] at hcell
  subst hcell
  simp [regular]

theorem regular_cell {i : Nat} {l : List (Fin 3 → ℚ)} (h : IsCell regular i l) :
    l = [![1, 1, 1], ![1, -1, -1], ![-1, 1, -1], ![-1, -1, 1]] := by
  have h0 : IsCell regular 0 [![1, 1, 1], ![1, -1, -1], ![-1, 1, -1], ![-1, -1, 1]] :=
    ⟨_, rfl, .cons rfl (.cons rfl (.cons rfl (.cons rfl .nil)))⟩
  have hi := isCell_lt h
  have : i = 0 := by simp [regular] at hi; exact hi
  subst this
  exact isCell_unique h h0

theorem regular_affInd : AffInd ℚ [![(1 : ℚ), 1, 1], ![1, -1, -1], ![-1, 1, -1], ![-1, -1, 1]] := by
  intro w hw hs hc
  rcases w with _ | ⟨a, _ | ⟨b, _ | ⟨c, _ | ⟨d, _ | ⟨e, l⟩⟩⟩⟩⟩ <;> simp at hw
  have h0 := congrFun hc 0
  have h1 := congrFun hc 1
  have h2 := congrFun hc 2
  simp [comb] at hs h0 h1 h2
  have ea : a = 0 := by linarith
  have eb : b = 0 := by linarith
  have ec : c = 0 := by linarith
  have ed : d = 0 := by linarith
  intro x hx
  simp at hx
  rcases hx with rfl | rfl | rfl | rfl <;> assumption

theorem regular_center : IsCircumcenter [![(1 : ℚ), 1, 1], ![1, -1, -1], ![-1, 1, -1], ![-1, -1, 1]] 0 := by
  refine ⟨⟨[1 / 4, 1 / 4, 1 / 4, 1 / 4], rfl, by norm_num, ?_⟩, ?_⟩
  · funext i
    fin_cases i <;> simp [comb] <;> norm_num
  · intro p hp q hq
    simp only [List.mem_cons, List.not_mem_nil, or_false] at hp hq
    rcases hp with rfl | rfl | rfl | rfl <;> rcases hq with rfl | rfl | rfl | rfl <;> simp [dist2, Fin.sum_univ_three]

theorem regular_area {k : Nat} (hk : k ≤ 3) :
    simplexArea sumNorm 3 ([![(1 : ℚ), 1, 1], ![1, -1, -1], ![-1, 1, -1], ![-1, -1, 1]].eraseIdx k ++ [0]) = 2 / 3 := by
  interval_cases k <;> simp [simplexArea, tetArea, triple] <;> norm_num <;> rw [abs_of_pos] <;> norm_num

/-- The regular tetrahedron is refined once. -/
theorem regular_once : ∃ F, circumcenterRefineIn (fun A b => A⁻¹ *ᵥ b) (fun A b => A⁻¹ *ᵥ b) sumNorm (fun _ _ => 1) (1 / 10 ^ 10) 3
    regular 1 = .ok F ∧ ∀ i l, IsCell F i l → simplexArea sumNorm 3 l = 2 / 3 := by
  obtain ⟨F, h1, -, -, h2⟩ := circumcenter_inside (solve2 := fun A b => A⁻¹ *ᵥ b) (solve3 := fun A b => A⁻¹ *ᵥ b)
    (norm := sumNorm) (tdim := 3) (d := 3) (hmin := fun _ _ => (1 : ℚ)) (strict := 1 / 10 ^ 10) (M := regular)
    (solves_inv 2) (solves_inv 3) sumNorm_smul (by simp [Covered]) regular_ok one_pos (nrefs := 1) le_rfl (by
      intro i l hl
      rw [regular_cell hl]
      refine ⟨regular_affInd, ?_⟩
      intro y hy
      rw [circumcenter_unique hy regular_center]
      refine ⟨⟨[1 / 4, 1 / 4, 1 / 4, 1 / 4], rfl, by norm_num, by norm_num, ?_⟩, ?_⟩
      · funext i
        fin_cases i <;> simp [comb] <;> norm_num
      · intro k hk
        rw [regular_area hk]
        norm_num)
  refine ⟨F, h1, ?_⟩
  intro i l hl
  obtain ⟨c, l0, k, y, -, hl0, hk, hy, rfl⟩ := h2 i l hl
  rw [regular_cell hl0] at hy ⊢
  rw [circumcenter_unique hy regular_center, regular_area hk]

/-- It is not refined twice. -/
example : circumcenterRefineIn (fun A b => A⁻¹ *ᵥ b) (fun A b => A⁻¹ *ᵥ b) sumNorm (fun _ _ => 1) (1 / 10 ^ 10) 3 regular 2 =
    .error .assertion := by
  obtain ⟨F, h1, h2⟩ := regular_once
  refine circumcenter_never_twice (solves_inv 2) (solves_inv 3) sumNorm_smul (by simp [Covered]) (by omega) regular_ok (by simp [regular])
    (by norm_num) ?_ h1 ?_ le_rfl
  · intro i l hl
    rw [regular_cell hl]
    refine ⟨regular_affInd, ?_⟩
    simp [simplexArea, tetArea]
  · intro i l hl
    rw [h2 i l hl]
    norm_num

/-- A corner of a cube has its circumcentre outside. -/
example (nrefs : Int) : circumcenterRefineIn (fun A b => A⁻¹ *ᵥ b) (fun A b => A⁻¹ *ᵥ b) sumNorm (fun _ _ => 1) (1 / 10 ^ 10) 3
    (⟨[![0, 0, 0], ![1, 0, 0], ![0, 1, 0], ![0, 0, 1]], [[0, 1, 2, 3]], [], []⟩ : RMesh (Fin 3 → ℚ)) nrefs = .error .assertion := by
  refine circumcenter_not_inside (solves_inv 2) (solves_inv 3) sumNorm_smul (by simp [Covered]) ?_ (i := 0)
    (l := [![0, 0, 0], ![1, 0, 0], ![0, 1, 0], ![0, 0, 1]]) ⟨_, rfl, .cons rfl (.cons rfl (.cons rfl (.cons rfl .nil)))⟩ ?_ ?_
    (w := [-1 / 2, 1 / 2, 1 / 2, 1 / 2]) (k := 0) (a := -1 / 2) rfl (by norm_num) ?_ rfl (.inr ⟨by norm_num, by norm_num, ?_⟩) nrefs
  · intro cell hcell
    simp only [List.mem_cons, List.not_mem_nil, or_false] at hcell
    subst hcell
    simp
  · intro w hw hs hc
    rcases w with _ | ⟨a, _ | ⟨b, _ | ⟨c, _ | ⟨d, _ | ⟨e, l⟩⟩⟩⟩⟩ <;> simp at hw
    simp [comb] at hs hc
    obtain ⟨h1, h2, h3⟩ := hc
    have h4 : a = 0 := by rw [h1, h2, h3] at hs; linarith
    intro x hx
    simp at hx
    rcases hx with rfl | rfl | rfl | rfl <;> assumption
  · simp [simplexArea, tetArea]
  · refine ⟨⟨_, rfl, by norm_num, rfl⟩, ?_⟩
    intro p hp q hq
    simp only [List.mem_cons, List.not_mem_nil, or_false] at hp hq
    rcases hp with rfl | rfl | rfl | rfl <;> rcases hq with rfl | rfl | rfl | rfl <;>
      simp [dist2, Fin.sum_univ_three, comb] <;> norm_num
  · simp [simplexArea, tetArea, triple, comb]
    norm_num

/-- Intervals in the plane, refined twice. -/
example : ∃ F, circumcenterRefineIn (fun A b => A⁻¹ *ᵥ b) (fun A b => A⁻¹ *ᵥ b) sumNorm (fun _ _ => 1) (1 / 10 ^ 10) 1
    (⟨[![0, 0], ![1, 1], ![2, 0]], [[0, 1], [1, 2]], [], []⟩ : RMesh (Fin 2 → ℚ)) 2 = .ok F := by
  have hM : (⟨[![0, 0], ![1, 1], ![2, 0]], [[0, 1], [1, 2]], [], []⟩ : RMesh (Fin 2 → ℚ)).OK 2 := by
    intro cell hcell
    simp only [List.mem_cons, List.not_mem_nil, or_false] at hcell
    rcases hcell with rfl | rfl <;> simp
  rw [circumcenter_intervals_centroid hM]
  refine centroid_refine_total (simplexArea_barycentric sumNorm_smul (tdim := 1) (by simp [Covered])) (.inl rfl) hM
    (fun _ _ => one_pos) ?_
  intro c l hl
  have hlt := isCell_lt hl
  have : c = 0 ∨ c = 1 := by simp at hlt; omega
  rcases this with rfl | rfl
  · have : l = [![0, 0], ![1, 1]] := isCell_unique hl ⟨_, rfl, .cons rfl (.cons rfl .nil)⟩
    rw [this]
    simp [simplexArea, sumNorm, levels]
    norm_num
  · have : l = [![1, 1], ![2, 0]] := isCell_unique hl ⟨_, rfl, .cons rfl (.cons rfl .nil)⟩
    rw [this]
    simp [simplexArea, sumNorm, levels]
    norm_num

end Verif.Refine
