import Verif.Model.CircumIn
import Verif.Lemmas.RefineExact
import Verif.Props.RefineConform
import Verif.Props.Center
/-!
# Refinement with new points which are inside of the cells of one mesh; geometry of circumcentres
-/
namespace Verif.Refine
open Verif Verif.BlockOps Verif.Center Matrix
variable {K E : Type} [Field K] [LinearOrder K] [IsStrictOrderedRing K] [AddCommGroup E] [Module K E]

/-- Areas by a linear map. -/
theorem Barycentric.comap {E' : Type} [AddCommGroup E'] [Module K E'] (f : E →ₗ[K] E') {area : List E' → K} {n : Nat}
    (h : Barycentric K area n) : Barycentric K (fun l => area (l.map f)) n := by
  have hc : ∀ (w : List K) (l : List E), f (comb K w l) = comb K w (l.map f) := by
    intro w
    induction w with
    | nil => intro l; simp [comb]
    | cons a w ih =>
        intro l
        rcases l with _ | ⟨p, l⟩
        · simp [comb]
        · have := ih l
          simp only [comb, List.zipWith_cons_cons, List.sum_cons, List.map_cons, map_add, map_smul] at this ⊢
          rw [this]
  have he : ∀ (l : List E) (i : Nat), (l.eraseIdx i).map f = (l.map f).eraseIdx i := by
    intro l
    induction l with
    | nil => intro i; simp
    | cons a l ih => intro i; cases i <;> simp [ih]
  constructor
  · intro l w hl hw hs i a hi
    have := h.child (l.map f) w (by simpa using hl) hw hs i a hi
    simpa only [List.map_append, List.map_cons, List.map_nil, hc, he] using this
  · intro l x i hl hi
    have := h.front (l.map f) (f x) i (by simpa using hl) hi
    simpa only [List.map_append, List.map_cons, List.map_nil, he] using this

/-- What one refinement does if its new points are inside. -/
theorem step_at {area : List E → K} {newPts : List E → List (List Nat) → List E}
    {hmin : List E → List (List Nat) → K} {strict : K} {tdim n : Nat} {M F : RMesh E} (hM : M.OK n) (f : List E → E)
    (hlen : (newPts M.coords M.cells).length = M.cells.length)
    (hf : ∀ c l, IsCell M c l → (newPts M.coords M.cells)[c]? = some (f l))
    (hin : ∀ c l, IsCell M c l → OpenHull K l (f l)) (h : refineOnce area newPts hmin strict tdim n M = .ok F) :
    ∃ x : Nat → E, Step M F n x ∧ (∀ c l, IsCell M c l → OpenHull K l (x c)) ∧ ∀ c l, IsCell M c l → x c = f l := by
  classical
  have hn := (refineOnce_eq_ok h).1
  let np : List E → List (List Nat) → List E := fun x cells =>
    if x = M.coords ∧ cells = M.cells then newPts x cells else centroids K x cells
  have hnp : np M.coords M.cells = newPts M.coords M.cells := if_pos ⟨rfl, rfl⟩
  have h' : refineOnce area np hmin strict tdim n M = .ok F := by
    rw [← h]
    unfold refineOnce
    rw [hnp]
  have hp : Inner K np n := by
    intro M' hM'
    by_cases e : M'.coords = M.coords ∧ M'.cells = M.cells
    · have e' : np M'.coords M'.cells = newPts M.coords M.cells := by rw [e.1, e.2, hnp]
      rw [e', hlen, e.2]
      refine ⟨rfl, ?_⟩
      intro c l x hl hx
      have hl' : IsCell M c l := by
        obtain ⟨cell, hc, hf⟩ := hl
        rw [e.1] at hf
        rw [e.2] at hc
        exact ⟨cell, hc, hf⟩
      rw [hf c l hl'] at hx
      injection hx with hx
      rw [← hx]
      exact hin c l hl'
    · have e' : np M'.coords M'.cells = centroids K M'.coords M'.cells := if_neg e
      rw [e']
      exact centroids_inner (by omega) M' hM'
  obtain ⟨-, hco, -, -, hch⟩ := refineOnce_eq_ok h'
  obtain ⟨x, hx1, hx2⟩ := step hM hp h'
  refine ⟨x, hx1, hx2, ?_⟩
  intro c l hl
  have hc := hx1.cell c l hl 0 (by omega)
  obtain ⟨cell, hce, hfl⟩ := id hl
  obtain ⟨g1, l', hl', -⟩ := (children_eq_ok hch).2 c cell hce 0 (by omega)
  have h2 := isCell_unique hc ⟨_, g1, hl'⟩
  rw [← h2] at hl'
  have h3 := List.forall₂_iff_get.1 hl'
  have hlen' : (cell.eraseIdx (n - 1 - 0)).length = (l.eraseIdx (n - 1 - 0)).length := (forall₂_eraseIdx hfl _).length_eq
  have h4 := h3.2 (cell.eraseIdx (n - 1 - 0)).length (by simp) (by rw [hlen']; simp)
  rw [List.get_eq_getElem, List.get_eq_getElem, List.getElem_append_right (le_refl _), List.getElem_append_right (le_of_eq hlen'.symm)] at h4
  simp only [List.getElem_singleton] at h4
  rw [hco, hnp, List.getElem?_append_right (by omega), Nat.add_sub_cancel_left, hf c l hl] at h4
  injection h4 with h4
  exact h4.symm

/-- The cells of the mesh refined once. -/
theorem refined_cell {area : List E → K} {newPts : List E → List (List Nat) → List E}
    {hmin : List E → List (List Nat) → K} {strict : K} {tdim n : Nat} {M F : RMesh E}
    (h : refineOnce area newPts hmin strict tdim n M = .ok F) {c : Nat} {l : List E} {x : E} (hl : IsCell M c l)
    (hx : (newPts M.coords M.cells)[c]? = some x) {j : Nat} (hj : j < n) :
    IsCell F (c * n + j) (l.eraseIdx (n - 1 - j) ++ [x]) := by
  obtain ⟨-, hco, -, -, hch⟩ := refineOnce_eq_ok h
  obtain ⟨cell, hc, hf⟩ := hl
  refine ⟨_, ((children_eq_ok hch).2 c cell hc j hj).1, ?_⟩
  refine List.rel_append ((forall₂_eraseIdx hf _).imp (fun v p h => ?_)) (.cons ?_ .nil)
  · rw [hco, List.getElem?_append_left (List.getElem?_eq_some_iff.1 h).1]
    exact h
  · rw [hco, List.getElem?_append_right (by omega), Nat.add_sub_cancel_left]
    exact hx

/-- A point with a negative weight is not inside, up to the tolerance. -/
theorem negative_outside {area : List E → K} {n : Nat} (ha : Barycentric K area n) {l : List E} {w : List K} {tol a : K}
    (hl : l.length = n) (hw : w.length = n) (hs : w.sum = 1) (hA : 0 ≤ area l) (haw : a ∈ w) (h0 : a < 0)
    (htol : tol ≤ 2 * (|a| * area l)) : pointIsInside area tol (comb K w l) l = false := by
  unfold pointIsInside
  rw [decide_eq_false_iff_not, simplices_area ha hl hw hs, not_lt]
  have h1 := (sum_abs_sub w).2 a haw h0
  rw [hs] at h1
  rw [abs_sub_comm]
  refine le_trans htol (le_trans ?_ (le_abs_self _))
  nlinarith [mul_le_mul_of_nonneg_right h1 hA]

/-- A refinement which agrees with another one on meshes. -/
theorem refineMore_congr {area : List E → K} {np np' : List E → List (List Nat) → List E}
    {hmin : List E → List (List Nat) → K} {strict : K} {tdim n : Nat} (hp : Inner K np' n)
    (he : ∀ M : RMesh E, M.OK n → np M.coords M.cells = np' M.coords M.cells) : ∀ (k : Nat) (M0 : RMesh E) (r s : List Nat),
    M0.OK n → refineMore area np hmin strict tdim n k M0 r s = refineMore area np' hmin strict tdim n k M0 r s
  | 0, _, _, _, _ => rfl
  | k + 1, M0, r, s, h0 => by
      have e : refineOnce area np hmin strict tdim n M0 = refineOnce area np' hmin strict tdim n M0 := by
        unfold refineOnce
        rw [he M0 h0]
      unfold refineMore
      rw [e]
      cases h1 : refineOnce area np' hmin strict tdim n M0 with
      | error _ => rfl
      | ok M1 =>
          obtain ⟨x, hs, -⟩ := step h0 hp h1
          simp only [py_bind_ok]
          cases pyMap (pyGet M0.cmap) M1.cmap with
          | error _ => rfl
          | ok cmap =>
              simp only [py_bind_ok]
              congr 1
              funext _
              exact refineMore_congr hp he k _ _ _ hs.ok

theorem innerPointRefine_congr {area : List E → K} {np np' : List E → List (List Nat) → List E}
    {hmin : List E → List (List Nat) → K} {strict : K} {tdim n : Nat} (hp : Inner K np' n)
    (he : ∀ M : RMesh E, M.OK n → np M.coords M.cells = np' M.coords M.cells) {M : RMesh E} (hM : M.OK n) (nrefs : Int) :
    innerPointRefine area np hmin strict tdim n M nrefs = innerPointRefine area np' hmin strict tdim n M nrefs := by
  have e : refineOnce area np hmin strict tdim n M = refineOnce area np' hmin strict tdim n M := by
    unfold refineOnce
    rw [he M hM]
  unfold innerPointRefine
  rw [e]
  cases h1 : refineOnce area np' hmin strict tdim n M with
  | error _ => rfl
  | ok M1 =>
      obtain ⟨x, hs, -⟩ := step hM hp h1
      simp only [py_bind_ok]
      rw [refineMore_congr hp he _ _ _ _ hs.ok]

/-! ## The last weight of the circumcentre of a child -/

/-- Some weight is at most the mean. -/
theorem small_weight {w : List K} (hne : w ≠ []) (hs : w.sum = 1) : ∃ i, ∃ h : i < w.length, w[i] * (w.length : K) ≤ 1 := by
  by_contra hcon
  push Not at hcon
  have key : ∀ (v : List K) (c : K), v ≠ [] → (∀ a ∈ v, c < a) → (v.length : K) * c < v.sum := by
    intro v c
    induction v with
    | nil => intro h; exact absurd rfl h
    | cons a v ih =>
        intro _ h
        rw [List.sum_cons, List.length_cons]
        have h1 := h a (by simp)
        rcases v with _ | ⟨b, v⟩
        · simpa using h1
        · have := ih (by simp) (fun x hx => h x (by simp [hx]))
          push_cast at this ⊢
          linarith
  have hpos : (0 : K) < (w.length : K) := by exact_mod_cast List.length_pos_iff.2 hne
  have := key w (1 / (w.length : K)) hne (by
    intro a ha
    obtain ⟨i, hi, rfl⟩ := List.getElem_of_mem ha
    rw [div_lt_iff₀ hpos]
    exact hcon i hi)
  rw [hs, mul_one_div_cancel hpos.ne'] at this
  exact lt_irrefl _ this

omit [LinearOrder K] [IsStrictOrderedRing K] in
theorem comb_append {w1 w2 : List K} {l1 l2 : List E} (h : w1.length = l1.length) :
    comb K (w1 ++ w2) (l1 ++ l2) = comb K w1 l1 + comb K w2 l2 := by
  unfold comb
  rw [List.zipWith_append h, List.sum_append]

omit [LinearOrder K] [IsStrictOrderedRing K] in
/-- A product which is the same for all points. -/
theorem dot_comb {d : Nat} (z y : Fin d → K) (c : K) : ∀ (w : List K) (m : List (Fin d → K)), w.length = m.length →
    (∀ q ∈ m, z ⬝ᵥ (q - y) = c) → z ⬝ᵥ (comb K w m - w.sum • y) = w.sum * c
  | [], [], _, _ => by simp [comb]
  | [], _ :: _, h, _ => by simp at h
  | _ :: _, [], h, _ => by simp at h
  | a :: w, p :: m, h, hm => by
      have h1 := dot_comb z y c w m (by simpa using h) (fun q hq => hm q (by simp [hq]))
      have h2 := hm p (by simp)
      have e : comb K (a :: w) (p :: m) - (a :: w).sum • y = a • (p - y) + (comb K w m - w.sum • y) := by
        have e2 : comb K (a :: w) (p :: m) = a • p + comb K w m := by simp [comb]
        rw [e2, List.sum_cons]
        module
      rw [e, dotProduct_add, dotProduct_smul, h1, h2, List.sum_cons, smul_eq_mul]
      ring

/-- The circumcentre `z` of the child opposite to a vertex of small weight is far behind the base. -/
theorem apex_weight {d : Nat} {l1 l2 : List (Fin d → K)} {p y z : Fin d → K} {w1 w2 ub : List K} {a t R : K}
    (h1 : w1.length = l1.length) (h2 : w2.length = l2.length) (ha : 0 < a) (ha3 : 3 * a ≤ 1)
    (hs : (w1 ++ a :: w2).sum = 1) (hy : comb K (w1 ++ a :: w2) (l1 ++ p :: l2) = y) (hR : 0 < R)
    (hp : dist2 y p = R) (hb : ∀ q ∈ l1 ++ l2, dist2 y q = R) (hub : ub.length = (l1 ++ l2).length)
    (hz : ∀ q ∈ l1 ++ l2, dist2 z q = dist2 z y) (hus : (ub ++ [t]).sum = 1)
    (hzc : comb K (ub ++ [t]) (l1 ++ l2 ++ [y]) = z) : t ≤ -1 := by
  have hdot : ∀ q ∈ l1 ++ l2, (z - y) ⬝ᵥ (q - y) = R / 2 := by
    intro q hq
    have e1 := hz q hq
    have e2 := hb q hq
    rw [dist2_eq] at e1 e2
    rw [dist2_eq] at e1
    have e3 : (z - q) = (z - y) - (q - y) := by abel
    have e4 : (y - q) = -(q - y) := by abel
    rw [e3] at e1
    rw [e4, neg_dotProduct_neg] at e2
    generalize z - y = A at e1 ⊢
    generalize q - y = B at e1 e2 ⊢
    rw [sub_dotProduct, dotProduct_sub, dotProduct_sub, dotProduct_comm B A] at e1
    linarith
  -- the point of the base opposite to p
  have g1 := dot_comb (z - y) y (R / 2) (w1 ++ w2) (l1 ++ l2) (by simp [h1, h2]) hdot
  have s1 : (w1 ++ w2).sum = 1 - a := by
    simp only [List.sum_append, List.sum_cons] at hs ⊢
    linarith
  have c1 : comb K (w1 ++ w2) (l1 ++ l2) = y - a • p := by
    rw [comb_append h1] at hy ⊢
    have : comb K (a :: w2) (p :: l2) = a • p + comb K w2 l2 := by simp [comb]
    rw [← hy, this]
    abel
  rw [s1, c1] at g1
  have e1 : y - a • p - (1 - a) • y = a • (y - p) := by module
  rw [e1, dotProduct_smul, smul_eq_mul] at g1
  -- the circumcentre itself
  have g2 := dot_comb (z - y) y (R / 2) ub (l1 ++ l2) hub hdot
  have s2 : ub.sum = 1 - t := by
    simp only [List.sum_append, List.sum_cons, List.sum_nil] at hus
    linarith
  have c2 : comb K ub (l1 ++ l2) = z - t • y := by
    rw [comb_append hub] at hzc
    have : comb K [t] [y] = t • y := by simp [comb]
    rw [← hzc, this]
    abel
  rw [s2, c2] at g2
  have e2 : z - t • y - (1 - t) • y = z - y := by module
  rw [e2] at g2
  have cs : ((z - y) ⬝ᵥ (y - p)) ^ 2 ≤ ((z - y) ⬝ᵥ (z - y)) * ((y - p) ⬝ᵥ (y - p)) := by
    have := Finset.sum_mul_sq_le_sq_mul_sq Finset.univ (fun i => (z - y) i) (fun i => (y - p) i)
    simp only [pow_two (_ : K)] at this ⊢
    simpa only [dotProduct, pow_two] using this
  rw [g2, ← dist2_eq, hp] at cs
  generalize (z - y) ⬝ᵥ (y - p) = k at *
  by_contra ht
  push Not at ht
  -- a k = (1 - a) R / 2, k² ≤ (1 - t) R² / 2 < R²
  have hk : k ^ 2 < R ^ 2 := by
    have : (1 - t) * (R / 2) * R < R ^ 2 := by nlinarith [mul_pos hR hR]
    linarith
  have hk2 : R ≤ k := by
    have : a * R ≤ a * k := by nlinarith
    exact le_of_mul_le_mul_left this ha
  nlinarith

/-- Points of a nondegenerate cell are not all the same. -/
theorem radius_pos {d : Nat} {l : List (Fin d → K)} {y : Fin d → K} {R : K} (hl : AffInd K l) (h2 : 2 ≤ l.length)
    (h : ∀ p ∈ l, dist2 y p = R) : 0 < R := by
  rcases l with _ | ⟨p, _ | ⟨q, l⟩⟩
  · simp at h2
  · simp at h2
  have hnn : 0 ≤ R := by
    rw [← h p (by simp)]
    unfold dist2
    exact Finset.sum_nonneg (fun i _ => sq_nonneg _)
  refine lt_of_le_of_ne hnn (fun h0 => ?_)
  have z : ∀ r ∈ p :: q :: l, y = r := by
    intro r hr
    have := h r hr
    rw [dist2_eq, ← h0] at this
    exact sub_eq_zero.1 (dot_self_eq_zero this)
  have hpq : p = q := (z p (by simp)).symm.trans (z q (by simp))
  have hz : ∀ m : List (Fin d → K), (List.zipWith (fun (a : K) p => a • p) (List.replicate m.length 0) m).sum = 0 := by
    intro m
    induction m with
    | nil => rfl
    | cons a m ih => rw [List.length_cons, List.replicate_succ, List.zipWith_cons_cons, List.sum_cons, ih]; simp
  have := hl (1 :: -1 :: List.replicate l.length 0) (by simp) (by simp) (by
    simp only [comb, List.zipWith_cons_cons, List.sum_cons, hz, hpq]
    simp) 1 (by simp)
  exact one_ne_zero this

end Verif.Refine
