import Verif.Spec.Normal
import Mathlib.Data.List.FinRange
import Mathlib.Algebra.BigOperators.Fin
import Mathlib.Tactic.Linarith
import Mathlib.Tactic.Ring
import Mathlib.Tactic.NormNum
import Mathlib.Tactic.FinCases
import Mathlib.Tactic.Positivity
import Mathlib.Tactic.FieldSimp
/-!
# Lemmas for `Props/Normal.lean`
-/
namespace Verif.Normal
open Verif Matrix
variable {d : Nat}

theorem unit_iff {n : Fin d → ℝ} : Unit n ↔ n ⬝ᵥ n = 1 := by
  unfold Unit dotProduct
  rw [show (∑ i, n i ^ 2) = ∑ i, n i * n i from Finset.sum_congr rfl (fun i _ => by ring)]

theorem dot_pos {n : Fin d → ℝ} (h : n ≠ 0) : 0 < n ⬝ᵥ n := by
  have h0 : 0 ≤ n ⬝ᵥ n := Finset.sum_nonneg (fun i _ => mul_self_nonneg (n i))
  rcases h0.lt_or_eq with h1 | h1
  · exact h1
  · exfalso
    apply h
    unfold dotProduct at h1
    have := (Finset.sum_eq_zero_iff_of_nonneg (fun i _ => mul_self_nonneg (n i))).1 h1.symm
    funext i
    exact mul_self_eq_zero.1 (this i (Finset.mem_univ i))

theorem norm_pos {n : Fin d → ℝ} (h : n ≠ 0) : 0 < norm n := Real.sqrt_pos.2 (dot_pos h)

theorem norm_sq (n : Fin d → ℝ) : norm n * norm n = n ⬝ᵥ n :=
  Real.mul_self_sqrt (Finset.sum_nonneg (fun i _ => mul_self_nonneg (n i)))

theorem normalized_unit {n : Fin d → ℝ} (h : n ≠ 0) : Unit ((1 / norm n) • n) := by
  rw [unit_iff, smul_dotProduct, dotProduct_smul, ← norm_sq, smul_eq_mul, smul_eq_mul]
  have := norm_pos h
  field_simp

/-- The value in one cell. -/
theorem cellValue_spec {o : (Fin d → ℝ) → Fin d → ℝ} {n x : Fin d → ℝ} (h : n ≠ 0) :
    Unit (cellValue o n x) ∧ Along (cellValue o n x) n ∧ 0 ≤ o x ⬝ᵥ cellValue o n x := by
  unfold cellValue
  dsimp only
  split
  · rename_i hlt
    have h' : (-1 : ℝ) • n ≠ 0 := by simpa using h
    refine ⟨normalized_unit h', ⟨1 / norm ((-1 : ℝ) • n) * (-1), by rw [mul_smul]⟩, ?_⟩
    rw [dotProduct_smul, dotProduct_smul, smul_eq_mul, smul_eq_mul]
    have := norm_pos h'
    have : 0 ≤ 1 / norm ((-1 : ℝ) • n) := by positivity
    exact mul_nonneg this (by linarith)
  · rename_i hge
    refine ⟨normalized_unit h, ⟨_, rfl⟩, ?_⟩
    rw [dotProduct_smul, smul_eq_mul]
    have := norm_pos h
    have : 0 ≤ 1 / norm n := by positivity
    exact mul_nonneg this (by linarith)

theorem assign_length (a : List ℝ) (dofs : List Nat) (vals : List ℝ) : (assign a dofs vals).length = a.length := by
  unfold assign
  generalize List.zip dofs vals = z
  induction z generalizing a with
  | nil => rfl
  | cons p z ih => rw [List.foldl_cons, ih, List.length_set]

/-- An entry which is not assigned. -/
theorem assign_other (a : List ℝ) (dofs : List Nat) (vals : List ℝ) {i : Nat} (h : i ∉ dofs) :
    (assign a dofs vals).getD i 0 = a.getD i 0 := by
  unfold assign
  induction dofs generalizing a vals with
  | nil => rfl
  | cons j dofs ih =>
      rcases vals with _ | ⟨v, vals⟩
      · rfl
      · rw [List.zip_cons_cons, List.foldl_cons, ih _ _ (by simp at h; exact h.2)]
        simp only [List.getD_eq_getElem?_getD]
        rw [List.getElem?_set_ne (by simp at h; exact fun e => h.1 e.symm)]

/-- An entry which is assigned once. -/
theorem assign_at (a : List ℝ) (dofs : List Nat) (vals : List ℝ) (hnd : dofs.Nodup) (hb : ∀ i ∈ dofs, i < a.length) {k i : Nat} {v : ℝ}
    (hi : dofs[k]? = some i) (hv : vals[k]? = some v) : (assign a dofs vals).getD i 0 = v := by
  induction dofs generalizing a vals k with
  | nil => simp at hi
  | cons j dofs ih =>
      rcases vals with _ | ⟨w, vals⟩
      · simp at hv
      · have hs : assign a (j :: dofs) (w :: vals) = assign (a.set j w) dofs vals := rfl
        rw [hs]
        rcases k with _ | k
        · simp at hi hv
          subst hi hv
          rw [assign_other _ _ _ (List.nodup_cons.1 hnd).1]
          simp [List.getD_eq_getElem?_getD, hb j (by simp)]
        · exact ih (a.set j w) vals (List.nodup_cons.1 hnd).2 (fun i hi => by rw [List.length_set]; exact hb i (by simp [hi]))
            (by simpa using hi) (by simpa using hv)

theorem fillSubs_other {S : Surface d} (hS : S.Numbered) {values : List (Fin d → ℝ)} {c : Nat} (hc : c < S.normals.length)
    {s : Fin d} : ∀ {ss : List (Fin d)} {a : List ℝ}, s ∉ ss →
    (fillSubs S values ss a).getD (S.cellDof c s) 0 = a.getD (S.cellDof c s) 0
  | [], _, _ => rfl
  | t :: ss, a, h => by
      rw [fillSubs, fillSubs_other hS hc (by simp at h; exact h.2), assign_other]
      rw [hS.subDofs t]
      intro hmem
      obtain ⟨c', hc', he⟩ := List.mem_map.1 hmem
      have := hS.distinct c' t c s (by simpa using hc') hc he
      simp at h
      exact h.1 this.2.symm

theorem fillSubs_at {S : Surface d} (hS : S.Numbered) {values : List (Fin d → ℝ)} (hl : values.length = S.normals.length) {c : Nat}
    (hc : c < S.normals.length) {s : Fin d} {v : Fin d → ℝ} (hv : values[c]? = some v) : ∀ {ss : List (Fin d)} {a : List ℝ}, ss.Nodup →
    s ∈ ss → a.length = S.dim → (fillSubs S values ss a).getD (S.cellDof c s) 0 = v s
  | [], _, _, h, _ => by simp at h
  | t :: ss, a, hnd, h, ha => by
      rw [fillSubs]
      rcases List.mem_cons.1 h with rfl | h
      · rw [fillSubs_other hS hc (List.nodup_cons.1 hnd).1]
        refine assign_at (k := c) _ _ _ ?_ ?_ ?_ ?_
        · rw [hS.subDofs s]
          refine List.Nodup.map_on ?_ List.nodup_range
          intro x hx y hy e
          exact (hS.distinct x s y s (by simpa using hx) (by simpa using hy) e).1
        · intro i hi
          rw [hS.subDofs s] at hi
          obtain ⟨c', hc', rfl⟩ := List.mem_map.1 hi
          rw [ha]
          exact hS.bound c' s (by simpa using hc')
        · rw [hS.subDofs s]
          simp [hc]
        · simp [hv]
      · exact fillSubs_at hS hl hc hv (List.nodup_cons.1 hnd).2 h (by rw [assign_length, ha])

theorem byExpression_eq {S : Surface d} (hS : S.Numbered) (o : (Fin d → ℝ) → Fin d → ℝ) :
    byExpression S d o = .ok (List.zipWith (cellValue o) S.normals S.midpoints) := by
  unfold byExpression
  simp only [decide_true, pyAssert_true, py_bind_ok]
  congr 1
  have hl : (List.zipWith (cellValue o) S.normals S.midpoints).length = S.normals.length := by simp [hS.midpoints]
  refine List.ext_getElem (by simp [hS.midpoints]) (fun c h1 h2 => ?_)
  rw [List.getElem_map, List.getElem_range]
  have hc : c < S.normals.length := by simpa using h1
  funext s
  unfold valueAt
  exact fillSubs_at hS hl hc (List.getElem?_eq_getElem h2) (List.nodup_finRange d) (List.mem_finRange s) (by simp)

theorem point_eq {S : Surface d} (hS : S.Numbered) (hm : 1 ≤ S.tdim ∧ S.tdim < d) (p : Fin d → ℝ) :
    outerNormal S (.point (List.ofFn p)) = .ok (List.zipWith (cellValue (fun y => y - p)) S.normals S.midpoints) := by
  unfold outerNormal manifold byPoint
  rw [show decide (1 ≤ S.tdim ∧ S.tdim < d) = true from decide_eq_true hm]
  simp only [List.length_ofFn, decide_true, pyAssert_true, py_bind_ok]
  rw [byExpression_eq hS]
  congr 3
  funext y i
  simp [List.getD_eq_getElem?_getD]

theorem meanPoint_eq (S : Surface d) :
    meanPoint S = List.ofFn (fun i => (S.coordinates.map (fun v => v i)).sum / S.coordinates.length) := by
  unfold meanPoint
  rw [List.ofFn_eq_map]

theorem sum_dot (l : List (Fin d → ℝ)) (a : Fin d → ℝ) : (fun i => (l.map (fun v => v i)).sum) ⬝ᵥ a = (l.map (fun v => v ⬝ᵥ a)).sum := by
  induction l with
  | nil => simp [dotProduct]
  | cons v l ih =>
      simp only [List.map_cons, List.sum_cons]
      rw [← ih]
      unfold dotProduct
      rw [← Finset.sum_add_distrib]
      exact Finset.sum_congr rfl (fun i _ => by ring)

theorem sum_pos_of {l : List ℝ} (h : ∀ x ∈ l, 0 ≤ x) (h' : ∃ x ∈ l, 0 < x) : 0 < l.sum := by
  induction l with
  | nil => simp at h'
  | cons y l ih =>
      rw [List.sum_cons]
      have hl : 0 ≤ l.sum := List.sum_nonneg (fun x hx => h x (by simp [hx]))
      have hy := h y (by simp)
      obtain ⟨x, hx, hp⟩ := h'
      rcases List.mem_cons.1 hx with rfl | hx
      · linarith
      · have := ih (fun x hx => h x (by simp [hx])) ⟨x, hx, hp⟩
        linarith

/-- A unit vector along a unit vector with positive product is that vector. -/
theorem along_unit {n a v o : Fin d → ℝ} (hn : Unit n) (ha : Unit a) (h1 : Along n v) (h2 : Along v a) (hp : 0 < o ⬝ᵥ a) (h0 : 0 ≤ o ⬝ᵥ n) :
    n = a := by
  obtain ⟨s, rfl⟩ := h1
  obtain ⟨t, rfl⟩ := h2
  rw [unit_iff] at hn ha
  rw [smul_smul] at hn h0 ⊢
  rw [smul_dotProduct, dotProduct_smul, ha, smul_eq_mul, smul_eq_mul, mul_one] at hn
  rw [dotProduct_smul, smul_eq_mul] at h0
  generalize s * t = r at *
  have hr : 0 ≤ r := by
    by_contra hneg
    push Not at hneg
    have := mul_neg_of_neg_of_pos hneg hp
    linarith
  have : r = 1 := by nlinarith
  rw [this, one_smul]

theorem traceValues_ok {M : Outer d} {value : Facet d → Py (Fin d → ℝ)} : ∀ {is : List Nat},
    (∀ i ∈ is, ∃ f n, M.facets[i]? = some f ∧ value f = .ok n) →
    ∃ ns, traceValues M value is = .ok ns ∧ ns.length = is.length ∧
      ∀ (c i : Nat) f n, ns[c]? = some n → is[c]? = some i → M.facets[i]? = some f → value f = .ok n
  | [], _ => ⟨[], rfl, rfl, fun c i f n h => by simp at h⟩
  | i :: is, h => by
      obtain ⟨f, n, hf, hn⟩ := h i (by simp)
      obtain ⟨ns, h1, h2, h3⟩ := traceValues_ok (is := is) (fun j hj => h j (by simp [hj]))
      refine ⟨n :: ns, ?_, by simp [h2], ?_⟩
      · unfold traceValues facetOf
        rw [hf]
        dsimp only [bind, Except.bind]
        rw [hn]
        dsimp only
        rw [h1]
      · intro c j g m e1 e2 e3
        rcases c with _ | c
        · simp at e1 e2
          subst e1 e2
          rw [hf] at e3
          injection e3 with e3
          subst e3
          exact hn
        · exact h3 c j g m (by simpa using e1) (by simpa using e2) e3

theorem parentsIn_eq {S : Surface d} {id : Nat} {is : List Nat} (h : (id, is) ∈ S.parents) (hnd : (S.parents.map Prod.fst).Nodup) :
    parentsIn S id = .ok is := by
  unfold parentsIn
  have : S.parents.find? (fun p => p.1 == id) = some (id, is) := by
    generalize S.parents = l at *
    induction l with
    | nil => simp at h
    | cons p l ih =>
        rw [List.find?_cons]
        rcases List.mem_cons.1 h with rfl | h
        · simp
        · have hne : p.1 ≠ id := by
            intro e
            rw [List.map_cons, List.nodup_cons] at hnd
            exact hnd.1 (List.mem_map.2 ⟨_, h, e.symm⟩)
          rw [show (p.1 == id) = false by simpa using hne]
          exact ih h (by rw [List.map_cons, List.nodup_cons] at hnd; exact hnd.2)
  rw [this]

end Verif.Normal
