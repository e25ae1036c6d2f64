import Verif.Spec.Refine
import Verif.Lemmas.BlockOps
import Mathlib.Algebra.BigOperators.Fin
import Mathlib.Algebra.BigOperators.Ring.Finset
import Mathlib.Algebra.Order.BigOperators.Group.Finset
import Mathlib.Algebra.Module.BigOperators
import Mathlib.Data.Fintype.Lattice
import Mathlib.Data.List.OfFn
import Mathlib.Tactic.Ring
import Mathlib.Tactic.Linarith
import Mathlib.Tactic.FieldSimp
/-!
# Simplices divided by an inner point
-/
namespace Verif.Refine
open Verif Verif.BlockOps
variable {K E : Type} [Field K] [LinearOrder K] [IsStrictOrderedRing K] [AddCommGroup E] [Module K E]

/-- Combinations with weights which satisfy `p` and have the sum `s`. -/
def GenHull (p : K → Prop) (s : K) (l : List E) (y : E) : Prop :=
  ∃ w : List K, w.length = l.length ∧ (∀ a ∈ w, p a) ∧ w.sum = s ∧ comb K w l = y

omit [LinearOrder K] [IsStrictOrderedRing K] in
theorem comb_cons (a : K) (w : List K) (x : E) (l : List E) : comb K (a :: w) (x :: l) = a • x + comb K w l := by
  simp [comb]

omit [LinearOrder K] [IsStrictOrderedRing K] in
/-- Weights follow a permutation of the points. -/
theorem comb_perm {l l' : List E} (h : l.Perm l') : ∀ w : List K, w.length = l.length →
    ∃ w' : List K, w.Perm w' ∧ comb K w' l' = comb K w l := by
  induction h with
  | nil => exact fun w _ => ⟨w, List.Perm.refl _, rfl⟩
  | cons x _ ih =>
      intro w hw
      rcases w with _ | ⟨a, w⟩
      · simp at hw
      · obtain ⟨w', h1, h2⟩ := ih w (by simpa using hw)
        exact ⟨a :: w', h1.cons a, by rw [comb_cons, comb_cons, h2]⟩
  | swap x z l =>
      intro w hw
      rcases w with _ | ⟨a, _ | ⟨b, w⟩⟩
      · simp at hw
      · simp at hw
      · exact ⟨b :: a :: w, List.Perm.swap _ _ _, by simp only [comb_cons]; rw [add_left_comm]⟩
  | trans h1 _ ih1 ih2 =>
      intro w hw
      obtain ⟨w1, a1, b1⟩ := ih1 w hw
      obtain ⟨w2, a2, b2⟩ := ih2 w1 (by rw [← a1.length_eq, hw, h1.length_eq])
      exact ⟨w2, a1.trans a2, b2.trans b1⟩

omit [LinearOrder K] [IsStrictOrderedRing K] in
theorem genHull_perm {p : K → Prop} {l l' : List E} (h : l.Perm l') {s : K} {y : E} (hy : GenHull p s l y) :
    GenHull p s l' y := by
  obtain ⟨w, a, b, c, d⟩ := hy
  obtain ⟨w', h1, h2⟩ := comb_perm h w a
  exact ⟨w', by rw [← h1.length_eq, a, h.length_eq], fun x hx => b x (h1.mem_iff.2 hx), by rw [← c, h1.sum_eq], h2.trans d⟩

/-- Combinations of a family of points. -/
def GenF {n : Nat} (p : K → Prop) (s : K) (f : Fin n → E) (y : E) : Prop :=
  ∃ w : Fin n → K, (∀ k, p (w k)) ∧ ∑ k, w k = s ∧ ∑ k, w k • f k = y

omit [LinearOrder K] [IsStrictOrderedRing K] in
theorem comb_ofFn {n : Nat} (w : Fin n → K) (f : Fin n → E) : comb K (List.ofFn w) (List.ofFn f) = ∑ k, w k • f k := by
  unfold comb
  rw [Fin.sum_univ_def, ← List.ofFn_eq_map]
  congr 1
  apply List.ext_getElem
  · simp
  · intro i h1 h2
    simp

omit [LinearOrder K] [IsStrictOrderedRing K] in
theorem genHull_ofFn {n : Nat} {p : K → Prop} {s : K} {f : Fin n → E} {y : E} :
    GenHull p s (List.ofFn f) y ↔ GenF p s f y := by
  constructor
  · rintro ⟨w, hl, hp, hs, hy⟩
    rw [List.length_ofFn] at hl
    subst hl
    refine ⟨fun k => w.get k, fun k => hp _ (List.get_mem _ _), ?_, ?_⟩
    · rw [← hs]
      conv_rhs => rw [← List.ofFn_get w, List.sum_ofFn]
    · rw [← comb_ofFn, List.ofFn_get, hy]
  · rintro ⟨w, hp, hs, hy⟩
    refine ⟨List.ofFn w, by simp, ?_, by rw [List.sum_ofFn, hs], by rw [comb_ofFn, hy]⟩
    intro a ha
    obtain ⟨k, rfl⟩ := (List.mem_ofFn' _ _).1 ha
    exact hp k

section Core
variable {n : Nat} {f : Fin n → E} {lam : Fin n → K} {x : E}

/-- The weights with respect to the parent. -/
def lift (lam : Fin n → K) (i : Fin n) (w : Fin n → K) (k : Fin n) : K := (if k = i then 0 else w k) + w i * lam k

omit [LinearOrder K] [IsStrictOrderedRing K] in
theorem sum_lift (hs : ∑ k, lam k = 1) (i : Fin n) (w : Fin n → K) : ∑ k, lift lam i w k = ∑ k, w k := by
  unfold lift
  rw [Finset.sum_add_distrib, ← Finset.mul_sum, hs, mul_one]
  have : ∀ k, (if k = i then (0 : K) else w k) = w k - (if k = i then w k else 0) := by
    intro k; split <;> simp
  simp only [this, Finset.sum_sub_distrib]
  simp

omit [LinearOrder K] [IsStrictOrderedRing K] in
theorem comb_lift (hx : ∑ k, lam k • f k = x) (i : Fin n) (w : Fin n → K) :
    ∑ k, w k • (Function.update f i x) k = ∑ k, lift lam i w k • f k := by
  unfold lift
  simp only [add_smul, Finset.sum_add_distrib, mul_smul, ← Finset.smul_sum, hx]
  have : ∀ k, w k • (Function.update f i x) k = (if k = i then (0 : K) else w k) • f k + (if k = i then w k • x else 0) := by
    intro k
    by_cases h : k = i
    · subst h; simp
    · simp [h]
  simp only [this, Finset.sum_add_distrib]
  congr 1
  simp

variable (hpos : ∀ k, 0 < lam k) (hs : ∑ k, lam k = 1) (hx : ∑ k, lam k • f k = x)
include hpos hs hx

theorem child_subset {i : Fin n} {y : E} (h : GenF (fun a : K => 0 ≤ a) 1 (Function.update f i x) y) :
    GenF (fun a : K => 0 ≤ a) 1 f y := by
  obtain ⟨w, hp, hw, hy⟩ := h
  refine ⟨lift lam i w, fun k => ?_, by rw [sum_lift hs, hw], by rw [← comb_lift hx, hy]⟩
  unfold lift
  have := mul_nonneg (hp i) (hpos k).le
  split
  · simpa using this
  · exact add_nonneg (hp k) this

theorem child_open_subset {i : Fin n} {y : E} (h : GenF (fun a : K => 0 < a) 1 (Function.update f i x) y) :
    GenF (fun a : K => 0 < a) 1 f y := by
  obtain ⟨w, hp, hw, hy⟩ := h
  refine ⟨lift lam i w, fun k => ?_, by rw [sum_lift hs, hw], by rw [← comb_lift hx, hy]⟩
  unfold lift
  have := mul_pos (hp i) (hpos k)
  split
  · simpa using this
  · exact add_pos (hp k) this

/-- The children cover their parent. -/
theorem children_cover {y : E} (h : GenF (fun a : K => 0 ≤ a) 1 f y) :
    ∃ i, GenF (fun a : K => 0 ≤ a) 1 (Function.update f i x) y := by
  obtain ⟨mu, hp, hw, hy⟩ := h
  have hne : Nonempty (Fin n) := by
    by_contra hne
    rw [not_nonempty_iff] at hne
    rw [Finset.univ_eq_empty, Finset.sum_empty] at hw
    exact zero_ne_one hw
  obtain ⟨i, hi⟩ := Finite.exists_min (fun k => mu k / lam k)
  have hl : ∀ k, lam k ≠ 0 := fun k => (hpos k).ne'
  have key : ∀ k, lift lam i (fun k => if k = i then mu i / lam i else mu k - mu i / lam i * lam k) k = mu k := by
    intro k
    unfold lift
    dsimp only
    rw [if_pos rfl]
    by_cases h : k = i
    · subst h
      rw [if_pos rfl, zero_add, div_mul_cancel₀ _ (hl k)]
    · rw [if_neg h, if_neg h]; ring
  refine ⟨i, fun k => if k = i then mu i / lam i else mu k - mu i / lam i * lam k, fun k => ?_, ?_, ?_⟩
  · dsimp only
    split
    · exact div_nonneg (hp i) (hpos i).le
    · have := hi k
      rw [div_le_div_iff₀ (hpos i) (hpos k)] at this
      rw [sub_nonneg, div_mul_eq_mul_div, div_le_iff₀ (hpos i)]
      exact this
  · rw [← sum_lift hs i]
    simp only [key]
    exact hw
  · rw [comb_lift hx]
    simp only [key]
    exact hy

omit hpos in
omit [LinearOrder K] [IsStrictOrderedRing K] in
theorem lift_unique (hind : ∀ w : Fin n → K, ∑ k, w k = 0 → ∑ k, w k • f k = 0 → ∀ k, w k = 0) {i j : Fin n}
    {u v : Fin n → K} (hu : ∑ k, u k = 1) (hv : ∑ k, v k = 1)
    (h : ∑ k, u k • (Function.update f i x) k = ∑ k, v k • (Function.update f j x) k) :
    ∀ k, lift lam i u k = lift lam j v k := by
  intro k
  have := hind (fun k => lift lam i u k - lift lam j v k)
    (by rw [Finset.sum_sub_distrib, sum_lift hs, sum_lift hs, hu, hv, sub_self])
    (by
      simp only [sub_smul, Finset.sum_sub_distrib]
      rw [← comb_lift hx, ← comb_lift hx, h, sub_self]) k
  exact sub_eq_zero.1 this

/-- The interiors of different children are disjoint. -/
theorem children_disjoint (hind : ∀ w : Fin n → K, ∑ k, w k = 0 → ∑ k, w k • f k = 0 → ∀ k, w k = 0) {i j : Fin n}
    {y : E} (hi : GenF (fun a : K => 0 < a) 1 (Function.update f i x) y)
    (hj : GenF (fun a : K => 0 < a) 1 (Function.update f j x) y) : i = j := by
  by_contra hij
  obtain ⟨u, pu, su, yu⟩ := hi
  obtain ⟨v, pv, sv, yv⟩ := hj
  have h := lift_unique hs hx hind su sv (yu.trans yv.symm)
  have h1 := h i
  have h2 := h j
  unfold lift at h1 h2
  rw [if_pos rfl, if_neg hij] at h1
  rw [if_pos rfl, if_neg (fun h => hij h.symm)] at h2
  have a1 : v j * lam i < u i * lam i := by have := pv i; linarith
  have a2 : u i * lam j < v j * lam j := by have := pu j; linarith
  have b1 := lt_of_mul_lt_mul_right a1 (hpos i).le
  have b2 := lt_of_mul_lt_mul_right a2 (hpos j).le
  exact lt_asymm b1 b2

/-- Children are nondegenerate. -/
theorem child_affInd (hind : ∀ w : Fin n → K, ∑ k, w k = 0 → ∑ k, w k • f k = 0 → ∀ k, w k = 0) {i : Fin n}
    (w : Fin n → K) (h0 : ∑ k, w k = 0) (h1 : ∑ k, w k • (Function.update f i x) k = 0) : ∀ k, w k = 0 := by
  have h := hind (lift lam i w) (by rw [sum_lift hs, h0]) (by rw [← comb_lift hx, h1])
  have hi : w i = 0 := by
    have := h i
    unfold lift at this
    rw [if_pos rfl, zero_add] at this
    exact (mul_eq_zero.1 this).resolve_right (hpos i).ne'
  intro k
  by_cases hk : k = i
  · rw [hk, hi]
  · have := h k
    unfold lift at this
    rw [if_neg hk, hi, zero_mul, add_zero] at this
    exact this

end Core

/-! ## Lists of points -/

omit [LinearOrder K] [IsStrictOrderedRing K] in
theorem affInd_iff {l : List E} : AffInd K l ↔
    ∀ w : Fin l.length → K, ∑ k, w k = 0 → ∑ k, w k • l.get k = 0 → ∀ k, w k = 0 := by
  constructor
  · intro h w hs hc k
    refine h (List.ofFn w) (by simp) (by rw [List.sum_ofFn, hs]) ?_ _ ((List.mem_ofFn' _ _).2 ⟨k, rfl⟩)
    have := comb_ofFn w (fun k => l.get k)
    rw [List.ofFn_get] at this
    rw [this, hc]
  · intro h w hl hs hc a ha
    obtain ⟨i, hi, rfl⟩ := List.getElem_of_mem ha
    have hw : w = List.ofFn (fun k : Fin l.length => w[k.1]'(by rw [hl]; exact k.2)) := by
      apply List.ext_getElem
      · simp [hl]
      · intro i h1 h2; simp
    have hl' : l = List.ofFn (fun k => l.get k) := (List.ofFn_get l).symm
    have := h (fun k => w[k.1]'(by rw [hl]; exact k.2)) (by
        rw [← List.sum_ofFn, ← hw, hs]) (by
        rw [← comb_ofFn, ← hw, List.ofFn_get, hc]) ⟨i, by rw [← hl]; exact hi⟩
    exact this

omit [LinearOrder K] [IsStrictOrderedRing K] in
theorem affInd_perm {l l' : List E} (h : l.Perm l') : AffInd K l → AffInd K l' := by
  intro hl w hw hs hc a ha
  obtain ⟨w', h1, h2⟩ := comb_perm h.symm w hw
  exact hl w' (by rw [← h1.length_eq, hw, h.length_eq]) (by rw [← h1.sum_eq, hs]) (h2.trans hc) a (h1.mem_iff.1 ha)

theorem set_perm : ∀ (l : List E) (i : Nat) (x : E), i < l.length → (l.eraseIdx i ++ [x]).Perm (l.set i x)
  | [], i, x, h => by simp at h
  | a :: l, 0, x, _ => by
      simp only [List.eraseIdx_cons_zero, List.set_cons_zero]
      exact List.perm_append_singleton x l
  | a :: l, i + 1, x, h => by
      simp only [List.eraseIdx_cons_succ, List.set_cons_succ, List.cons_append]
      exact (set_perm l i x (by simpa using h)).cons a

theorem set_eq_ofFn (l : List E) (i : Fin l.length) (x : E) :
    l.set i x = List.ofFn (Function.update (fun k => l.get k) i x) := by
  apply List.ext_getElem
  · simp
  · intro k h1 h2
    rw [List.getElem_set, List.getElem_ofFn]
    by_cases h : i.1 = k
    · subst h
      simp
    · rw [if_neg h, Function.update_of_ne]
      · rfl
      · intro h'
        exact h (by rw [← h'])

/-- Child `i` of a simplex as a family. -/
theorem genHull_child {p : K → Prop} {l : List E} (i : Fin l.length) {x : E} {s : K} {y : E} :
    GenHull p s (l.eraseIdx i ++ [x]) y ↔ GenF p s (Function.update (fun k => l.get k) i x) y := by
  rw [← genHull_ofFn, ← set_eq_ofFn]
  exact ⟨genHull_perm (set_perm l i x i.2), genHull_perm (set_perm l i x i.2).symm⟩

theorem genHull_get {p : K → Prop} {l : List E} {s : K} {y : E} :
    GenHull p s l y ↔ GenF p s (fun k => l.get k) y := by
  rw [← genHull_ofFn, List.ofFn_get]

section Child
variable {l : List E} {x : E} (hin : OpenHull K l x)
include hin

theorem hull_child {i : Nat} (hi : i < l.length) {y : E} (h : Hull K (l.eraseIdx i ++ [x]) y) : Hull K l y := by
  obtain ⟨lam, hpos, hs, hx⟩ := (genHull_get (p := fun a : K => 0 < a)).1 hin
  exact genHull_get.2 (child_subset hpos hs hx ((genHull_child ⟨i, hi⟩).1 h))

theorem openHull_child {i : Nat} (hi : i < l.length) {y : E} (h : OpenHull K (l.eraseIdx i ++ [x]) y) : OpenHull K l y := by
  obtain ⟨lam, hpos, hs, hx⟩ := (genHull_get (p := fun a : K => 0 < a)).1 hin
  exact genHull_get.2 (child_open_subset hpos hs hx ((genHull_child ⟨i, hi⟩).1 h))

theorem hull_cover {y : E} (h : Hull K l y) : ∃ i, i < l.length ∧ Hull K (l.eraseIdx i ++ [x]) y := by
  obtain ⟨lam, hpos, hs, hx⟩ := (genHull_get (p := fun a : K => 0 < a)).1 hin
  obtain ⟨i, hi⟩ := children_cover hpos hs hx (genHull_get.1 h)
  exact ⟨i, i.2, (genHull_child i).2 hi⟩

theorem hull_disjoint (hl : AffInd K l) {i j : Nat} (hi : i < l.length) (hj : j < l.length) {y : E}
    (h1 : OpenHull K (l.eraseIdx i ++ [x]) y) (h2 : OpenHull K (l.eraseIdx j ++ [x]) y) : i = j := by
  obtain ⟨lam, hpos, hs, hx⟩ := (genHull_get (p := fun a : K => 0 < a)).1 hin
  have := children_disjoint hpos hs hx (affInd_iff.1 hl) ((genHull_child ⟨i, hi⟩).1 h1) ((genHull_child ⟨j, hj⟩).1 h2)
  simpa using this

theorem affInd_child (hl : AffInd K l) {i : Nat} (hi : i < l.length) : AffInd K (l.eraseIdx i ++ [x]) := by
  obtain ⟨lam, hpos, hs, hx⟩ := (genHull_get (p := fun a : K => 0 < a)).1 hin
  apply affInd_perm (set_perm l i x hi).symm
  intro w hw h0 hc a ha
  rw [set_eq_ofFn l ⟨i, hi⟩] at hc hw
  rw [List.length_ofFn] at hw
  have hw' : w = List.ofFn (fun k : Fin l.length => w[k.1]'(by rw [hw]; exact k.2)) := by
    apply List.ext_getElem
    · simp [hw]
    · intro i h1 h2; simp
  have h := child_affInd (i := ⟨i, hi⟩) hpos hs hx (affInd_iff.1 hl) (fun k => w[k.1]'(by rw [hw]; exact k.2))
    (by rw [← List.sum_ofFn, ← hw', h0]) (by rw [← comb_ofFn, ← hw', hc])
  obtain ⟨k, hk, rfl⟩ := List.getElem_of_mem ha
  exact h ⟨k, by rw [← hw]; exact hk⟩

end Child

end Verif.Refine
