import Verif.Spec.CenterVec
import Verif.Lemmas.BlockOps
import Verif.Props.Center
import Mathlib.Tactic.FieldSimp
import Mathlib.Tactic.Abel
/-!
# Lemmas for `Props/CenterVec.lean`
-/
namespace Verif.CenterVec
open Verif Verif.BlockOps Matrix Verif.Center

theorem assembled_eq {E : Type} [AddCommGroup E] [Module ℝ E] {a : ℝ} (h : a ≠ 0) (g : E) : assembled a g = g := by
  unfold assembled
  rw [smul_smul, one_div, inv_mul_cancel₀ h, one_smul]

theorem mean_eq {d : Nat} (l : List (Fin d → ℝ)) : mean l = barycenter l := by
  unfold mean barycenter
  funext i
  rw [Pi.smul_apply, smul_eq_mul]
  have : l.sum i = (l.map (fun v => v i)).sum := by
    induction l with
    | nil => rfl
    | cons a l ih => simp [ih]
  rw [this]
  ring

theorem magnitude_eq {d : Nat} (x : Fin d → ℝ) : magnitude x = len x := by
  unfold magnitude len dotProduct
  congr 1
  exact Finset.sum_congr rfl (fun i _ => by ring)

theorem facetCentroid_eq {d : Nat} {f : Facet d} (h : f.area ≠ 0) : facetCentroid f = barycenter f.vertices := by
  unfold facetCentroid
  rw [assembled_eq h, mean_eq]


theorem pyMap_exists {α β : Type} {f : α → Py β} {R : α → β → Prop} : ∀ {l : List α},
    (∀ x ∈ l, ∃ y, f x = .ok y ∧ R x y) → ∃ ys, pyMap f l = .ok ys ∧ List.Forall₂ R l ys
  | [], _ => ⟨[], rfl, .nil⟩
  | x :: l, h => by
      obtain ⟨y, hy, hr⟩ := h x (by simp)
      obtain ⟨ys, hys, hrs⟩ := pyMap_exists (l := l) (fun z hz => h z (by simp [hz]))
      exact ⟨y :: ys, by simp [pyMap, hy, hys], .cons hr hrs⟩

theorem forall₂_zipWith {α β γ : Type} {R : α → β → Prop} {S : α → γ → Prop} {g : α → β → γ} {l : List α} {m : List β}
    (h : List.Forall₂ R l m) (hg : ∀ x ∈ l, ∀ y, R x y → S x (g x y)) : List.Forall₂ S l (List.zipWith g l m) := by
  induction h with
  | nil => exact .nil
  | cons h1 _ ih => exact .cons (hg _ (by simp) _ h1) (ih (fun x hx => hg x (by simp [hx])))

theorem centroid_at {d : Nat} (f : Facet d) : CentersAt cellCentroid (fun l c => c = barycenter l) f :=
  fun l _ => ⟨mean l, rfl, mean_eq l⟩

theorem worst_zero : ∀ {l : List (Option ℝ)}, (∀ c ∈ l, ∃ x : ℝ, c = some x ∧ |x| = 1) → worst l = some 0
  | [], _ => rfl
  | c :: l, h => by
      obtain ⟨x, rfl, hx⟩ := h c (by simp)
      rw [worst, worst_zero (fun c hc => h c (by simp [hc])), hx]
      simp

theorem deviation_zero {l : List (Option ℝ)} (hne : l ≠ []) (h : ∀ c ∈ l, ∃ x : ℝ, c = some x ∧ |x| = 1) :
    deviation l = .ok (some 0) := by
  unfold deviation
  rw [if_neg (by simpa using hne), worst_zero h]

theorem worst_ge : ∀ {l : List (Option ℝ)} {r : ℝ}, worst l = some r → ∀ x : ℝ, some x ∈ l → |(|x|) - 1| ≤ r
  | [], _, _ => fun x hx => by simp at hx
  | none :: _, _, h => by simp [worst] at h
  | some c :: l, r, h => by
      rw [worst] at h
      obtain ⟨y, hy, rfl⟩ := Option.map_eq_some_iff.1 h
      intro x hx
      rcases List.mem_cons.1 hx with hx | hx
      · injection hx with hx
        subst hx
        exact le_max_left _ _
      · exact (worst_ge hy x hx).trans (le_max_right _ _)

theorem cosine_parallel {d : Nat} {f : Facet d} (ha : f.area ≠ 0) (hu : f.normal ⬝ᵥ f.normal = 1) {nu : Fin d → ℝ} (h0 : nu ≠ 0)
    (hp : ∃ a : ℝ, nu = a • f.normal) : ∃ x : ℝ, cosine f nu = some x ∧ |x| = 1 := by
  obtain ⟨a, rfl⟩ := hp
  have ha0 : a ≠ 0 := fun h => h0 (by rw [h, zero_smul])
  have hm : magnitude (a • f.normal) = |a| := by
    unfold magnitude
    rw [smul_dotProduct, dotProduct_smul, hu, smul_eq_mul, smul_eq_mul, mul_one, ← sq, Real.sqrt_sq_eq_abs]
  have hm0 : |a| ≠ 0 := abs_ne_zero.2 ha0
  refine ⟨1 / |a| * a, ?_, ?_⟩
  · unfold cosine
    rw [hm, if_neg hm0, assembled_eq ha, dotProduct_smul, dotProduct_smul, hu]
    simp
  · rw [abs_mul, abs_div, abs_one, abs_abs, one_div, inv_mul_cancel₀ hm0]

theorem equidistant_orth {d : Nat} {c v w : Fin d → ℝ} (h : dist2 c v = dist2 c w) :
    2 * (c ⬝ᵥ (v - w)) = v ⬝ᵥ v - w ⬝ᵥ w := by
  rw [dist2_eq, dist2_eq] at h
  simp only [sub_dotProduct, dotProduct_sub] at h ⊢
  rw [dotProduct_comm v c, dotProduct_comm w c] at h
  linarith

/-- The vector between circumcentres is orthogonal to the facet. -/
theorem between_orth {d : Nat} {f : Facet d} (hf : f.Ok) {m : List (Fin d → ℝ)} (hm : f.minus = some m) {x : Fin d → ℝ}
    (h : Between IsCircumcenter f x) : ∃ a : ℝ, x = a • f.normal := by
  refine hf.normal x (fun v hv w hw => ?_)
  unfold Between at h
  rw [hm] at h
  obtain ⟨cp, cm, hp, hq, rfl⟩ := h
  have h1 := equidistant_orth (hp.2 v (hf.inPlus v hv) w (hf.inPlus w hw))
  have h2 := equidistant_orth (hq.2 v (hf.inMinus m hm v hv) w (hf.inMinus m hm w hw))
  rw [sub_dotProduct]
  linarith

/-- The same at exterior facets with two vertices. -/
theorem between_orth_exterior {d : Nat} {f : Facet d} (hf : f.Ok) (hm : f.minus = none) {p q : Fin d → ℝ}
    (hv : f.vertices = [p, q]) {x : Fin d → ℝ} (h : Between IsCircumcenter f x) : ∃ a : ℝ, x = a • f.normal := by
  unfold Between at h
  rw [hm] at h
  obtain ⟨c, hp, rfl⟩ := h
  have h1 := equidistant_orth (hp.2 p (hf.inPlus p (by simp [hv])) q (hf.inPlus q (by simp [hv])))
  have key : (c - barycenter f.vertices) ⬝ᵥ (p - q) = 0 := by
    have hb : barycenter f.vertices = (1 / 2 : ℝ) • (p + q) := by
      rw [hv, ← mean_eq]
      unfold mean
      simp
    rw [hb, sub_dotProduct, smul_dotProduct, add_dotProduct, smul_eq_mul]
    simp only [dotProduct_sub] at h1 ⊢
    rw [dotProduct_comm q p]
    linarith
  refine hf.normal _ (fun v hv' w hw => ?_)
  rw [hv] at hv' hw
  simp only [List.mem_cons, List.not_mem_nil, or_false] at hv' hw
  rcases hv' with rfl | rfl <;> rcases hw with rfl | rfl
  · rw [sub_self, dotProduct_zero]
  · exact key
  · rw [show v - w = -(w - v) by abel, dotProduct_neg, key, neg_zero]
  · rw [sub_self, dotProduct_zero]

theorem forall₂_zip {α β : Type} {R : α → β → Prop} {l : List α} {m : List β} (h : List.Forall₂ R l m) :
    ∀ x ∈ l.zip m, x.1 ∈ l ∧ R x.1 x.2 := by
  induction h with
  | nil => intro x hx; simp at hx
  | cons h1 _ ih =>
      intro x hx
      rw [List.zip_cons_cons] at hx
      rcases List.mem_cons.1 hx with rfl | hx
      · exact ⟨by simp, h1⟩
      · exact ⟨by simp [(ih x hx).1], (ih x hx).2⟩

theorem exists_zip {α β : Type} {R : α → β → Prop} {l : List α} {m : List β} (h : List.Forall₂ R l m) :
    ∀ a ∈ l, ∃ b, (a, b) ∈ l.zip m := by
  induction h with
  | nil => intro x hx; simp at hx
  | cons h1 _ ih =>
      intro a ha
      rcases List.mem_cons.1 ha with rfl | ha
      · exact ⟨_, by simp; exact .inl rfl⟩
      · obtain ⟨b, hb⟩ := ih a ha
        exact ⟨b, by simp [hb]⟩

theorem worst_none : ∀ {l : List (Option ℝ)}, none ∈ l → worst l = none
  | [], h => by simp at h
  | none :: _, _ => rfl
  | some x :: l, h => by
      rw [worst, worst_none (by simpa using h)]
      rfl

theorem worst_some : ∀ {l : List (Option ℝ)}, (∀ c ∈ l, ∃ x : ℝ, c = some x) → ∃ r, worst l = some r
  | [], _ => ⟨0, rfl⟩
  | c :: l, h => by
      obtain ⟨x, rfl⟩ := h c (by simp)
      obtain ⟨r, hr⟩ := worst_some (l := l) (fun c hc => h c (by simp [hc]))
      exact ⟨_, by rw [worst, hr]; rfl⟩

theorem magnitude_zero {d : Nat} {x : Fin d → ℝ} : magnitude x = 0 ↔ x = 0 := by
  unfold magnitude
  constructor
  · intro h
    have h0 : 0 ≤ x ⬝ᵥ x := Finset.sum_nonneg (fun i _ => mul_self_nonneg (x i))
    exact dot_self_eq_zero ((Real.sqrt_eq_zero h0).1 h)
  · rintro rfl
    simp

theorem ok_plane {f : Facet 2} {p q : Fin 2 → ℝ} (ha : f.area ≠ 0) (hv : f.vertices = [p, q]) (hp : p ∈ f.plus) (hq : q ∈ f.plus)
    (hm : ∀ m, f.minus = some m → p ∈ m ∧ q ∈ m) (hu : f.normal ⬝ᵥ f.normal = 1) (hn : f.normal ⬝ᵥ (p - q) = 0) (hpq : p ≠ q) :
    f.Ok := by
  refine ⟨ha, ?_, ?_, hu, ?_⟩
  · intro v h
    rw [hv] at h
    simp only [List.mem_cons, List.not_mem_nil, or_false] at h
    rcases h with rfl | rfl <;> assumption
  · intro m h v h'
    rw [hv] at h'
    simp only [List.mem_cons, List.not_mem_nil, or_false] at h'
    rcases h' with rfl | rfl
    · exact (hm m h).1
    · exact (hm m h).2
  · intro x hx
    have h := hx p (by simp [hv]) q (by simp [hv])
    refine ⟨x ⬝ᵥ f.normal, ?_⟩
    have h0 : p - q ≠ 0 := sub_ne_zero.2 hpq
    have hs : (p - q) 0 ≠ 0 ∨ (p - q) 1 ≠ 0 := by
      by_contra hcon
      push Not at hcon
      exact h0 (by funext i; fin_cases i; exact hcon.1; exact hcon.2)
    generalize p - q = e at *
    simp only [dotProduct, Fin.sum_univ_two] at *
    have hD : x 0 * f.normal 1 - x 1 * f.normal 0 = 0 := by
      rcases hs with hs | hs
      · refine (mul_eq_zero.1 ?_).resolve_right hs
        linear_combination f.normal 1 * h - x 1 * hn
      · refine (mul_eq_zero.1 ?_).resolve_right hs
        linear_combination (- f.normal 0) * h + x 0 * hn
    funext i
    fin_cases i
    · change x 0 = (x 0 * f.normal 0 + x 1 * f.normal 1) * f.normal 0
      linear_combination (- x 0) * hu + f.normal 1 * hD
    · change x 1 = (x 0 * f.normal 0 + x 1 * f.normal 1) * f.normal 1
      linear_combination (- x 1) * hu - f.normal 0 * hD

theorem independent_plane {p q r : Fin 2 → ℝ}
    (h : (q 0 - p 0) * (r 1 - p 1) - (q 1 - p 1) * (r 0 - p 0) ≠ 0) : Refine.AffInd ℝ [p, q, r] := by
  intro w hw hs hc
  rcases w with _ | ⟨a, _ | ⟨b, _ | ⟨c, _ | ⟨d, l⟩⟩⟩⟩ <;> simp at hw
  have h0 := congrFun hc 0
  have h1 := congrFun hc 1
  simp [Refine.comb] at hs h0 h1
  have hb : b = 0 := (mul_eq_zero.1 (show b * ((q 0 - p 0) * (r 1 - p 1) - (q 1 - p 1) * (r 0 - p 0)) = 0 by
    linear_combination (r 1 - p 1) * (h0 - p 0 * hs) - (r 0 - p 0) * (h1 - p 1 * hs))).resolve_right h
  have hc : c = 0 := (mul_eq_zero.1 (show c * ((q 0 - p 0) * (r 1 - p 1) - (q 1 - p 1) * (r 0 - p 0)) = 0 by
    linear_combination (q 0 - p 0) * (h1 - p 1 * hs) - (q 1 - p 1) * (h0 - p 0 * hs))).resolve_right h
  have ha : a = 0 := by rw [hb, hc] at hs; linarith
  intro x hx
  simp at hx
  rcases hx with rfl | rfl | rfl <;> assumption

end Verif.CenterVec
