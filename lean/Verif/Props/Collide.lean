import Verif.Lemmas.Collide
import Mathlib.LinearAlgebra.Matrix.Notation
import Mathlib.LinearAlgebra.FiniteDimensional.Lemmas
import Mathlib.Tactic.NormNum
import Mathlib.Tactic.FinCases
/-!
# C66: collisions of cells and segments
-/
namespace Verif.Collide
open Verif Matrix
variable {g : Nat}

/-- C66.  Segments which are reported to collide meet, up to the tolerance. -/
theorem segments_near {solve : Solver g} (hs : Solves solve) {A B X Y : Fin g → ℝ} {tol : ℝ}
    (h : collidesCell solve [A, B] X Y tol = .ok true) : ∃ p, OnSegment tol A B p ∧ OnSegment tol X Y p := by
  obtain ⟨r, h1, h2⟩ := segments_iff hs A B X Y tol
  have : intersects solve [A, B] X Y tol = .ok true := h
  rw [h1] at this
  injection this with this
  obtain ⟨-, -, s, t, hs, ht, e⟩ := h2.1 this
  exact ⟨_, ⟨s, by linarith, by linarith, rfl⟩, t, by linarith, by linarith, e⟩

/-- C66.  Segments in the plane which are not parallel and meet are reported to collide. -/
theorem segments_found {solve : Solver 2} (hs : Solves solve) {A B X Y : Fin 2 → ℝ} {tol : ℝ} (ht : 0 < tol)
    (hc : Crossing A B X Y) (h : ∃ p, OnSegment 0 A B p ∧ OnSegment 0 X Y p) : collidesCell solve [A, B] X Y tol = .ok true := by
  obtain ⟨r, h1, h2⟩ := segments_iff hs A B X Y tol
  obtain ⟨p, ⟨s, s0, s1, rfl⟩, t, t0, t1, e⟩ := h
  have hr := h2.2 ⟨rfl, hc, s, t, ⟨by linarith, by linarith⟩, ⟨by linarith, by linarith⟩, e⟩
  rw [hr] at h1
  exact h1

/-- C66.  For segments in the plane which are not parallel the answer, for all tolerances, is exact. -/
theorem segments_exact_partial {solve : Solver 2} (hs : Solves solve) {A B X Y : Fin 2 → ℝ} (hc : Crossing A B X Y) :
    (∀ tol : ℝ, 0 < tol → collidesCell solve [A, B] X Y tol = .ok true) ↔ ∃ p, OnSegment 0 A B p ∧ OnSegment 0 X Y p := by
  refine ⟨fun h => ?_, fun h tol ht => segments_found hs ht hc h⟩
  have key : ∀ tol : ℝ, 0 < tol → ∃ s t : ℝ, (0 - tol < s ∧ s < 1 + tol) ∧ (0 - tol < t ∧ t < 1 + tol) ∧
      A + s • (B - A) = X + t • (Y - X) := by
    intro tol ht
    obtain ⟨r, h1, h2⟩ := segments_iff hs A B X Y tol
    have h3 : intersects solve [A, B] X Y tol = .ok true := h tol ht
    rw [h1] at h3
    injection h3 with h3
    exact (h2.1 h3).2.2
  obtain ⟨s, t, -, -, e⟩ := key 1 one_pos
  have same : ∀ tol : ℝ, 0 < tol → (0 - tol < s ∧ s < 1 + tol) ∧ (0 - tol < t ∧ t < 1 + tol) := by
    intro tol ht
    obtain ⟨s', t', hs', ht', e'⟩ := key tol ht
    have := hc (s - s') (-(t - t')) (by
      rw [show (s - s') • (B - A) + (-(t - t')) • (Y - X) = (A + s • (B - A)) - (X + t • (Y - X)) - (A + s' • (B - A)) + (X + t' • (Y - X)) by
        module, e, e']
      module)
    rw [show s = s' by linarith [this.1], show t = t' by linarith [this.2]]
    exact ⟨hs', ht'⟩
  have le : ∀ a b : ℝ, (∀ tol : ℝ, 0 < tol → a < b + tol) → a ≤ b := by
    intro a b hab
    by_contra hcon
    have := hab (a - b) (by linarith)
    linarith
  refine ⟨_, ⟨s, ?_, ?_, rfl⟩, t, ?_, ?_, e⟩
  · exact le _ _ (fun tol ht => by linarith [(same tol ht).1.1])
  · rw [add_zero]; exact le _ _ (fun tol ht => (same tol ht).1.2)
  · exact le _ _ (fun tol ht => by linarith [(same tol ht).2.1])
  · rw [add_zero]; exact le _ _ (fun tol ht => (same tol ht).2.2)

/-- C66.  It does not matter which of two segments is the cell. -/
theorem segments_symmetric {solve : Solver g} (hs : Solves solve) (A B X Y : Fin g → ℝ) (tol : ℝ) :
    collidesCell solve [A, B] X Y tol = collidesCell solve [X, Y] A B tol := by
  show intersects solve [A, B] X Y tol = intersects solve [X, Y] A B tol
  obtain ⟨r, h1, h2⟩ := segments_iff hs A B X Y tol
  obtain ⟨r', h1', h2'⟩ := segments_iff hs X Y A B tol
  rw [h1, h1']
  congr 1
  rw [Bool.eq_iff_iff, h2, h2']
  have hc : ∀ {A B X Y : Fin g → ℝ}, Crossing A B X Y → Crossing X Y A B := by
    intro A B X Y h s t e
    exact (h t s (by rw [← e]; module)).symm
  constructor
  · rintro ⟨a, b, s, t, c, d, e⟩
    exact ⟨a, hc b, t, s, d, c, e.symm⟩
  · rintro ⟨a, b, s, t, c, d, e⟩
    exact ⟨a, hc b, t, s, d, c, e.symm⟩

/-- C66.  Triangles and segments which are reported to collide meet, up to the tolerance. -/
theorem triangle_near {solve : Solver g} (hs : Solves solve) {A B C X Y : Fin g → ℝ} {tol : ℝ}
    (h : collidesCell solve [A, B, C] X Y tol = .ok true) : ∃ p, OnTriangle tol A B C p ∧ OnSegment tol X Y p := by
  obtain ⟨r, h1, h2⟩ := triangle_iff hs A B C X Y tol
  have : intersects solve [A, B, C] X Y tol = .ok true := h
  rw [h1] at this
  injection this with this
  obtain ⟨-, -, r, s, t, hr, hs, ht, hrs, e⟩ := h2.1 this
  exact ⟨_, ⟨r, s, by linarith, by linarith, by linarith, rfl⟩, t, by linarith, by linarith, e⟩

/-- C66.  A triangle in space and a segment not parallel to its plane which meet are reported to collide. -/
theorem triangle_found {solve : Solver 3} (hs : Solves solve) {A B C X Y : Fin 3 → ℝ} {tol : ℝ} (ht : 0 < tol)
    (hc : Piercing A B C X Y) (h : ∃ p, OnTriangle 0 A B C p ∧ OnSegment 0 X Y p) :
    collidesCell solve [A, B, C] X Y tol = .ok true := by
  obtain ⟨b, h1, h2⟩ := triangle_iff hs A B C X Y tol
  obtain ⟨p, ⟨r, s, r0, s0, rs, rfl⟩, t, t0, t1, e⟩ := h
  have hr := h2.2 ⟨rfl, hc, r, s, t, ⟨by linarith, by linarith⟩, ⟨by linarith, by linarith⟩, ⟨by linarith, by linarith⟩,
    ⟨by linarith, by linarith⟩, e⟩
  rw [hr] at h1
  exact h1

/-- C66.  For a triangle in space and a segment not parallel to its plane the answer, for all tolerances, is exact. -/
theorem triangle_exact {solve : Solver 3} (hs : Solves solve) {A B C X Y : Fin 3 → ℝ} (hc : Piercing A B C X Y) :
    (∀ tol : ℝ, 0 < tol → collidesCell solve [A, B, C] X Y tol = .ok true) ↔ ∃ p, OnTriangle 0 A B C p ∧ OnSegment 0 X Y p := by
  refine ⟨fun h => ?_, fun h tol ht => triangle_found hs ht hc h⟩
  have key : ∀ tol : ℝ, 0 < tol → ∃ r s t : ℝ, (0 - tol < r ∧ r < 1 + tol) ∧ (0 - tol < s ∧ s < 1 + tol) ∧ (0 - tol < t ∧ t < 1 + tol) ∧
      (0 - tol < r + s ∧ r + s < 1 + tol) ∧ A + r • (B - A) + s • (C - A) = X + t • (Y - X) := by
    intro tol ht
    obtain ⟨r, h1, h2⟩ := triangle_iff hs A B C X Y tol
    have h3 : intersects solve [A, B, C] X Y tol = .ok true := h tol ht
    rw [h1] at h3
    injection h3 with h3
    exact (h2.1 h3).2.2
  obtain ⟨r, s, t, -, -, -, -, e⟩ := key 1 one_pos
  have same : ∀ tol : ℝ, 0 < tol → (0 - tol < r ∧ 0 - tol < s) ∧ (0 - tol < t ∧ t < 1 + tol) ∧ r + s < 1 + tol := by
    intro tol ht
    obtain ⟨r', s', t', hr', hs', ht', hrs, e'⟩ := key tol ht
    have := hc (r - r') (s - s') (-(t - t')) (by
      rw [show (r - r') • (B - A) + (s - s') • (C - A) + (-(t - t')) • (Y - X) = (A + r • (B - A) + s • (C - A)) - (X + t • (Y - X)) -
        (A + r' • (B - A) + s' • (C - A)) + (X + t' • (Y - X)) by module, e, e']
      module)
    rw [show r = r' by linarith [this.1], show s = s' by linarith [this.2.1], show t = t' by linarith [this.2.2]]
    exact ⟨⟨hr'.1, hs'.1⟩, ht', hrs.2⟩
  have le : ∀ a b : ℝ, (∀ tol : ℝ, 0 < tol → a < b + tol) → a ≤ b := by
    intro a b hab
    by_contra hcon
    have := hab (a - b) (by linarith)
    linarith
  refine ⟨_, ⟨r, s, ?_, ?_, ?_, rfl⟩, t, ?_, ?_, e⟩
  · exact le _ _ (fun tol ht => by linarith [(same tol ht).1.1])
  · exact le _ _ (fun tol ht => by linarith [(same tol ht).1.2])
  · rw [add_zero]; exact le _ _ (fun tol ht => (same tol ht).2.2)
  · exact le _ _ (fun tol ht => by linarith [(same tol ht).2.1.1])
  · rw [add_zero]; exact le _ _ (fun tol ht => (same tol ht).2.1.2)

/-- C66.  Parallel segments, and all segments unless the dimension is two, never collide. -/
theorem segments_never {solve : Solver g} (hs : Solves solve) {A B X Y : Fin g → ℝ} (h : g ≠ 2 ∨ ¬ Crossing A B X Y) (tol : ℝ) :
    collidesCell solve [A, B] X Y tol = .ok false := by
  obtain ⟨r, h1, h2⟩ := segments_iff hs A B X Y tol
  have : r = false := by
    rw [← Bool.not_eq_true, h2]
    rintro ⟨a, b, -⟩
    exact h.elim (· a) (· b)
  rw [this] at h1
  exact h1

/-- C66.  Segments parallel to the plane of a triangle, and all segments unless the dimension is three, never collide with it. -/
theorem triangle_never {solve : Solver g} (hs : Solves solve) {A B C X Y : Fin g → ℝ} (h : g ≠ 3 ∨ ¬ Piercing A B C X Y) (tol : ℝ) :
    collidesCell solve [A, B, C] X Y tol = .ok false := by
  obtain ⟨r, h1, h2⟩ := triangle_iff hs A B C X Y tol
  have : r = false := by
    rw [← Bool.not_eq_true, h2]
    rintro ⟨a, b, -⟩
    exact h.elim (· a) (· b)
  rw [this] at h1
  exact h1

/-- C66 is false of parallel segments: a segment does not collide with itself. -/
theorem overlap_missed {solve : Solver g} (hs : Solves solve) (A B : Fin g → ℝ) (tol : ℝ) :
    collidesCell solve [A, B] A B tol = .ok false ∧ OnSegment 0 A B A := by
  refine ⟨segments_never hs (.inr (fun h => ?_)) tol, 0, by simp, by simp, by simp⟩
  have := h 1 (-1) (by module)
  simp at this

/-- C66 is false of segments in space: two crossing segments do not collide. -/
theorem space_missed {solve : Solver 3} (hs : Solves solve) (tol : ℝ) :
    collidesCell solve [![-1, 0, 0], ![1, 0, 0]] ![0, -1, 0] ![0, 1, 0] tol = .ok false ∧
    OnSegment 0 (![-1, 0, 0] : Fin 3 → ℝ) ![1, 0, 0] 0 ∧ OnSegment 0 (![0, -1, 0] : Fin 3 → ℝ) ![0, 1, 0] 0 := by
  refine ⟨segments_never hs (.inl (by decide)) tol, ⟨1 / 2, by norm_num, by norm_num, ?_⟩, 1 / 2, by norm_num, by norm_num, ?_⟩ <;>
    (funext i; fin_cases i <;> norm_num)

/-- C66 is false of triangles in the plane: a segment inside of a triangle does not collide with it. -/
theorem plane_missed {solve : Solver 2} (hs : Solves solve) (tol : ℝ) :
    collidesCell solve [![0, 0], ![3, 0], ![0, 3]] ![1, 1] ![1 / 2, 1] tol = .ok false ∧
    OnTriangle 0 (![0, 0] : Fin 2 → ℝ) ![3, 0] ![0, 3] ![1, 1] ∧ OnSegment 0 (![1, 1] : Fin 2 → ℝ) ![1 / 2, 1] ![1, 1] := by
  refine ⟨triangle_never hs (.inl (by decide)) tol, ⟨1 / 3, 1 / 3, by norm_num, by norm_num, by norm_num, ?_⟩, 0, by norm_num, by norm_num, by simp⟩
  funext i
  fin_cases i <;> norm_num

/-- C66.  The bounding box contains the points and is the smallest such box. -/
theorem bbox_tight {shape : List (Fin g → ℝ)} (hne : shape ≠ []) :
    ∃ a b, bbox shape = .ok (a, b) ∧ ∀ i, (∀ p ∈ shape, a i ≤ p i ∧ p i ≤ b i) ∧ (∃ p ∈ shape, p i = a i) ∧ ∃ p ∈ shape, p i = b i := by
  obtain ⟨p, l, rfl⟩ := List.exists_cons_of_ne_nil hne
  refine ⟨_, _, rfl, fun i => ?_⟩
  obtain ⟨⟨h1, h2⟩, h3⟩ := foldl_min (l.map (fun q => q i)) (p i)
  obtain ⟨⟨k1, k2⟩, k3⟩ := foldl_max (l.map (fun q => q i)) (p i)
  refine ⟨?_, ?_, ?_⟩
  · intro q hq
    rcases List.mem_cons.1 hq with rfl | hq
    · exact ⟨h1, k1⟩
    · exact ⟨h2 _ (List.mem_map.2 ⟨q, hq, rfl⟩), k2 _ (List.mem_map.2 ⟨q, hq, rfl⟩)⟩
  · rcases h3 with h | h
    · exact ⟨p, by simp, h.symm⟩
    · obtain ⟨q, hq, e⟩ := List.mem_map.1 h
      exact ⟨q, List.mem_cons_of_mem _ hq, e⟩
  · rcases k3 with h | h
    · exact ⟨p, by simp, h.symm⟩
    · obtain ⟨q, hq, e⟩ := List.mem_map.1 h
      exact ⟨q, List.mem_cons_of_mem _ hq, e⟩

/-- C66 is false of `box_collides`, which always raises. -/
theorem box_collides_raises (box line : List (Fin g → ℝ)) (tol : ℝ) : boxCollides box line tol = .error .nameError := by
  unfold boxCollides boxCollides2d
  split <;> rfl

/-! ## The hypotheses can be met -/

open Classical in
/-- An exact solver. -/
noncomputable def exact (g : Nat) : Solver g := fun {k} M b =>
  if h : g = k ∧ (∀ x, M *ᵥ x = 0 → x = 0) ∧ ∃ x, M *ᵥ x = b then some h.2.2.choose else none

theorem exact_solves (g : Nat) : Solves (exact g) := by
  constructor
  · intro k M b x h
    unfold exact at h
    split at h
    · rename_i hh
      injection h with h
      rw [← h]
      exact hh.2.2.choose_spec
    · cases h
  · intro k M b
    unfold exact
    constructor
    · rintro ⟨x, h⟩
      split at h
      · rename_i hh
        exact ⟨hh.1, hh.2.1⟩
      · cases h
    · rintro ⟨rfl, hi⟩
      have hinj : Function.Injective M.mulVecLin := by
        rw [← LinearMap.ker_eq_bot, LinearMap.ker_eq_bot']
        exact hi
      obtain ⟨x, hx⟩ := LinearMap.injective_iff_surjective.1 hinj b
      rw [dif_pos ⟨rfl, hi, x, hx⟩]
      exact ⟨_, rfl⟩

example : collidesCell (exact 2) [![0, 0], ![1, 1]] ![0, 1] ![1, 0] (1 / 10 ^ 13) = .ok true := by
  refine segments_found (exact_solves 2) (by norm_num) ?_ ⟨![1 / 2, 1 / 2], ⟨1 / 2, by norm_num, by norm_num, ?_⟩, 1 / 2, by norm_num, by norm_num, ?_⟩
  · intro s t e
    have h0 := congrFun e 0
    have h1 := congrFun e 1
    simp at h0 h1
    constructor <;> linarith
  · funext i; fin_cases i <;> norm_num
  · funext i; fin_cases i <;> norm_num

example : collidesCell (exact 3) [![0, 0, 0], ![1, 0, 0], ![0, 1, 0]] ![1 / 4, 1 / 4, 1] ![1 / 4, 1 / 4, -1] (1 / 10 ^ 13) = .ok true := by
  refine triangle_found (exact_solves 3) (by norm_num) ?_ ⟨![1 / 4, 1 / 4, 0], ⟨1 / 4, 1 / 4, by norm_num, by norm_num, by norm_num, ?_⟩,
    1 / 2, by norm_num, by norm_num, ?_⟩
  · intro r s t e
    have h0 := congrFun e 0
    have h1 := congrFun e 1
    have h2 := congrFun e 2
    simp at h0 h1 h2
    exact ⟨h0, h1, h2.resolve_right (by norm_num)⟩
  · funext i; fin_cases i <;> norm_num
  · funext i; fin_cases i <;> norm_num

example : ∃ a b, bbox [![0, 1], ![1, (0 : ℝ)]] = .ok (a, b) ∧ a 0 ≤ 0 := by
  obtain ⟨a, b, h, hb⟩ := bbox_tight (shape := [![0, 1], ![1, (0 : ℝ)]]) (by simp)
  exact ⟨a, b, h, by simpa using ((hb 0).1 ![0, 1] (by simp)).1⟩

end Verif.Collide
