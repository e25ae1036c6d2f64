import Mathlib.Tactic.FieldSimp
import Mathlib.Tactic.Ring
import Mathlib.Tactic.Positivity
import Mathlib.Data.List.Dedup
import Verif.Spec.Immersed
namespace Verif.Immersed
open Verif

theorem mem_unitSquare {n : ℕ} {c : List Pt} : c ∈ unitSquare n ↔
    ∃ x y, x < n ∧ y < n ∧ (c = [(x, y), (x + 1, y), (x + 1, y + 1)] ∨ c = [(x, y), (x, y + 1), (x + 1, y + 1)]) := by
  simp only [unitSquare, List.mem_flatMap, List.mem_range, List.mem_cons, List.not_mem_nil, or_false]
  constructor
  · rintro ⟨y, hy, x, hx, h⟩; exact ⟨x, y, hx, hy, h⟩
  · rintro ⟨x, y, hx, hy, h⟩; exact ⟨y, hy, x, hx, h⟩

/-- Inequalities between grid coordinates and quarters, up to the tolerance. -/
theorem grid {k a m : ℕ} {eps : ℚ} (hk : 0 < k) (h0 : 0 < eps) (h : 8 * (k : ℚ) * eps < 1) :
    ((m : ℚ) / 4 - eps < (a : ℚ) / ((4 * k : ℕ) : ℚ) ↔ m * k ≤ a) ∧
    ((a : ℚ) / ((4 * k : ℕ) : ℚ) < (m : ℚ) / 4 + eps ↔ a ≤ m * k) ∧
    ((m : ℚ) / 4 - eps ≤ (a : ℚ) / ((4 * k : ℕ) : ℚ) ↔ m * k ≤ a) ∧
    ((a : ℚ) / ((4 * k : ℕ) : ℚ) ≤ (m : ℚ) / 4 + eps ↔ a ≤ m * k) := by
  have kq : (0 : ℚ) < k := by exact_mod_cast hk
  have e : (a : ℚ) / ((4 * k : ℕ) : ℚ) - (m : ℚ) / 4 = ((a : ℚ) - m * k) / (4 * k) := by push_cast; field_simp
  have up : m * k ≤ a → (0 : ℚ) ≤ ((a : ℚ) - m * k) / (4 * k) := by
    intro hh
    have : ((m * k : ℕ) : ℚ) ≤ (a : ℚ) := by exact_mod_cast hh
    push_cast at this
    apply div_nonneg <;> linarith
  have down : a ≤ m * k → ((a : ℚ) - m * k) / (4 * k) ≤ 0 := by
    intro hh
    have : (a : ℚ) ≤ ((m * k : ℕ) : ℚ) := by exact_mod_cast hh
    push_cast at this
    apply div_nonpos_of_nonpos_of_nonneg <;> linarith
  have up' : ¬ m * k ≤ a → ((a : ℚ) - m * k) / (4 * k) < - eps := by
    intro hh
    have : ((a + 1 : ℕ) : ℚ) ≤ ((m * k : ℕ) : ℚ) := by exact_mod_cast (by omega)
    push_cast at this
    rw [div_lt_iff₀ (by linarith)]
    nlinarith
  have down' : ¬ a ≤ m * k → eps < ((a : ℚ) - m * k) / (4 * k) := by
    intro hh
    have : ((m * k + 1 : ℕ) : ℚ) ≤ (a : ℚ) := by exact_mod_cast (by omega)
    push_cast at this
    rw [lt_div_iff₀ (by linarith)]
    nlinarith
  refine ⟨⟨fun hh => ?_, fun hh => ?_⟩, ⟨fun hh => ?_, fun hh => ?_⟩, ⟨fun hh => ?_, fun hh => ?_⟩, ⟨fun hh => ?_, fun hh => ?_⟩⟩
  all_goals first
    | (have := up hh; linarith)
    | (have := down hh; linarith)
    | (by_contra c; have := up' c; linarith)
    | (by_contra c; have := down' c; linarith)

/-- Sets given by bounds of the coordinates. -/
def Convex (inside : ℚ × ℚ → Bool) : Prop :=
  ∀ x y : ℚ × ℚ, inside x = true → inside y = true → ∀ t : ℚ, 0 ≤ t → t ≤ 1 → inside (x.1 + t * (y.1 - x.1), x.2 + t * (y.2 - x.2)) = true

theorem mix_le {x y t b : ℚ} (hx : x ≤ b) (hy : y ≤ b) (h0 : 0 ≤ t) (h1 : t ≤ 1) : x + t * (y - x) ≤ b := by nlinarith
theorem le_mix {x y t b : ℚ} (hx : b ≤ x) (hy : b ≤ y) (h0 : 0 ≤ t) (h1 : t ≤ 1) : b ≤ x + t * (y - x) := by nlinarith
theorem mix_lt {x y t b : ℚ} (hx : x < b) (hy : y < b) (h0 : 0 ≤ t) (h1 : t ≤ 1) : x + t * (y - x) < b := by
  rcases le_total x y with h | h
  · nlinarith
  · nlinarith
theorem lt_mix {x y t b : ℚ} (hx : b < x) (hy : b < y) (h0 : 0 ≤ t) (h1 : t ≤ 1) : b < x + t * (y - x) := by
  rcases le_total x y with h | h
  · nlinarith
  · nlinarith

theorem near_mix {eps x y t b : ℚ} (hx : near eps x b = true) (hy : near eps y b = true) (h0 : 0 ≤ t) (h1 : t ≤ 1) :
    near eps (x + t * (y - x)) b = true := by
  simp only [near, decide_eq_true_eq] at *
  exact ⟨le_mix hx.1 hy.1 h0 h1, mix_le hx.2 hy.2 h0 h1⟩

theorem between_mix {eps x y t : ℚ} (hx : between eps x = true) (hy : between eps y = true) (h0 : 0 ≤ t) (h1 : t ≤ 1) :
    between eps (x + t * (y - x)) = true := by
  simp only [between, decide_eq_true_eq] at *
  exact ⟨lt_mix hx.1 hy.1 h0 h1, mix_lt hx.2 hy.2 h0 h1⟩

theorem isMarked_pair {n : ℕ} {inside : ℚ × ℚ → Bool} (hc : Convex inside) (a b : Pt) :
    isMarked n inside [a, b] = (inside (coords n a) && inside (coords n b)) := by
  simp only [isMarked, List.map_cons, List.map_nil, List.all_cons, List.all_nil, Bool.and_true]
  rw [Bool.eq_iff_iff]
  simp only [Bool.and_eq_true]
  constructor
  · exact fun h => h.1
  · intro h
    refine ⟨h, ?_⟩
    have := hc _ _ h.1 h.2 (1 / 2) (by norm_num) (by norm_num)
    rw [show midpoint [coords n a, coords n b] = _ from Prod.ext_iff.2 ⟨?_, ?_⟩]
    · exact this
    · simp [midpoint]; ring
    · simp [midpoint]; ring

theorem isMarked_triple {n : ℕ} {inside : ℚ × ℚ → Bool} (hc : Convex inside) (a b c : Pt) :
    isMarked n inside [a, b, c] = (inside (coords n a) && (inside (coords n b) && inside (coords n c))) := by
  simp only [isMarked, List.map_cons, List.map_nil, List.all_cons, List.all_nil, Bool.and_true]
  rw [Bool.eq_iff_iff]
  simp only [Bool.and_eq_true]
  constructor
  · exact fun h => h.1
  · intro h
    refine ⟨h, ?_⟩
    have h2 := hc _ _ h.1 h.2.1 (1 / 2) (by norm_num) (by norm_num)
    have := hc _ _ h2 h.2.2 (1 / 3) (by norm_num) (by norm_num)
    rw [show midpoint [coords n a, coords n b, coords n c] = _ from Prod.ext_iff.2 ⟨?_, ?_⟩]
    · exact this
    · simp [midpoint]; ring
    · simp [midpoint]; ring

/-! ## Integers -/

section
variable {k : ℕ} {eps : ℚ} (hk : 0 < k) (h0 : 0 < eps) (h : 8 * (k : ℚ) * eps < 1)
include hk h0 h

theorem between_grid (a : ℕ) : between eps ((a : ℚ) / ((4 * k : ℕ) : ℚ)) = true ↔ k ≤ a ∧ a ≤ 3 * k := by
  have h1 := (grid (a := a) (m := 1) hk h0 h).1
  have h3 := (grid (a := a) (m := 3) hk h0 h).2.1
  simp only [between, decide_eq_true_eq]
  push_cast at h1 h3 ⊢
  rw [h1, h3]; simp

theorem near_grid (a m : ℕ) (b : ℚ) (hb : b = (m : ℚ) / 4) : near eps ((a : ℚ) / ((4 * k : ℕ) : ℚ)) b = true ↔ a = m * k := by
  have h1 := (grid (a := a) (m := m) hk h0 h).2.2.1
  have h3 := (grid (a := a) (m := m) hk h0 h).2.2.2
  simp only [near, decide_eq_true_eq]
  rw [hb, h1, h3]; omega

/-- The value on a facet of the inner domain. -/
theorem inner_mark (p q : Pt) : markAll (4 * k) 0 (interfaceSides eps) [p, q] =
    if (p.2 = 3 * k ∧ k ≤ p.1 ∧ p.1 ≤ 3 * k) ∧ (q.2 = 3 * k ∧ k ≤ q.1 ∧ q.1 ≤ 3 * k) then 4 else
    if (p.2 = k ∧ k ≤ p.1 ∧ p.1 ≤ 3 * k) ∧ (q.2 = k ∧ k ≤ q.1 ∧ q.1 ≤ 3 * k) then 3 else
    if (p.1 = 3 * k ∧ k ≤ p.2 ∧ p.2 ≤ 3 * k) ∧ (q.1 = 3 * k ∧ k ≤ q.2 ∧ q.2 ≤ 3 * k) then 2 else
    if (p.1 = k ∧ k ≤ p.2 ∧ p.2 ≤ 3 * k) ∧ (q.1 = k ∧ k ≤ q.2 ∧ q.2 ≤ 3 * k) then 1 else 0 := by
  have c1 : ∀ b : ℚ, Convex (fun x => near eps x.1 b && between eps x.2) := by
    intro b x y hx hy t t0 t1
    simp only [Bool.and_eq_true] at *
    exact ⟨near_mix hx.1 hy.1 t0 t1, between_mix hx.2 hy.2 t0 t1⟩
  have c2 : ∀ b : ℚ, Convex (fun x => near eps x.2 b && between eps x.1) := by
    intro b x y hx hy t t0 t1
    simp only [Bool.and_eq_true] at *
    exact ⟨near_mix hx.1 hy.1 t0 t1, between_mix hx.2 hy.2 t0 t1⟩
  have q1 : (1 / 4 : ℚ) = ((1 : ℕ) : ℚ) / 4 := by norm_num
  have q3 : (3 / 4 : ℚ) = ((3 : ℕ) : ℚ) / 4 := by norm_num
  simp only [markAll, interfaceSides, List.foldl_cons, List.foldl_nil, isMarked_pair (c1 _), isMarked_pair (c2 _), Bool.and_eq_true, coords,
    near_grid hk h0 h _ 1 _ q1, near_grid hk h0 h _ 3 _ q3, between_grid hk h0 h, one_mul]

/-- The value on a facet of the outer domain. -/
theorem outer_mark (p q : Pt) : markAll (4 * k) 0 (outerSides eps) [p, q] =
    if p.2 = 4 * k ∧ q.2 = 4 * k then 8 else
    if p.2 = 0 ∧ q.2 = 0 then 7 else
    if p.1 = 4 * k ∧ q.1 = 4 * k then 6 else
    if p.1 = 0 ∧ q.1 = 0 then 5 else markAll (4 * k) 0 (interfaceSides eps) [p, q] := by
  have c1 : ∀ b : ℚ, Convex (fun x => near eps x.1 b) := fun b x y hx hy t t0 t1 => near_mix hx hy t0 t1
  have c2 : ∀ b : ℚ, Convex (fun x => near eps x.2 b) := fun b x y hx hy t t0 t1 => near_mix hx hy t0 t1
  have q0 : (0 : ℚ) = ((0 : ℕ) : ℚ) / 4 := by norm_num
  have q4 : (1 : ℚ) = ((4 : ℕ) : ℚ) / 4 := by norm_num
  simp only [markAll, outerSides, List.foldl_append]
  simp only [List.foldl_cons, List.foldl_nil, isMarked_pair (c1 _), isMarked_pair (c2 _), Bool.and_eq_true, coords,
    near_grid hk h0 h _ 0 _ q0, near_grid hk h0 h _ 4 _ q4, zero_mul]

theorem color_eq (a b c : Pt) : cellColor eps (4 * k) [a, b, c] =
    if ((k ≤ a.1 ∧ a.1 ≤ 3 * k) ∧ k ≤ a.2 ∧ a.2 ≤ 3 * k) ∧ ((k ≤ b.1 ∧ b.1 ≤ 3 * k) ∧ k ≤ b.2 ∧ b.2 ≤ 3 * k) ∧
      (k ≤ c.1 ∧ c.1 ≤ 3 * k) ∧ k ≤ c.2 ∧ c.2 ≤ 3 * k then 2 else 1 := by
  have cv : Convex (innerSquare eps) := by
    intro x y hx hy t t0 t1
    simp only [innerSquare, Bool.and_eq_true] at *
    exact ⟨between_mix hx.1 hy.1 t0 t1, between_mix hx.2 hy.2 t0 t1⟩
  simp only [cellColor, markAll, List.foldl_cons, List.foldl_nil, isMarked_triple cv, innerSquare, Bool.and_eq_true, coords,
    between_grid hk h0 h]

end

/-- The squares of the inner domain. -/
def InS (k x y : ℕ) : Prop := k ≤ x ∧ x + 1 ≤ 3 * k ∧ k ≤ y ∧ y + 1 ≤ 3 * k
/-- The squares of the outer domain. -/
def OutS (k x y : ℕ) : Prop := x < 4 * k ∧ y < 4 * k ∧ ¬ InS k x y

/-- `cells` are the two triangles of the squares in `S`. -/
def Squares (S : ℕ → ℕ → Prop) (cells : List (List Pt)) : Prop :=
  ∀ c, c ∈ cells ↔ ∃ x y, S x y ∧ (c = [(x, y), (x + 1, y), (x + 1, y + 1)] ∨ c = [(x, y), (x, y + 1), (x + 1, y + 1)])

section
variable {k : ℕ} {eps : ℚ} (hk : 0 < k) (h0 : 0 < eps) (h : 8 * (k : ℚ) * eps < 1)
include hk h0 h

theorem inner_squares : Squares (InS k) (subMesh eps (4 * k) 2) := by
  intro c
  simp only [subMesh, List.mem_filter, mem_unitSquare, beq_iff_eq]
  constructor
  · rintro ⟨⟨x, y, hx, hy, rfl | rfl⟩, hc⟩ <;> rw [color_eq hk h0 h] at hc <;> split_ifs at hc with hh
    all_goals
      refine ⟨x, y, ?_, ?_⟩
      · unfold InS; omega
      · simp
  · rintro ⟨x, y, hS, rfl | rfl⟩ <;> unfold InS at hS
    · refine ⟨⟨x, y, by omega, by omega, Or.inl rfl⟩, ?_⟩
      rw [color_eq hk h0 h, if_pos]
      simp only; omega
    · refine ⟨⟨x, y, by omega, by omega, Or.inr rfl⟩, ?_⟩
      rw [color_eq hk h0 h, if_pos]
      simp only; omega

theorem outer_squares : Squares (OutS k) (subMesh eps (4 * k) 1) := by
  intro c
  simp only [subMesh, List.mem_filter, mem_unitSquare, beq_iff_eq]
  constructor
  · rintro ⟨⟨x, y, hx, hy, rfl | rfl⟩, hc⟩ <;> rw [color_eq hk h0 h] at hc <;> split_ifs at hc with hh
    all_goals
      refine ⟨x, y, ⟨hx, hy, ?_⟩, ?_⟩
      · unfold InS; omega
      · simp
  · rintro ⟨x, y, ⟨hx, hy, hS⟩, rfl | rfl⟩ <;> unfold InS at hS
    · refine ⟨⟨x, y, by omega, by omega, Or.inl rfl⟩, ?_⟩
      rw [color_eq hk h0 h, if_neg]
      simp only; omega
    · refine ⟨⟨x, y, by omega, by omega, Or.inr rfl⟩, ?_⟩
      rw [color_eq hk h0 h, if_neg]
      simp only; omega

end

/-! ## Facets -/

/-- The facets with their cell: below and above of horizontal ones, to the right and left of vertical ones, and diagonals. -/
theorem facet_cases {S : ℕ → ℕ → Prop} {cells : List (List Pt)} (hS : Squares S cells) {c f : List Pt} (hc : c ∈ cells) (hf : f ∈ facets c) :
    ∃ x y, S x y ∧
      ((c = [(x, y), (x + 1, y), (x + 1, y + 1)] ∧ (f = [(x + 1, y), (x + 1, y + 1)] ∨ f = [(x, y), (x + 1, y + 1)] ∨ f = [(x, y), (x + 1, y)])) ∨
       (c = [(x, y), (x, y + 1), (x + 1, y + 1)] ∧ (f = [(x, y + 1), (x + 1, y + 1)] ∨ f = [(x, y), (x + 1, y + 1)] ∨ f = [(x, y), (x, y + 1)]))) := by
  obtain ⟨x, y, hs, rfl | rfl⟩ := (hS c).1 hc
  · exact ⟨x, y, hs, Or.inl ⟨rfl, by simpa [facets] using hf⟩⟩
  · exact ⟨x, y, hs, Or.inr ⟨rfl, by simpa [facets] using hf⟩⟩

theorem horizontal_cells {S : ℕ → ℕ → Prop} {cells : List (List Pt)} (hS : Squares S cells) (x y : ℕ) (c : List Pt) :
    (c ∈ cells ∧ [(x, y), (x + 1, y)] ∈ facets c) ↔
      (S x y ∧ c = [(x, y), (x + 1, y), (x + 1, y + 1)]) ∨
      (∃ z, y = z + 1 ∧ S x z ∧ c = [(x, z), (x, z + 1), (x + 1, z + 1)]) := by
  constructor
  · rintro ⟨hc, hf⟩
    obtain ⟨a, b, hs, ⟨rfl, h | h | h⟩ | ⟨rfl, h | h | h⟩⟩ := facet_cases hS hc hf <;>
      simp only [List.cons.injEq, Prod.mk.injEq, and_true] at h
    · omega
    · omega
    · obtain ⟨⟨rfl, rfl⟩, -⟩ := h; exact Or.inl ⟨hs, rfl⟩
    · obtain ⟨⟨rfl, rfl⟩, -⟩ := h; exact Or.inr ⟨b, rfl, hs, rfl⟩
    · omega
    · omega
  · rintro (⟨hs, rfl⟩ | ⟨z, rfl, hs, rfl⟩)
    · exact ⟨(hS _).2 ⟨x, y, hs, Or.inl rfl⟩, by simp [facets]⟩
    · exact ⟨(hS _).2 ⟨x, z, hs, Or.inr rfl⟩, by simp [facets]⟩

theorem vertical_cells {S : ℕ → ℕ → Prop} {cells : List (List Pt)} (hS : Squares S cells) (x y : ℕ) (c : List Pt) :
    (c ∈ cells ∧ [(x, y), (x, y + 1)] ∈ facets c) ↔
      (S x y ∧ c = [(x, y), (x, y + 1), (x + 1, y + 1)]) ∨
      (∃ z, x = z + 1 ∧ S z y ∧ c = [(z, y), (z + 1, y), (z + 1, y + 1)]) := by
  constructor
  · rintro ⟨hc, hf⟩
    obtain ⟨a, b, hs, ⟨rfl, h | h | h⟩ | ⟨rfl, h | h | h⟩⟩ := facet_cases hS hc hf <;>
      simp only [List.cons.injEq, Prod.mk.injEq, and_true] at h
    · obtain ⟨⟨rfl, rfl⟩, -⟩ := h; exact Or.inr ⟨a, rfl, hs, rfl⟩
    · omega
    · omega
    · omega
    · omega
    · obtain ⟨⟨rfl, rfl⟩, -⟩ := h; exact Or.inl ⟨hs, rfl⟩
  · rintro (⟨hs, rfl⟩ | ⟨z, rfl, hs, rfl⟩)
    · exact ⟨(hS _).2 ⟨x, y, hs, Or.inr rfl⟩, by simp [facets]⟩
    · exact ⟨(hS _).2 ⟨z, y, hs, Or.inl rfl⟩, by simp [facets]⟩

theorem diagonal_cells {S : ℕ → ℕ → Prop} {cells : List (List Pt)} (hS : Squares S cells) (x y : ℕ) (c : List Pt) :
    (c ∈ cells ∧ [(x, y), (x + 1, y + 1)] ∈ facets c) ↔
      S x y ∧ (c = [(x, y), (x + 1, y), (x + 1, y + 1)] ∨ c = [(x, y), (x, y + 1), (x + 1, y + 1)]) := by
  constructor
  · rintro ⟨hc, hf⟩
    obtain ⟨a, b, hs, ⟨rfl, h | h | h⟩ | ⟨rfl, h | h | h⟩⟩ := facet_cases hS hc hf <;>
      simp only [List.cons.injEq, Prod.mk.injEq, and_true] at h
    · omega
    · obtain ⟨⟨rfl, rfl⟩, -⟩ := h; exact ⟨hs, Or.inl rfl⟩
    · omega
    · omega
    · obtain ⟨⟨rfl, rfl⟩, -⟩ := h; exact ⟨hs, Or.inr rfl⟩
    · omega
  · rintro ⟨hs, rfl | rfl⟩
    · exact ⟨(hS _).2 ⟨x, y, hs, Or.inl rfl⟩, by simp [facets]⟩
    · exact ⟨(hS _).2 ⟨x, y, hs, Or.inr rfl⟩, by simp [facets]⟩

theorem boundary_iff {cells : List (List Pt)} {f : List Pt} {A B : Prop} {a b : List Pt} (hab : a ≠ b)
    (h : ∀ c, (c ∈ cells ∧ f ∈ facets c) ↔ (A ∧ c = a) ∨ (B ∧ c = b)) : OnBoundary cells f ↔ (A ∧ ¬ B) ∨ (¬ A ∧ B) := by
  constructor
  · rintro ⟨c, hc, hu⟩
    by_cases hA : A <;> by_cases hB : B
    · have e1 := hu a ((h a).2 (Or.inl ⟨hA, rfl⟩)).1 ((h a).2 (Or.inl ⟨hA, rfl⟩)).2
      have e2 := hu b ((h b).2 (Or.inr ⟨hB, rfl⟩)).1 ((h b).2 (Or.inr ⟨hB, rfl⟩)).2
      exact absurd (e1.trans e2.symm) hab
    · exact Or.inl ⟨hA, hB⟩
    · exact Or.inr ⟨hA, hB⟩
    · rcases (h c).1 hc with ⟨hh, -⟩ | ⟨hh, -⟩ <;> contradiction
  · rintro (⟨hA, hB⟩ | ⟨hA, hB⟩)
    · refine ⟨a, (h a).2 (Or.inl ⟨hA, rfl⟩), fun c' hc' hf' => ?_⟩
      rcases (h c').1 ⟨hc', hf'⟩ with ⟨-, hh⟩ | ⟨hh, -⟩
      · exact hh
      · contradiction
    · refine ⟨b, (h b).2 (Or.inr ⟨hB, rfl⟩), fun c' hc' hf' => ?_⟩
      rcases (h c').1 ⟨hc', hf'⟩ with ⟨hh, -⟩ | ⟨-, hh⟩
      · contradiction
      · exact hh

/-- `S` holds at the coordinate before `y`. -/
def Below (S : ℕ → Prop) (y : ℕ) : Prop := 1 ≤ y ∧ S (y - 1)

theorem horizontal_boundary {S : ℕ → ℕ → Prop} {cells : List (List Pt)} (hS : Squares S cells) (x y : ℕ) :
    OnBoundary cells [(x, y), (x + 1, y)] ↔ (S x y ∧ ¬ Below (S x) y) ∨ (¬ S x y ∧ Below (S x) y) := by
  apply boundary_iff (a := [(x, y), (x + 1, y), (x + 1, y + 1)]) (b := [(x, y - 1), (x, y - 1 + 1), (x + 1, y - 1 + 1)]) (by simp)
  intro c
  rw [horizontal_cells hS]
  constructor
  · rintro (hh | ⟨z, rfl, hs, rfl⟩)
    · exact Or.inl hh
    · exact Or.inr ⟨⟨by omega, by simpa using hs⟩, by simp⟩
  · rintro (hh | ⟨⟨h1, hs⟩, rfl⟩)
    · exact Or.inl hh
    · exact Or.inr ⟨y - 1, by omega, hs, rfl⟩

theorem vertical_boundary {S : ℕ → ℕ → Prop} {cells : List (List Pt)} (hS : Squares S cells) (x y : ℕ) :
    OnBoundary cells [(x, y), (x, y + 1)] ↔ (S x y ∧ ¬ Below (fun z => S z y) x) ∨ (¬ S x y ∧ Below (fun z => S z y) x) := by
  apply boundary_iff (a := [(x, y), (x, y + 1), (x + 1, y + 1)]) (b := [(x - 1, y), (x - 1 + 1, y), (x - 1 + 1, y + 1)]) (by simp)
  intro c
  rw [vertical_cells hS]
  constructor
  · rintro (hh | ⟨z, rfl, hs, rfl⟩)
    · exact Or.inl hh
    · exact Or.inr ⟨⟨by omega, by simpa using hs⟩, by simp⟩
  · rintro (hh | ⟨⟨h1, hs⟩, rfl⟩)
    · exact Or.inl hh
    · exact Or.inr ⟨x - 1, by omega, hs, rfl⟩

theorem diagonal_boundary {S : ℕ → ℕ → Prop} {cells : List (List Pt)} (hS : Squares S cells) (x y : ℕ) :
    ¬ OnBoundary cells [(x, y), (x + 1, y + 1)] := by
  have := boundary_iff (cells := cells) (f := [(x, y), (x + 1, y + 1)]) (A := S x y) (B := S x y)
    (a := [(x, y), (x + 1, y), (x + 1, y + 1)]) (b := [(x, y), (x, y + 1), (x + 1, y + 1)]) (by simp)
    (by intro c; rw [diagonal_cells hS]; tauto)
  rw [this]; tauto

/-! ## Normals -/

theorem normal_below {n : ℕ} (hn : 0 < n) (x y : ℕ) :
    OutwardNormal n [(x, y), (x + 1, y), (x + 1, y + 1)] [(x, y), (x + 1, y)] (0, -1) := by
  have : (0 : ℚ) < n := by exact_mod_cast hn
  refine ⟨by norm_num, ?_⟩
  simp only [List.forall_mem_cons, coords]
  simp [div_lt_div_iff_of_pos_right this]

theorem normal_above {n : ℕ} (hn : 0 < n) (x y : ℕ) :
    OutwardNormal n [(x, y), (x, y + 1), (x + 1, y + 1)] [(x, y + 1), (x + 1, y + 1)] (0, 1) := by
  have : (0 : ℚ) < n := by exact_mod_cast hn
  refine ⟨by norm_num, ?_⟩
  simp only [List.forall_mem_cons, coords]
  simp [div_lt_div_iff_of_pos_right this]

theorem normal_right {n : ℕ} (hn : 0 < n) (x y : ℕ) :
    OutwardNormal n [(x, y), (x + 1, y), (x + 1, y + 1)] [(x + 1, y), (x + 1, y + 1)] (1, 0) := by
  have : (0 : ℚ) < n := by exact_mod_cast hn
  refine ⟨by norm_num, ?_⟩
  simp only [List.forall_mem_cons, coords]
  simp [div_lt_div_iff_of_pos_right this]

theorem normal_left {n : ℕ} (hn : 0 < n) (x y : ℕ) :
    OutwardNormal n [(x, y), (x, y + 1), (x + 1, y + 1)] [(x, y), (x, y + 1)] (-1, 0) := by
  have : (0 : ℚ) < n := by exact_mod_cast hn
  refine ⟨by norm_num, ?_⟩
  simp only [List.forall_mem_cons, coords]
  simp [div_lt_div_iff_of_pos_right this]

/-! ## Values on facets -/

section
variable {k : ℕ} {eps : ℚ} (hk : 0 < k) (h0 : 0 < eps) (h : 8 * (k : ℚ) * eps < 1)
include hk h0 h

theorem inner_vertical (x y : ℕ) : markAll (4 * k) 0 (interfaceSides eps) [(x, y), (x, y + 1)] =
    if x = 3 * k ∧ k ≤ y ∧ y + 1 ≤ 3 * k then 2 else if x = k ∧ k ≤ y ∧ y + 1 ≤ 3 * k then 1 else 0 := by
  rw [inner_mark hk h0 h]
  simp only
  rw [if_neg (by omega), if_neg (by omega)]
  congr 1
  · apply propext; omega
  · congr 1; apply propext; omega

theorem inner_horizontal (x y : ℕ) : markAll (4 * k) 0 (interfaceSides eps) [(x, y), (x + 1, y)] =
    if y = 3 * k ∧ k ≤ x ∧ x + 1 ≤ 3 * k then 4 else if y = k ∧ k ≤ x ∧ x + 1 ≤ 3 * k then 3 else 0 := by
  rw [inner_mark hk h0 h]
  simp only
  rw [if_neg (c := (x = 3 * k ∧ _) ∧ _) (by omega), if_neg (c := (x = k ∧ _) ∧ _) (by omega)]
  congr 1
  · apply propext; omega
  · congr 1; apply propext; omega

theorem inner_diagonal (x y : ℕ) : markAll (4 * k) 0 (interfaceSides eps) [(x, y), (x + 1, y + 1)] = 0 := by
  rw [inner_mark hk h0 h]
  simp only
  rw [if_neg (by omega), if_neg (by omega), if_neg (by omega), if_neg (by omega)]

theorem outer_vertical (x y : ℕ) : markAll (4 * k) 0 (outerSides eps) [(x, y), (x, y + 1)] =
    if x = 4 * k then 6 else if x = 0 then 5 else
    if x = 3 * k ∧ k ≤ y ∧ y + 1 ≤ 3 * k then 2 else if x = k ∧ k ≤ y ∧ y + 1 ≤ 3 * k then 1 else 0 := by
  rw [outer_mark hk h0 h, inner_vertical hk h0 h]
  simp only [and_self]
  rw [if_neg (by omega), if_neg (by omega)]

theorem outer_horizontal (x y : ℕ) : markAll (4 * k) 0 (outerSides eps) [(x, y), (x + 1, y)] =
    if y = 4 * k then 8 else if y = 0 then 7 else
    if y = 3 * k ∧ k ≤ x ∧ x + 1 ≤ 3 * k then 4 else if y = k ∧ k ≤ x ∧ x + 1 ≤ 3 * k then 3 else 0 := by
  rw [outer_mark hk h0 h, inner_horizontal hk h0 h]
  simp only [and_self]
  rw [if_neg (c := x = 4 * k ∧ _) (by omega), if_neg (c := x = 0 ∧ _) (by omega)]

theorem outer_diagonal (x y : ℕ) : markAll (4 * k) 0 (outerSides eps) [(x, y), (x + 1, y + 1)] = 0 := by
  rw [outer_mark hk h0 h, inner_diagonal hk h0 h]
  simp only
  rw [if_neg (by omega), if_neg (by omega), if_neg (by omega), if_neg (by omega)]

end

/-! ## The divided square -/

section
variable {k : ℕ} {eps : ℚ} (hk : 0 < k) (h0 : 0 < eps) (h : 8 * (k : ℚ) * eps < 1)
include hk h0 h

theorem gamma_color (a b c : Pt) : markAll (4 * k) 1 [(2, fun x => decide (1 / 2 - eps < x.1))] [a, b, c] =
    if 2 * k ≤ a.1 ∧ 2 * k ≤ b.1 ∧ 2 * k ≤ c.1 then 2 else 1 := by
  have cv : Convex (fun x => decide (1 / 2 - eps < x.1)) := by
    intro x y hx hy t t0 t1
    simp only [decide_eq_true_eq] at *
    exact lt_mix hx hy t0 t1
  have g : ∀ a : ℕ, (1 / 2 - eps < (a : ℚ) / ((4 * k : ℕ) : ℚ)) ↔ 2 * k ≤ a := by
    intro a
    have := (grid (a := a) (m := 2) hk h0 h).1
    rw [← this, show (((2 : ℕ) : ℚ) / 4) = 1 / 2 by norm_num]
  simp only [markAll, List.foldl_cons, List.foldl_nil, isMarked_triple cv, Bool.and_eq_true, coords, decide_eq_true_eq, g]

theorem gamma_mark (p q : Pt) : markAll (4 * k) 0 (gammaSides eps) [p, q] =
    if p.1 = 2 * k ∧ q.1 = 2 * k then 7 else
    if (p.2 = 4 * k ∧ 2 * k ≤ p.1) ∧ (q.2 = 4 * k ∧ 2 * k ≤ q.1) then 6 else
    if (p.2 = 4 * k ∧ p.1 ≤ 2 * k) ∧ (q.2 = 4 * k ∧ q.1 ≤ 2 * k) then 5 else
    if (p.2 = 0 ∧ 2 * k ≤ p.1) ∧ (q.2 = 0 ∧ 2 * k ≤ q.1) then 4 else
    if (p.2 = 0 ∧ p.1 ≤ 2 * k) ∧ (q.2 = 0 ∧ q.1 ≤ 2 * k) then 3 else
    if p.1 = 4 * k ∧ q.1 = 4 * k then 2 else
    if p.1 = 0 ∧ q.1 = 0 then 1 else 0 := by
  have c1 : ∀ b : ℚ, Convex (fun x => near eps x.1 b) := fun b x y hx hy t t0 t1 => near_mix hx hy t0 t1
  have c2 : ∀ b d : ℚ, Convex (fun x => near eps x.2 b && decide (x.1 < d)) := by
    intro b d x y hx hy t t0 t1
    simp only [Bool.and_eq_true, decide_eq_true_eq] at *
    exact ⟨near_mix hx.1 hy.1 t0 t1, mix_lt hx.2 hy.2 t0 t1⟩
  have c3 : ∀ b d : ℚ, Convex (fun x => near eps x.2 b && decide (d < x.1)) := by
    intro b d x y hx hy t t0 t1
    simp only [Bool.and_eq_true, decide_eq_true_eq] at *
    exact ⟨near_mix hx.1 hy.1 t0 t1, lt_mix hx.2 hy.2 t0 t1⟩
  have q0 : (0 : ℚ) = ((0 : ℕ) : ℚ) / 4 := by norm_num
  have q2 : (1 / 2 : ℚ) = ((2 : ℕ) : ℚ) / 4 := by norm_num
  have q4 : (1 : ℚ) = ((4 : ℕ) : ℚ) / 4 := by norm_num
  have g : ∀ a : ℕ, (1 / 2 - eps < (a : ℚ) / ((4 * k : ℕ) : ℚ)) ↔ 2 * k ≤ a := by
    intro a; rw [q2]; exact (grid (a := a) (m := 2) hk h0 h).1
  have g' : ∀ a : ℕ, ((a : ℚ) / ((4 * k : ℕ) : ℚ) < 1 / 2 + eps) ↔ a ≤ 2 * k := by
    intro a; rw [q2]; exact (grid (a := a) (m := 2) hk h0 h).2.1
  simp only [markAll, gammaSides, List.foldl_cons, List.foldl_nil, isMarked_pair (c1 _), isMarked_pair (c2 _ _), isMarked_pair (c3 _ _),
    Bool.and_eq_true, decide_eq_true_eq, coords, g, g',
    near_grid hk h0 h _ 0 _ q0, near_grid hk h0 h _ 4 _ q4, near_grid hk h0 h _ 2 _ q2, zero_mul]

theorem gamma_vertical (x y : ℕ) : markAll (4 * k) 0 (gammaSides eps) [(x, y), (x, y + 1)] =
    if x = 2 * k then 7 else if x = 4 * k then 2 else if x = 0 then 1 else 0 := by
  rw [gamma_mark hk h0 h]
  simp only [and_self]
  rw [if_neg (c := (y = 4 * k ∧ 2 * k ≤ x) ∧ _) (by omega), if_neg (c := (y = 4 * k ∧ x ≤ 2 * k) ∧ _) (by omega),
    if_neg (c := (y = 0 ∧ 2 * k ≤ x) ∧ _) (by omega), if_neg (c := (y = 0 ∧ x ≤ 2 * k) ∧ _) (by omega)]

theorem gamma_horizontal (x y : ℕ) : markAll (4 * k) 0 (gammaSides eps) [(x, y), (x + 1, y)] =
    if y = 4 * k then (if 2 * k ≤ x then 6 else 5) else if y = 0 then (if 2 * k ≤ x then 4 else 3) else 0 := by
  rw [gamma_mark hk h0 h]
  simp only
  split_ifs <;> first | rfl | contradiction | omega | (exfalso; simp_all; done)

theorem gamma_diagonal (x y : ℕ) : markAll (4 * k) 0 (gammaSides eps) [(x, y), (x + 1, y + 1)] = 0 := by
  rw [gamma_mark hk h0 h]
  simp only
  split_ifs <;> first | rfl | contradiction | omega | (exfalso; simp_all; done)

end

/-- All squares. -/
def UnitS (n x y : ℕ) : Prop := x < n ∧ y < n

theorem unit_squares (n : ℕ) : Squares (UnitS n) (unitSquare n) := by
  intro c
  rw [mem_unitSquare]
  exact ⟨fun ⟨x, y, hx, hy, h⟩ => ⟨x, y, ⟨hx, hy⟩, h⟩, fun ⟨x, y, ⟨hx, hy⟩, h⟩ => ⟨x, y, hx, hy, h⟩⟩

end Verif.Immersed
