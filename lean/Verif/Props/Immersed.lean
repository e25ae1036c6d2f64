import Verif.Lemmas.Immersed
/-!
# The meshes of the demos with an immersed square

`n = 4·2^i` is the number of squares along a side; the tolerance is smaller than half of the mesh size.
-/
namespace Verif.Immersed
open Verif

private theorem pow_pos' (i : ℕ) : 0 < 2 ^ i := Nat.pos_of_ne_zero (by simp)

private theorem le_quarter {k a m : ℕ} (hk : 0 < k) : ((m : ℚ) / 4 ≤ (a : ℚ) / ((4 * k : ℕ) : ℚ) ↔ m * k ≤ a) ∧
    ((a : ℚ) / ((4 * k : ℕ) : ℚ) ≤ (m : ℚ) / 4 ↔ a ≤ m * k) := by
  have kq : (0 : ℚ) < k := by exact_mod_cast hk
  push_cast
  constructor
  · rw [div_le_div_iff₀ (by norm_num) (by linarith)]
    constructor
    · intro h
      have : ((m * k : ℕ) : ℚ) ≤ (a : ℚ) := by push_cast; linarith
      exact_mod_cast this
    · intro h
      have : ((m * k : ℕ) : ℚ) ≤ (a : ℚ) := by exact_mod_cast h
      push_cast at this; linarith
  · rw [div_le_div_iff₀ (by linarith) (by norm_num)]
    constructor
    · intro h
      have : (a : ℚ) ≤ ((m * k : ℕ) : ℚ) := by push_cast; linarith
      exact_mod_cast this
    · intro h
      have : (a : ℚ) ≤ ((m * k : ℕ) : ℚ) := by exact_mod_cast h
      push_cast at this; linarith

private theorem inSquare_iff {k : ℕ} (hk : 0 < k) (a b c : Pt) : InSquare (4 * k) (1 / 4) (3 / 4) [a, b, c] ↔
    ((k ≤ a.1 ∧ a.1 ≤ 3 * k) ∧ k ≤ a.2 ∧ a.2 ≤ 3 * k) ∧ ((k ≤ b.1 ∧ b.1 ≤ 3 * k) ∧ k ≤ b.2 ∧ b.2 ≤ 3 * k) ∧
      (k ≤ c.1 ∧ c.1 ≤ 3 * k) ∧ k ≤ c.2 ∧ c.2 ≤ 3 * k := by
  have h1 := fun a => (le_quarter (a := a) (m := 1) hk).1
  have h3 := fun a => (le_quarter (a := a) (m := 3) hk).2
  rw [Nat.cast_one] at h1
  rw [Nat.cast_ofNat] at h3
  simp only [InSquare, List.forall_mem_cons, coords, h1, h3, one_mul]
  simp; omega

/-- The geometry is returned for the three names and refused for all others. -/
theorem immersed_returns_iff (eps : ℚ) (i : ℕ) (which : String) :
    (∃ g, immersedGeometry eps i which = .ok g) ↔ which = "outer" ∨ which = "inner" ∨ which = "interface" := by
  simp only [immersedGeometry]
  split_ifs <;> simp_all

/-- The cells of the unit square are divided: those in `[1/4, 3/4]²` are the inner domain, the others the outer one. -/
theorem immersed_cells (eps : ℚ) (i : ℕ) (h0 : 0 < eps) (h : 8 * (2 ^ i : ℚ) * eps < 1) (go gi : Geometry)
    (ho : immersedGeometry eps i "outer" = .ok go) (hi : immersedGeometry eps i "inner" = .ok gi) (c : List Pt) :
    (c ∈ gi.cells ↔ c ∈ unitSquare (4 * 2 ^ i) ∧ InSquare (4 * 2 ^ i) (1 / 4) (3 / 4) c) ∧
    (c ∈ go.cells ↔ c ∈ unitSquare (4 * 2 ^ i) ∧ ¬ InSquare (4 * 2 ^ i) (1 / 4) (3 / 4) c) := by
  have hk := pow_pos' i
  have hh : 8 * ((2 ^ i : ℕ) : ℚ) * eps < 1 := by push_cast; exact h
  simp only [immersedGeometry, if_true, Except.ok.injEq] at ho hi
  simp only [show ¬ ("inner" = "outer") by decide, if_false, Except.ok.injEq] at hi
  subst ho hi
  simp only [subMesh, List.mem_filter, beq_iff_eq]
  constructor <;> refine and_congr_right fun hc => ?_
  · obtain ⟨x, y, hx, hy, rfl | rfl⟩ := mem_unitSquare.1 hc <;> rw [color_eq hk h0 hh, inSquare_iff hk] <;> split_ifs with h <;> simp [h]
  · obtain ⟨x, y, hx, hy, rfl | rfl⟩ := mem_unitSquare.1 hc <;> rw [color_eq hk h0 hh, inSquare_iff hk] <;> split_ifs with h <;> simp [h]

/-- A facet of the outer domain is marked if and only if it is on the boundary of that domain, and then the normal which the demos have for its tag points
    out of the domain. -/
theorem immersed_outer (eps : ℚ) (i : ℕ) (h0 : 0 < eps) (h : 8 * (2 ^ i : ℚ) * eps < 1) (go : Geometry)
    (ho : immersedGeometry eps i "outer" = .ok go) (c f : List Pt) (hc : c ∈ go.cells) (hf : f ∈ facets c) :
    (go.mark f ≠ 0 ↔ OnBoundary go.cells f) ∧
    (go.mark f ≠ 0 → ∃ nu, normalsS[go.mark f - 1]? = some nu ∧ OutwardNormal (4 * 2 ^ i) c f nu) := by
  have hk := pow_pos' i
  have hh : 8 * ((2 ^ i : ℕ) : ℚ) * eps < 1 := by push_cast; exact h
  simp only [immersedGeometry, if_true, Except.ok.injEq] at ho
  subst ho
  simp only at hc ⊢
  have hS := outer_squares hk h0 hh
  generalize 2 ^ i = k at *
  have hn : 0 < 4 * k := by omega
  obtain ⟨x, y, hs, ⟨rfl, rfl | rfl | rfl⟩ | ⟨rfl, rfl | rfl | rfl⟩⟩ := facet_cases hS hc hf
  all_goals unfold OutS InS at hs
  · rw [vertical_boundary hS, outer_vertical hk h0 hh]
    unfold Below OutS InS
    refine ⟨?_, ?_⟩
    · split_ifs <;> first | contradiction | omega
    · split_ifs <;> intro hm <;> first | contradiction | omega | exact ⟨_, rfl, normal_right hn x y⟩
  · rw [outer_diagonal hk h0 hh]
    simpa using diagonal_boundary hS x y
  · rw [horizontal_boundary hS, outer_horizontal hk h0 hh]
    unfold Below OutS InS
    refine ⟨?_, ?_⟩
    · split_ifs <;> first | contradiction | omega
    · split_ifs <;> intro hm <;> first | contradiction | omega | exact ⟨_, rfl, normal_below hn x y⟩
  · rw [horizontal_boundary hS, outer_horizontal hk h0 hh]
    unfold Below OutS InS
    refine ⟨?_, ?_⟩
    · split_ifs <;> first | contradiction | omega
    · split_ifs <;> intro hm <;> first | contradiction | omega | exact ⟨_, rfl, normal_above hn x y⟩
  · rw [outer_diagonal hk h0 hh]
    simpa using diagonal_boundary hS x y
  · rw [vertical_boundary hS, outer_vertical hk h0 hh]
    unfold Below OutS InS
    refine ⟨?_, ?_⟩
    · split_ifs <;> first | contradiction | omega
    · split_ifs <;> intro hm <;> first | contradiction | omega | exact ⟨_, rfl, normal_left hn x y⟩

/-- The same for the inner domain. -/
theorem immersed_inner (eps : ℚ) (i : ℕ) (h0 : 0 < eps) (h : 8 * (2 ^ i : ℚ) * eps < 1) (gi : Geometry)
    (hi : immersedGeometry eps i "inner" = .ok gi) (c f : List Pt) (hc : c ∈ gi.cells) (hf : f ∈ facets c) :
    (gi.mark f ≠ 0 ↔ OnBoundary gi.cells f) ∧
    (gi.mark f ≠ 0 → ∃ nu, normalsD[gi.mark f - 1]? = some nu ∧ OutwardNormal (4 * 2 ^ i) c f nu) := by
  have hk := pow_pos' i
  have hh : 8 * ((2 ^ i : ℕ) : ℚ) * eps < 1 := by push_cast; exact h
  simp only [immersedGeometry, show ¬ ("inner" = "outer") by decide, if_true, if_false, Except.ok.injEq] at hi
  subst hi
  simp only at hc ⊢
  have hS := inner_squares hk h0 hh
  generalize 2 ^ i = k at *
  have hn : 0 < 4 * k := by omega
  obtain ⟨x, y, hs, ⟨rfl, rfl | rfl | rfl⟩ | ⟨rfl, rfl | rfl | rfl⟩⟩ := facet_cases hS hc hf
  all_goals unfold InS at hs
  · rw [vertical_boundary hS, inner_vertical hk h0 hh]
    unfold Below InS
    refine ⟨?_, ?_⟩
    · split_ifs <;> first | contradiction | omega
    · split_ifs <;> intro hm <;> first | contradiction | omega | exact ⟨_, rfl, normal_right hn x y⟩
  · rw [inner_diagonal hk h0 hh]
    simpa using diagonal_boundary hS x y
  · rw [horizontal_boundary hS, inner_horizontal hk h0 hh]
    unfold Below InS
    refine ⟨?_, ?_⟩
    · split_ifs <;> first | contradiction | omega
    · split_ifs <;> intro hm <;> first | contradiction | omega | exact ⟨_, rfl, normal_below hn x y⟩
  · rw [horizontal_boundary hS, inner_horizontal hk h0 hh]
    unfold Below InS
    refine ⟨?_, ?_⟩
    · split_ifs <;> first | contradiction | omega
    · split_ifs <;> intro hm <;> first | contradiction | omega | exact ⟨_, rfl, normal_above hn x y⟩
  · rw [inner_diagonal hk h0 hh]
    simpa using diagonal_boundary hS x y
  · rw [vertical_boundary hS, inner_vertical hk h0 hh]
    unfold Below InS
    refine ⟨?_, ?_⟩
    · split_ifs <;> first | contradiction | omega
    · split_ifs <;> intro hm <;> first | contradiction | omega | exact ⟨_, rfl, normal_left hn x y⟩

/-- The cells of the interface are exactly the facets between the two domains, each one once; they have the same tag in all three functions, and the
    normal which the demos have for this tag points out of the outer domain. -/
theorem immersed_interface (eps : ℚ) (i : ℕ) (h0 : 0 < eps) (h : 8 * (2 ^ i : ℚ) * eps < 1) (go gi gf : Geometry)
    (ho : immersedGeometry eps i "outer" = .ok go) (hi : immersedGeometry eps i "inner" = .ok gi)
    (hf : immersedGeometry eps i "interface" = .ok gf) :
    gf.cells.Nodup ∧
    (∀ f, f ∈ gf.cells ↔ (∃ c ∈ gi.cells, f ∈ facets c) ∧ ∃ c ∈ go.cells, f ∈ facets c) ∧
    (∀ f ∈ gf.cells, gf.mark f = gi.mark f ∧ gf.mark f = go.mark f ∧
      ∀ c ∈ go.cells, f ∈ facets c → ∃ nu, normalsI[gf.mark f - 1]? = some nu ∧ OutwardNormal (4 * 2 ^ i) c f nu) := by
  have hk := pow_pos' i
  have hh : 8 * ((2 ^ i : ℕ) : ℚ) * eps < 1 := by push_cast; exact h
  have hout := immersed_outer eps i h0 h go ho
  simp only [immersedGeometry, show ¬ ("inner" = "outer") by decide, show ¬ ("interface" = "outer") by decide,
    show ¬ ("interface" = "inner") by decide, if_true, if_false, Except.ok.injEq] at ho hi hf
  subst ho hi hf
  simp only at hout ⊢
  have hS := inner_squares hk h0 hh
  have hO := outer_squares hk h0 hh
  generalize 2 ^ i = k at *
  have key : ∀ f, f ∈ (allFacets (subMesh eps (4 * k) 2)).filter
        (fun f => [1, 2, 3, 4].contains (markAll (4 * k) 0 (interfaceSides eps) f)) →
      (∃ c ∈ subMesh eps (4 * k) 2, f ∈ facets c) ∧ (∃ c ∈ subMesh eps (4 * k) 1, f ∈ facets c) ∧
      markAll (4 * k) 0 (interfaceSides eps) f = markAll (4 * k) 0 (outerSides eps) f ∧
      markAll (4 * k) 0 (interfaceSides eps) f ≠ 0 ∧ markAll (4 * k) 0 (interfaceSides eps) f ≤ 4 := by
    intro f hf
    simp only [List.mem_filter, allFacets, List.mem_dedup, List.mem_flatMap, List.contains_iff_mem] at hf
    obtain ⟨⟨c, hc, hfc⟩, hm⟩ := hf
    refine ⟨⟨c, hc, hfc⟩, ?_⟩
    obtain ⟨x, y, hs, ⟨rfl, rfl | rfl | rfl⟩ | ⟨rfl, rfl | rfl | rfl⟩⟩ := facet_cases hS hc hfc
    all_goals unfold InS at hs
    · rw [inner_vertical hk h0 hh] at hm ⊢
      rw [outer_vertical hk h0 hh]
      refine ⟨?_, ?_⟩
      · by_cases e : x + 1 = 3 * k
        · obtain ⟨h1, h2⟩ := (vertical_cells hO (x + 1) y _).2 (Or.inl ⟨by unfold OutS InS; omega, rfl⟩)
          exact ⟨_, h1, h2⟩
        · rw [if_neg (by omega), if_neg (by omega)] at hm; simp at hm
      · split_ifs at hm ⊢ <;> first | contradiction | omega
    · rw [inner_diagonal hk h0 hh] at hm; simp at hm
    · rw [inner_horizontal hk h0 hh] at hm ⊢
      rw [outer_horizontal hk h0 hh]
      refine ⟨?_, ?_⟩
      · by_cases e : y = k
        · obtain ⟨h1, h2⟩ := (horizontal_cells hO x y _).2 (Or.inr ⟨y - 1, by omega, by unfold OutS InS; omega, rfl⟩)
          exact ⟨_, h1, h2⟩
        · rw [if_neg (by omega), if_neg (by omega)] at hm; simp at hm
      · split_ifs at hm ⊢ <;> first | contradiction | omega
    · rw [inner_horizontal hk h0 hh] at hm ⊢
      rw [outer_horizontal hk h0 hh]
      refine ⟨?_, ?_⟩
      · by_cases e : y + 1 = 3 * k
        · obtain ⟨h1, h2⟩ := (horizontal_cells hO x (y + 1) _).2 (Or.inl ⟨by unfold OutS InS; omega, rfl⟩)
          exact ⟨_, h1, h2⟩
        · rw [if_neg (by omega), if_neg (by omega)] at hm; simp at hm
      · split_ifs at hm ⊢ <;> first | contradiction | omega
    · rw [inner_diagonal hk h0 hh] at hm; simp at hm
    · rw [inner_vertical hk h0 hh] at hm ⊢
      rw [outer_vertical hk h0 hh]
      refine ⟨?_, ?_⟩
      · by_cases e : x = k
        · obtain ⟨h1, h2⟩ := (vertical_cells hO x y _).2 (Or.inr ⟨x - 1, by omega, by unfold OutS InS; omega, rfl⟩)
          exact ⟨_, h1, h2⟩
        · rw [if_neg (by omega), if_neg (by omega)] at hm; simp at hm
      · split_ifs at hm ⊢ <;> first | contradiction | omega
  refine ⟨(List.nodup_dedup _).filter _, fun f => ⟨fun hf => ⟨(key f hf).1, (key f hf).2.1⟩, ?_⟩, fun f hf => ?_⟩
  · rintro ⟨⟨c, hc, hfc⟩, c', hc', hfc'⟩
    simp only [List.mem_filter, allFacets, List.mem_dedup, List.mem_flatMap, List.contains_iff_mem]
    refine ⟨⟨c, hc, hfc⟩, ?_⟩
    obtain ⟨x, y, hs, ⟨rfl, rfl | rfl | rfl⟩ | ⟨rfl, rfl | rfl | rfl⟩⟩ := facet_cases hS hc hfc
    all_goals unfold InS at hs
    · rw [inner_vertical hk h0 hh]
      rcases (vertical_cells hO _ _ _).1 ⟨hc', hfc'⟩ with ⟨ho, -⟩ | ⟨z, hz, ho, -⟩ <;> unfold OutS InS at ho
      · rw [if_pos (by omega)]; simp
      · omega
    · have ho := ((diagonal_cells hO _ _ _).1 ⟨hc', hfc'⟩).1
      unfold OutS InS at ho; omega
    · rw [inner_horizontal hk h0 hh]
      rcases (horizontal_cells hO _ _ _).1 ⟨hc', hfc'⟩ with ⟨ho, -⟩ | ⟨z, hz, ho, -⟩ <;> unfold OutS InS at ho
      · omega
      · rw [if_neg (by omega), if_pos (by omega)]; simp
    · rw [inner_horizontal hk h0 hh]
      rcases (horizontal_cells hO _ _ _).1 ⟨hc', hfc'⟩ with ⟨ho, -⟩ | ⟨z, hz, ho, -⟩ <;> unfold OutS InS at ho
      · rw [if_pos (by omega)]; simp
      · omega
    · have ho := ((diagonal_cells hO _ _ _).1 ⟨hc', hfc'⟩).1
      unfold OutS InS at ho; omega
    · rw [inner_vertical hk h0 hh]
      rcases (vertical_cells hO _ _ _).1 ⟨hc', hfc'⟩ with ⟨ho, -⟩ | ⟨z, hz, ho, -⟩ <;> unfold OutS InS at ho
      · omega
      · rw [if_neg (by omega), if_pos (by omega)]; simp
  · obtain ⟨-, -, he, hne, hle⟩ := key f hf
    refine ⟨trivial, he, fun c hc hfc => ?_⟩
    obtain ⟨nu, hnu, hn⟩ := (hout c f hc hfc).2 (he ▸ hne)
    refine ⟨nu, ?_, hn⟩
    rw [← he] at hnu
    generalize markAll (4 * k) 0 (interfaceSides eps) f = t at *
    have : t = 1 ∨ t = 2 ∨ t = 3 ∨ t = 4 := by omega
    rcases this with rfl | rfl | rfl | rfl <;> simpa [normalsS, normalsI] using hnu

/-- With the tolerance of dolfin and the coarsest mesh, the theorems are about existing meshes: the facet between `(1/4, 1/4)` and `(1/4, 1/2)` is on the interface with tag 1. -/
example : (0 : ℚ) < 3e-16 ∧ 8 * (2 ^ 0 : ℚ) * 3e-16 < 1 ∧
    ∃ go gi gf, immersedGeometry 3e-16 0 "outer" = .ok go ∧ immersedGeometry 3e-16 0 "inner" = .ok gi ∧
      immersedGeometry 3e-16 0 "interface" = .ok gf ∧ gf.mark [(1, 1), (1, 2)] = 1 ∧ go.mark [(0, 0), (0, 1)] = 5 := by
  have e : (4 * 2 ^ 0 : ℕ) = 4 * 1 := rfl
  refine ⟨by norm_num, by norm_num, _, _, _, rfl, rfl, rfl, ?_, ?_⟩
  · simp only [e]; rw [inner_vertical (k := 1) (by norm_num) (by norm_num) (by norm_num)]; rfl
  · simp only [e]; rw [outer_vertical (k := 1) (by norm_num) (by norm_num) (by norm_num)]; rfl

/-- The square divided by `Γ`, the line `x = 1/2`: cells have the colour 1 on the left and 2 on the right of it. -/
theorem gamma_cells (eps : ℚ) (i : ℕ) (h0 : 0 < eps) (h : 8 * (2 ^ i : ℚ) * eps < 1) (c : List Pt) (hc : c ∈ unitSquare (4 * 2 ^ i)) :
    ((gammaGeometry eps i).1 c = 1 ∧ ∀ p ∈ c, (coords (4 * 2 ^ i) p).1 ≤ 1 / 2) ∨
    ((gammaGeometry eps i).1 c = 2 ∧ ∀ p ∈ c, 1 / 2 ≤ (coords (4 * 2 ^ i) p).1) := by
  have hk := pow_pos' i
  have hh : 8 * ((2 ^ i : ℕ) : ℚ) * eps < 1 := by push_cast; exact h
  simp only [gammaGeometry]
  generalize 2 ^ i = k at *
  have q2 : (1 / 2 : ℚ) = ((2 : ℕ) : ℚ) / 4 := by norm_num
  have h1 : ∀ a : ℕ, (1 / 2 : ℚ) ≤ (a : ℚ) / ((4 * k : ℕ) : ℚ) ↔ 2 * k ≤ a := fun a => by rw [q2]; exact (le_quarter (a := a) (m := 2) hk).1
  have h2 : ∀ a : ℕ, (a : ℚ) / ((4 * k : ℕ) : ℚ) ≤ (1 / 2 : ℚ) ↔ a ≤ 2 * k := fun a => by rw [q2]; exact (le_quarter (a := a) (m := 2) hk).2
  obtain ⟨x, y, hx, hy, rfl | rfl⟩ := mem_unitSquare.1 hc <;> rw [gamma_color hk h0 hh] <;>
    simp only [List.forall_mem_cons, coords, h1, h2] <;> split_ifs with hs <;> simp <;> omega

/-- Facets have the tag 7 if and only if they are between cells of different colours, and one of the tags 1 to 6 if and only if they are on the boundary of the
    square; then the part of the solution which is prescribed on them is the one on their cell. -/
theorem gamma_facets (eps : ℚ) (i : ℕ) (h0 : 0 < eps) (h : 8 * (2 ^ i : ℚ) * eps < 1) (c f : List Pt) (hc : c ∈ unitSquare (4 * 2 ^ i)) (hf : f ∈ facets c) :
    ((gammaGeometry eps i).2 f = 7 ↔ ∃ c' ∈ unitSquare (4 * 2 ^ i), f ∈ facets c' ∧ (gammaGeometry eps i).1 c' ≠ (gammaGeometry eps i).1 c) ∧
    ((1 ≤ (gammaGeometry eps i).2 f ∧ (gammaGeometry eps i).2 f ≤ 6) ↔ OnBoundary (unitSquare (4 * 2 ^ i)) f) ∧
    (OnBoundary (unitSquare (4 * 2 ^ i)) f → ((gammaGeometry eps i).2 f, (gammaGeometry eps i).1 c) ∈ dirichletOmega) := by
  have hk := pow_pos' i
  have hh : 8 * ((2 ^ i : ℕ) : ℚ) * eps < 1 := by push_cast; exact h
  simp only [gammaGeometry]
  generalize 2 ^ i = k at *
  have hS := unit_squares (4 * k)
  have col : ∀ a b : ℕ, markAll (4 * k) 1 [(2, fun x => decide (1 / 2 - eps < x.1))] [(a, b), (a + 1, b), (a + 1, b + 1)] = (if 2 * k ≤ a then 2 else 1) ∧
      markAll (4 * k) 1 [(2, fun x => decide (1 / 2 - eps < x.1))] [(a, b), (a, b + 1), (a + 1, b + 1)] = (if 2 * k ≤ a then 2 else 1) := by
    intro a b
    rw [gamma_color hk h0 hh, gamma_color hk h0 hh]
    simp only
    constructor <;> split_ifs <;> first | rfl | omega
  have hor : ∀ x y, ¬ ∃ c' ∈ unitSquare (4 * k), [(x, y), (x + 1, y)] ∈ facets c' ∧
      markAll (4 * k) 1 [(2, fun x => decide (1 / 2 - eps < x.1))] c' ≠ (if 2 * k ≤ x then 2 else 1) := by
    rintro x y ⟨c', hc', hf', hne⟩
    rcases (horizontal_cells hS _ _ _).1 ⟨hc', hf'⟩ with ⟨-, rfl⟩ | ⟨z, -, -, rfl⟩
    · exact hne (col _ _).1
    · exact hne (col _ _).2
  have dia : ∀ x y, ¬ ∃ c' ∈ unitSquare (4 * k), [(x, y), (x + 1, y + 1)] ∈ facets c' ∧
      markAll (4 * k) 1 [(2, fun x => decide (1 / 2 - eps < x.1))] c' ≠ (if 2 * k ≤ x then 2 else 1) := by
    rintro x y ⟨c', hc', hf', hne⟩
    rcases (diagonal_cells hS _ _ _).1 ⟨hc', hf'⟩ with ⟨-, rfl | rfl⟩
    · exact hne (col _ _).1
    · exact hne (col _ _).2
  have ver : ∀ x y m, (∃ c' ∈ unitSquare (4 * k), [(x, y), (x, y + 1)] ∈ facets c' ∧
      markAll (4 * k) 1 [(2, fun x => decide (1 / 2 - eps < x.1))] c' ≠ m) ↔
      y < 4 * k ∧ ((x < 4 * k ∧ (if 2 * k ≤ x then 2 else 1) ≠ m) ∨ (1 ≤ x ∧ x - 1 < 4 * k ∧ (if 2 * k ≤ x - 1 then 2 else 1) ≠ m)) := by
    intro x y m
    constructor
    · rintro ⟨c', hc', hf', hne⟩
      rcases (vertical_cells hS _ _ _).1 ⟨hc', hf'⟩ with ⟨hs, rfl⟩ | ⟨z, rfl, hs, rfl⟩
      · rw [(col _ _).2] at hne; exact ⟨hs.2, Or.inl ⟨hs.1, hne⟩⟩
      · rw [(col _ _).1] at hne; exact ⟨hs.2, Or.inr ⟨by omega, by simpa using hs.1, by simpa using hne⟩⟩
    · rintro ⟨hy, ⟨hx, hne⟩ | ⟨hx, hx', hne⟩⟩
      · obtain ⟨h1, h2⟩ := (vertical_cells hS x y _).2 (Or.inl ⟨⟨hx, hy⟩, rfl⟩)
        exact ⟨_, h1, h2, by rw [(col _ _).2]; exact hne⟩
      · obtain ⟨h1, h2⟩ := (vertical_cells hS x y _).2 (Or.inr ⟨x - 1, by omega, ⟨hx', hy⟩, rfl⟩)
        exact ⟨_, h1, h2, by rw [(col _ _).1]; exact hne⟩
  have mem : ∀ a b : ℕ, (a, b) ∈ dirichletOmega ↔ (b = 1 ∧ (a = 1 ∨ a = 3 ∨ a = 5)) ∨ (b = 2 ∧ (a = 2 ∨ a = 4 ∨ a = 6)) := by
    intro a b; simp [dirichletOmega]; omega
  obtain ⟨x, y, hs, ⟨rfl, rfl | rfl | rfl⟩ | ⟨rfl, rfl | rfl | rfl⟩⟩ := facet_cases hS hc hf
  all_goals unfold UnitS at hs
  · rw [(col _ _).1, ver, vertical_boundary hS, gamma_vertical hk h0 hh, mem]
    unfold Below UnitS
    refine ⟨?_, ?_, ?_⟩ <;> split_ifs <;> first | contradiction | omega | exact not_false | (rw [false_iff]; omega)
  · rw [(col _ _).1, gamma_diagonal hk h0 hh]
    have := diagonal_boundary hS x y
    refine ⟨by simpa using dia x y, by simpa using this, fun hb => absurd hb this⟩
  · rw [(col _ _).1, horizontal_boundary hS, gamma_horizontal hk h0 hh, mem]
    unfold Below UnitS
    refine ⟨iff_of_false ?_ (hor x y), ?_, ?_⟩ <;> split_ifs <;> first | contradiction | omega | exact not_false | (rw [false_iff]; omega)
  · rw [(col _ _).2, horizontal_boundary hS, gamma_horizontal hk h0 hh, mem]
    unfold Below UnitS
    refine ⟨iff_of_false ?_ (hor x (y + 1)), ?_, ?_⟩ <;> split_ifs <;> first | contradiction | omega | exact not_false | (rw [false_iff]; omega)
  · rw [(col _ _).2, gamma_diagonal hk h0 hh]
    have := diagonal_boundary hS x y
    refine ⟨by simpa using dia x y, by simpa using this, fun hb => absurd hb this⟩
  · rw [(col _ _).2, ver, vertical_boundary hS, gamma_vertical hk h0 hh, mem]
    unfold Below UnitS
    refine ⟨?_, ?_, ?_⟩ <;> split_ifs <;> first | contradiction | omega | exact not_false | (rw [false_iff]; omega)

example : (gammaGeometry 3e-16 0).2 [(2, 0), (2, 1)] = 7 ∧ (gammaGeometry 3e-16 0).2 [(1, 4), (2, 4)] = 5 := by
  have e : (4 * 2 ^ 0 : ℕ) = 4 * 1 := rfl
  simp only [gammaGeometry, e]
  rw [gamma_vertical (k := 1) (by norm_num) (by norm_num) (by norm_num), gamma_horizontal (k := 1) (by norm_num) (by norm_num) (by norm_num)]
  decide

end Verif.Immersed
