import Verif.Lemmas.Normal
import Verif.Spec.Normal
import Mathlib.Data.List.FinRange
import Mathlib.Algebra.BigOperators.Fin
import Mathlib.Tactic.Linarith
import Mathlib.Tactic.Ring
import Mathlib.Tactic.NormNum
import Mathlib.Tactic.FinCases
import Mathlib.Tactic.Positivity
import Mathlib.Tactic.FieldSimp
/-!
# C63: normals of embedded meshes
-/
namespace Verif.Normal
open Verif Matrix
variable {d : Nat}

/-- C63.  Normals oriented by an expression. -/
theorem expression_oriented {S : Surface d} (hS : S.Numbered) (hm : 1 ≤ S.tdim ∧ S.tdim < d) (hn : ∀ n ∈ S.normals, n ≠ 0)
    (o : (Fin d → ℝ) → Fin d → ℝ) :
    ∃ ns, outerNormal S (.expression d o) = .ok ns ∧ ns.length = S.normals.length ∧
      ∀ (c : Nat) n x v, ns[c]? = some n → S.midpoints[c]? = some x → S.normals[c]? = some v →
        Unit n ∧ Along n v ∧ 0 ≤ o x ⬝ᵥ n := by
  refine ⟨List.zipWith (cellValue o) S.normals S.midpoints, ?_, by simp [hS.midpoints], ?_⟩
  · unfold outerNormal manifold
    rw [show decide (1 ≤ S.tdim ∧ S.tdim < d) = true from decide_eq_true hm]
    exact byExpression_eq hS o
  · intro c n x v h1 h2 h3
    rw [List.getElem?_zipWith, h2, h3] at h1
    injection h1 with h1
    subst h1
    exact cellValue_spec (hn v (List.mem_of_getElem? h3))

/-- C63.  Normals oriented by an inside point: unit vectors normal to the cells which point away from the point. -/
theorem point_oriented {S : Surface d} (hS : S.Numbered) (hm : 1 ≤ S.tdim ∧ S.tdim < d) (hn : ∀ n ∈ S.normals, n ≠ 0)
    (p : Fin d → ℝ) :
    ∃ ns, outerNormal S (.point (List.ofFn p)) = .ok ns ∧ ns.length = S.normals.length ∧
      ∀ (c : Nat) n x v, ns[c]? = some n → S.midpoints[c]? = some x → S.normals[c]? = some v →
        Unit n ∧ Along n v ∧ 0 ≤ (x - p) ⬝ᵥ n := by
  refine ⟨_, point_eq hS hm p, by simp [hS.midpoints], ?_⟩
  intro c n x v h1 h2 h3
  rw [List.getElem?_zipWith, h2, h3] at h1
  injection h1 with h1
  subst h1
  exact cellValue_spec (hn v (List.mem_of_getElem? h3))

/-- C63.  Without orientation: the outward normals of convex surfaces. -/
theorem default_outward_partial {S : Surface d} (hS : S.Numbered) (hm : 1 ≤ S.tdim ∧ S.tdim < d) (hn : ∀ n ∈ S.normals, n ≠ 0) :
    ∃ ns, outerNormal S .default = .ok ns ∧ ns.length = S.normals.length ∧
      ∀ (c : Nat) n x v a, ns[c]? = some n → S.midpoints[c]? = some x → S.normals[c]? = some v → Outward S x a → Along v a → n = a := by
  obtain ⟨ns, h1, h2, h3⟩ := point_oriented hS hm hn (fun i => (S.coordinates.map (fun v => v i)).sum / S.coordinates.length)
  refine ⟨ns, ?_, h2, ?_⟩
  · rw [← h1, ← meanPoint_eq]
    rfl
  · intro c n x v a e1 e2 e3 ho hv
    obtain ⟨u1, u2, u3⟩ := h3 c n x v e1 e2 e3
    obtain ⟨ha, hall, w, hw, hpos⟩ := ho
    refine along_unit u1 ha u2 hv ?_ u3
    have hN : (0 : ℝ) < S.coordinates.length := by
      have := List.length_pos_of_mem hw
      exact_mod_cast this
    have e : (fun i => (S.coordinates.map (fun v => v i)).sum / (S.coordinates.length : ℝ)) ⬝ᵥ a
        = (S.coordinates.map (fun v => v ⬝ᵥ a)).sum / S.coordinates.length := by
      rw [← sum_dot]
      unfold dotProduct
      rw [div_eq_mul_inv, Finset.sum_mul]
      exact Finset.sum_congr rfl (fun i _ => by ring)
    rw [sub_dotProduct, e]
    have hs : 0 < (S.coordinates.map (fun v => (x - v) ⬝ᵥ a)).sum := by
      refine sum_pos_of ?_ ?_
      · intro y hy
        obtain ⟨v, hv, rfl⟩ := List.mem_map.1 hy
        exact hall v hv
      · exact ⟨_, List.mem_map.2 ⟨w, hw, rfl⟩, hpos⟩
    have e2 : (S.coordinates.map (fun v => (x - v) ⬝ᵥ a)).sum
        = S.coordinates.length * (x ⬝ᵥ a) - (S.coordinates.map (fun v => v ⬝ᵥ a)).sum := by
      generalize S.coordinates = l
      induction l with
      | nil => simp
      | cons v l ih =>
          rw [List.map_cons, List.sum_cons, ih, sub_dotProduct, List.map_cons, List.sum_cons, List.length_cons]
          push_cast
          ring
    rw [e2] at hs
    rw [sub_pos, div_lt_iff₀ hN]
    linarith

/-- C63.  Orientation by markers of the cells of the surrounding mesh: on facets between cells with different markers the normal
    points out of the cell with the larger marker, on exterior facets it points out of the cell. -/
theorem marker_oriented {S : Surface d} {M : Outer d} {values is : List Nat} (hp : (M.id, is) ∈ S.parents)
    (hnd : (S.parents.map Prod.fst).Nodup)
    (hf : ∀ i ∈ is, ∃ f, M.facets[i]? = some f ∧ f.plus < values.length ∧ ∀ m, f.minus = some m → m < values.length) :
    ∃ ns, outerNormal S (.marker M values) = .ok ns ∧ ns.length = is.length ∧
      ∀ (c i : Nat) f n, ns[c]? = some n → is[c]? = some i → M.facets[i]? = some f →
        (f.minus = none → PointsOutOf f n f.plus) ∧
        ∀ (h l : Nat) kh kl, (f.minus = some l ∧ f.plus = h ∨ f.plus = l ∧ f.minus = some h) → values[h]? = some kh → values[l]? = some kl →
          kh > kl → PointsOutOf f n h := by
  obtain ⟨ns, h1, h2, h3⟩ := traceValues_ok (M := M) (value := orientFacetNormal values) (is := is) (by
    intro i hi
    obtain ⟨f, e1, e2, e3⟩ := hf i hi
    unfold orientFacetNormal
    rcases hm : f.minus with _ | m
    · exact ⟨f, _, e1, by rw [hm]⟩
    · refine ⟨f, if values[f.plus] > values[m]'(e3 m hm) then f.normal else - f.normal, e1, ?_⟩
      rw [hm]
      dsimp only
      unfold pcwsConstant
      rw [List.getElem?_eq_getElem e2, List.getElem?_eq_getElem (e3 m hm)]
      rfl)
  refine ⟨ns, ?_, h2, ?_⟩
  · unfold outerNormal
    dsimp only
    rw [parentsIn_eq hp hnd]
    exact h1
  · intro c i f n e1 e2 e3
    have hv := h3 c i f n e1 e2 e3
    unfold orientFacetNormal at hv
    refine ⟨?_, ?_⟩
    · intro hm
      rw [hm] at hv
      injection hv with hv
      exact .inl ⟨rfl, hv.symm⟩
    · intro h l kh kl hhl hkh hkl hgt
      rcases hhl with ⟨hm, hp⟩ | ⟨hp, hm⟩
      · rw [hm, hp] at hv
        unfold pcwsConstant at hv
        dsimp only at hv
        rw [hkh, hkl] at hv
        dsimp only [bind, Except.bind] at hv
        rw [if_pos hgt] at hv
        injection hv with hv
        exact .inl ⟨hp.symm, hv.symm⟩
      · rw [hm, hp] at hv
        unfold pcwsConstant at hv
        dsimp only at hv
        rw [hkh, hkl] at hv
        dsimp only [bind, Except.bind] at hv
        rw [if_neg (by omega)] at hv
        injection hv with hv
        exact .inr ⟨hm, hv.symm⟩

/-- C63.  The orientation by different markers does not depend on which of the cells is '+'. -/
theorem marker_independent {values : List Nat} {f : Facet d} (h : ∀ m, f.minus = some m → values[f.plus]? ≠ values[m]?) :
    ∀ n, orientFacetNormal values f = .ok n → orientFacetNormal values f.flip = .ok n := by
  intro n hn
  unfold Facet.flip
  unfold orientFacetNormal at hn ⊢
  rcases hm : f.minus with _ | m
  · rw [hm] at hn
    dsimp only at hn ⊢
    rw [hm]
    exact hn
  · have hne := h m hm
    rw [hm] at hn
    dsimp only at hn ⊢
    unfold pcwsConstant at hn ⊢
    rcases hkp : values[f.plus]? with _ | kp
    · rw [hkp] at hn; simp at hn
    rcases hkm : values[m]? with _ | km
    · rw [hkp, hkm] at hn; simp at hn
    rw [hkp, hkm] at hn hne
    dsimp only [bind, Except.bind] at hn ⊢
    rw [← hn, neg_neg]
    congr 1
    have : kp ≠ km := fun e => hne (by rw [e])
    by_cases hgt : kp > km
    · rw [if_neg (by omega), if_pos hgt]
    · rw [if_pos (by omega), if_neg hgt]

/-- C63 is false of facets inside of a subdomain: there the orientation depends on which cell is '+'. -/
theorem marker_equal_arbitrary : ∃ (f : Facet 2) (values : List Nat) (n : Fin 2 → ℝ),
    orientFacetNormal values f = .ok n ∧ orientFacetNormal values f.flip = .ok (- n) ∧ n ≠ - n := by
  refine ⟨⟨![1, 0], 0, some 1⟩, [1, 1], - ![1, 0], ?_, ?_, ?_⟩
  · simp [orientFacetNormal, pcwsConstant]
  · simp [orientFacetNormal, pcwsConstant, Facet.flip]
  · intro h
    have := congrFun h 0
    norm_num at this

/-- C63.  Orientation by a mesh: outward on its boundary, but zero on interior facets. -/
theorem mesh_oriented {S : Surface d} {M : Outer d} {is : List Nat} (hp : (M.id, is) ∈ S.parents)
    (hnd : (S.parents.map Prod.fst).Nodup) (hf : ∀ i ∈ is, i < M.facets.length) :
    ∃ ns, outerNormal S (.mesh M) = .ok ns ∧ ns.length = is.length ∧
      ∀ (c i : Nat) f n, ns[c]? = some n → is[c]? = some i → M.facets[i]? = some f →
        (f.minus = none → PointsOutOf f n f.plus) ∧ (f.minus.isSome → n = 0) := by
  obtain ⟨ns, h1, h2, h3⟩ := traceValues_ok (M := M) (value := fun f => .ok (if f.minus.isNone then f.normal else 0)) (is := is) (by
    intro i hi
    exact ⟨_, _, List.getElem?_eq_getElem (hf i hi), rfl⟩)
  refine ⟨ns, ?_, h2, ?_⟩
  · unfold outerNormal
    dsimp only
    rw [parentsIn_eq hp hnd]
    exact h1
  · intro c i f n e1 e2 e3
    have hv := h3 c i f n e1 e2 e3
    injection hv with hv
    refine ⟨fun hm => .inl ⟨rfl, ?_⟩, fun hm => ?_⟩
    · rw [← hv, hm]; rfl
    · obtain ⟨m, hm⟩ := Option.isSome_iff_exists.1 hm
      rw [← hv, hm]; rfl

/-- C63.  Meshes which are not parents are refused. -/
theorem not_parent_refused {S : Surface d} {M : Outer d} (h : M.id ∉ S.parents.map Prod.fst) (values : List Nat) :
    outerNormal S (.marker M values) = .error .assertion ∧ outerNormal S (.mesh M) = .error .assertion ∧
    outerNormal S (.facetNormal M) = .error .assertion := by
  have : parentsIn S M.id = .error .assertion := by
    unfold parentsIn
    rw [List.find?_eq_none.2]
    intro p hp e
    exact h (List.mem_map.2 ⟨p, hp, by simpa using e⟩)
  unfold outerNormal
  dsimp only
  rw [this]
  exact ⟨rfl, rfl, rfl⟩

/-- C63.  The inner normal is the opposite of the outer one. -/
theorem inner_normal {S : Surface d} {o : Orientation d} :
    (∀ ns, outerNormal S o = .ok ns → innerNormal S o = .ok (ns.map (fun n i => - n i))) ∧
    ∀ e, outerNormal S o = .error e → innerNormal S o = .error e := by
  refine ⟨fun ns h => ?_, fun e h => ?_⟩
  · unfold innerNormal
    rw [h]
    rfl
  · unfold innerNormal
    rw [h]
    rfl

/-- C63 is false of straight interfaces without an orientation: the sign is that of `cell_normal`. -/
theorem default_straight : ∃ S : Surface 2, S.Numbered ∧ outerNormal S .default = .ok [![0, 1]] ∧
    outerNormal { S with normals := [![0, -1]] } .default = .ok [![0, -1]] := by
  let S : Surface 2 := ⟨1, [![0, 1]], [![1 / 2, 0]], [![0, 0], ![1, 0]], [], fun s => [s.val], fun c s => 2 * c + s.val, 2⟩
  have hS : S.Numbered := by
    refine ⟨rfl, ?_, ?_, ?_⟩
    · intro s; simp [S]
    · intro c s c' s' h1 h2 h3
      simp [S] at h1 h2 h3
      omega
    · intro c s h; simp [S] at h ⊢; omega
  have hS' : ({ S with normals := [![0, -1]] } : Surface 2).Numbered :=
    ⟨rfl, fun s => by simp [S], fun c s c' s' h1 h2 h3 => by simp [S] at h1 h2 h3; omega, fun c s h => by simp [S] at h ⊢; omega⟩
  refine ⟨S, hS, ?_, ?_⟩
  · have := point_eq hS (by simp [S]) (fun i => (S.coordinates.map (fun v => v i)).sum / S.coordinates.length)
    rw [← meanPoint_eq] at this
    refine Eq.trans this ?_
    simp [S, cellValue, norm, dotProduct, Fin.sum_univ_two]
  · have := point_eq hS' (by simp [S]) (fun i => (S.coordinates.map (fun v => v i)).sum / S.coordinates.length)
    have e : meanPoint ({ S with normals := [![0, -1]] } : Surface 2) = meanPoint S := rfl
    rw [← meanPoint_eq, ← e] at this
    refine Eq.trans this ?_
    simp [S, cellValue, norm, dotProduct, Fin.sum_univ_two]

/-- The dofs must be numbered by cells: with the dofs of two cells exchanged, the cells get the normals of each other. -/
theorem numbering_matters : ∃ S : Surface 2, ∃ ns, outerNormal S (.expression 2 (fun _ => ![1, 1])) = .ok ns ∧
    S.normals = [![1, 0], ![0, 1]] ∧ ns = [![0, 1], ![1, 0]] := by
  let S : Surface 2 := ⟨1, [![1, 0], ![0, 1]], [![0, 0], ![0, 0]], [], [], fun s => [s.val, 2 + s.val], fun c s => 2 * (1 - c) + s.val, 4⟩
  refine ⟨S, _, rfl, rfl, ?_⟩
  have hr : List.finRange 2 = [0, 1] := rfl
  have e1 : cellValue (fun _ => ![1, 1]) ![1, 0] ![0, 0] = ![(1 : ℝ), 0] := by
    simp [cellValue, norm, dotProduct, Fin.sum_univ_two, show ¬ (1 : ℝ) < 0 by norm_num]
  have e2 : cellValue (fun _ => ![1, 1]) ![0, 1] ![0, 0] = ![(0 : ℝ), 1] := by
    simp [cellValue, norm, dotProduct, Fin.sum_univ_two, show ¬ (1 : ℝ) < 0 by norm_num]
  simp only [S, List.zipWith_cons_cons, List.zipWith_nil_left, e1, e2, hr]
  simp [fillSubs, assign, List.replicate, List.range_succ]
  constructor
  · funext i; fin_cases i <;> simp [valueAt]
  · funext i; fin_cases i <;> simp [valueAt]

/-! ## Examples -/

/-- The boundary of a square. -/
noncomputable def squareSurface : Surface 2 :=
  ⟨1, [![0, 2], ![1, 0], ![0, 1], ![1, 0]], [![1 / 2, 0], ![1, 1 / 2], ![1 / 2, 1], ![0, 1 / 2]],
   [![0, 0], ![1, 0], ![1, 1], ![0, 1]], [(7, [3, 0, 2, 1])], fun s => [s.val, 2 + s.val, 4 + s.val, 6 + s.val],
   fun c s => 2 * c + s.val, 8⟩

example : squareSurface.Numbered := by
  refine ⟨rfl, ?_, ?_, ?_⟩
  · intro s; simp [squareSurface, List.range_succ]
  · intro c s c' s' h1 h2 h3
    simp [squareSurface] at h1 h2 h3
    omega
  · intro c s h; simp [squareSurface] at h ⊢; omega

example : Outward squareSurface ![1 / 2, 0] ![0, -1] ∧ Along (![0, 2] : Fin 2 → ℝ) ![0, -1] := by
  refine ⟨⟨by norm_num [Unit, Fin.sum_univ_two], ?_, ![0, 1], by simp [squareSurface], by norm_num [dotProduct, Fin.sum_univ_two]⟩,
    -2, by funext i; fin_cases i <;> norm_num⟩
  intro v hv
  simp [squareSurface] at hv
  rcases hv with rfl | rfl | rfl | rfl <;> norm_num [dotProduct, Fin.sum_univ_two]

/-- Two cells with different markers at a facet. -/
example : let f : Facet 2 := ⟨![1, 0], 0, some 1⟩
    orientFacetNormal [1, 2] f = .ok (- ![1, 0]) ∧ PointsOutOf f (- ![1, 0]) 1 := by
  refine ⟨by simp [orientFacetNormal, pcwsConstant], .inr ⟨rfl, rfl⟩⟩

end Verif.Normal
