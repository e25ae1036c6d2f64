import Verif.Lemmas.CenterVec
import Verif.Spec.CenterVec
import Verif.Lemmas.BlockOps
import Verif.Props.Center
import Mathlib.Tactic.FieldSimp
import Mathlib.Tactic.Abel
/-!
# C62: vectors between the centers of cells, and the Delaunay check
-/
namespace Verif.CenterVec
open Verif Verif.BlockOps Matrix Verif.Center

/-- C62.  `_CenterVector` (that is `CircumVector`, `CentroidVector`): at each facet the vector between the two centers, or from
    the facet to the center of the cell. -/
theorem center_vector_partial {d : Nat} {center : CenterFn d} {IsCenter : List (Fin d → ℝ) → (Fin d → ℝ) → Prop} {mesh : List (Facet d)}
    (ha : ∀ f ∈ mesh, f.area ≠ 0) (hc : ∀ f ∈ mesh, CentersAt center IsCenter f) :
    ∃ nu, centerVector center mesh = .ok nu ∧ List.Forall₂ (Between IsCenter) mesh nu := by
  refine pyMap_exists (fun f hf => ?_)
  unfold centerVectorAt Between
  obtain ⟨cp, hp, hp'⟩ := hc f hf f.plus (.inl rfl)
  rcases hm : f.minus with _ | m
  · dsimp only
    rw [hp]
    refine ⟨_, rfl, cp, hp', ?_⟩
    rw [assembled_eq (ha f hf), facetCentroid_eq (ha f hf)]
  · dsimp only
    obtain ⟨cm, hq, hq'⟩ := hc f hf m (.inr hm)
    rw [hp, hq]
    exact ⟨_, rfl, cp, cm, hp', hq', assembled_eq (ha f hf) _⟩

/-- C62.  `CircumDistance`: the lengths of these vectors. -/
theorem circum_distance {d : Nat} {circum : CenterFn d} {mesh : List (Facet d)}
    (ha : ∀ f ∈ mesh, f.area ≠ 0) (hc : ∀ f ∈ mesh, CentersAt circum IsCircumcenter f) :
    ∃ r, circumDistance circum mesh = .ok r ∧
      List.Forall₂ (fun f t => ∃ x, Between IsCircumcenter f x ∧ t = len x) mesh r := by
  obtain ⟨nu, h, hr⟩ := center_vector_partial ha hc
  refine ⟨centerDistance mesh nu, ?_, ?_⟩
  · unfold circumDistance circumVector
    rw [h]
    rfl
  · refine forall₂_zipWith hr (fun f hf x hx => ⟨x, hx, ?_⟩)
    rw [assembled_eq (ha f hf), magnitude_eq]

/-- C62.  `CentroidDistance`: the lengths of the vectors between barycenters. -/
theorem centroid_distance {d : Nat} {mesh : List (Facet d)} (ha : ∀ f ∈ mesh, f.area ≠ 0) :
    ∃ r, centroidDistance mesh = .ok r ∧
      List.Forall₂ (fun f t => ∃ x, Between (fun l c => c = barycenter l) f x ∧ t = len x) mesh r := by
  obtain ⟨nu, h, hr⟩ := center_vector_partial ha (fun f _ => centroid_at f)
  refine ⟨centerDistance mesh nu, ?_, ?_⟩
  · unfold centroidDistance centroidVector
    rw [h]
    rfl
  · refine forall₂_zipWith hr (fun f hf x hx => ⟨x, hx, ?_⟩)
    rw [assembled_eq (ha f hf), magnitude_eq]

/-- C62.  `CircumDistance2`: the distance over the barycenter of the facet, unless all centers on one side are the origin. -/
theorem circum_distance2 {d : Nat} {circum : CenterFn d} {mesh : List (Facet d)}
    (ha : ∀ f ∈ mesh, f.area ≠ 0) (hc : ∀ f ∈ mesh, CentersAt circum IsCircumcenter f)
    (hp : ∃ f ∈ mesh, circum f.plus ≠ .ok 0) (hm : ∃ f ∈ mesh, circum (f.minus.getD f.plus) ≠ .ok 0) :
    ∃ r, circumDistance2 circum mesh = .ok r ∧ List.Forall₂ (Through IsCircumcenter) mesh r := by
  have h : ∃ cc, pyMap (centerVectorsAt circum) mesh = .ok cc ∧ List.Forall₂ (fun f x =>
      circum f.plus = .ok x.1 ∧ circum (f.minus.getD f.plus) = .ok x.2 ∧ IsCircumcenter f.plus x.1 ∧
      IsCircumcenter (f.minus.getD f.plus) x.2) mesh cc := by
    refine pyMap_exists (fun f hf => ?_)
    unfold centerVectorsAt
    obtain ⟨cp, hp, hp'⟩ := hc f hf f.plus (.inl rfl)
    rcases hm : f.minus with _ | m
    · dsimp only [Option.getD_none]
      rw [hp]
      refine ⟨_, rfl, ?_⟩
      rw [assembled_eq (ha f hf)]
      exact ⟨rfl, rfl, hp', hp'⟩
    · dsimp only [Option.getD_some]
      obtain ⟨cm, hq, hq'⟩ := hc f hf m (.inr hm)
      rw [hp, hq]
      refine ⟨_, rfl, ?_⟩
      rw [assembled_eq (ha f hf), assembled_eq (ha f hf)]
      exact ⟨rfl, rfl, hp', hq'⟩
  obtain ⟨cc, h, hr⟩ := h
  have find : ∀ f ∈ mesh, ∃ x ∈ cc, circum f.plus = .ok x.1 ∧ circum (f.minus.getD f.plus) = .ok x.2 := by
    clear h hp hm hc ha
    induction hr with
    | nil => intro f hf; simp at hf
    | cons h1 _ ih =>
        intro f hf
        rcases List.mem_cons.1 hf with rfl | hf
        · exact ⟨_, by simp, h1.1, h1.2.1⟩
        · obtain ⟨x, hx, hx'⟩ := ih f hf
          exact ⟨x, by simp [hx], hx'⟩
  refine ⟨centerDistance2 mesh cc, ?_, ?_⟩
  · unfold circumDistance2 centerVectors
    rw [h]
    have h1 : ∃ x ∈ cc, x.1 ≠ 0 := by
      obtain ⟨f, hf, h0⟩ := hp
      obtain ⟨x, hx, e, _⟩ := find f hf
      exact ⟨x, hx, fun h => h0 (by rw [e, h])⟩
    have h2 : ∃ x ∈ cc, x.2 ≠ 0 := by
      obtain ⟨f, hf, h0⟩ := hm
      obtain ⟨x, hx, _, e⟩ := find f hf
      exact ⟨x, hx, fun h => h0 (by rw [e, h])⟩
    have h3 : ∃ x ∈ cc, x.1 ≠ 0 ∨ x.2 ≠ 0 := by
      obtain ⟨x, hx, h⟩ := h1
      exact ⟨x, hx, .inl h⟩
    simp only [py_bind_ok, h1, h2, h3, decide_true, pyAssert_true]
  · refine forall₂_zipWith hr (fun f hf x hx => ?_)
    unfold centerDistance2At Through
    dsimp only
    rw [facetCentroid_eq (ha f hf), assembled_eq (ha f hf), assembled_eq (ha f hf), magnitude_eq, magnitude_eq]
    rcases hm : f.minus with _ | m
    · rw [hm] at hx
      dsimp only [Option.getD_none] at hx ⊢
      have : x.1 = x.2 := by
        have := hx.1.symm.trans hx.2.1
        injection this
      refine ⟨x.1, hx.2.2.1, ?_⟩
      rw [← this]
      ring
    · rw [hm] at hx
      exact ⟨x.1, x.2, hx.2.2.1, hx.2.2.2, rfl⟩

/-! ## The Delaunay check -/

/-- The vector at the facet is not zero. -/
theorem interior_zero {d : Nat} {circum : CenterFn d} {mesh : List (Facet d)} (hok : ∀ f ∈ mesh, f.Ok)
    (hc : ∀ f ∈ mesh, CentersAt circum IsCircumcenter f)
    (hd : ∀ f ∈ mesh, f.minus.isSome → ∀ x, Between IsCircumcenter f x → x ≠ 0) (hi : ∃ f ∈ mesh, f.minus.isSome) :
    isDelaunayInterior circum mesh = .ok (some 0) := by
  obtain ⟨nu, h, hr⟩ := center_vector_partial (fun f hf => (hok f hf).area) hc
  unfold isDelaunayInterior circumVector
  rw [h]
  refine deviation_zero ?_ ?_
  · obtain ⟨f, hf, hs⟩ := hi
    obtain ⟨x, hx⟩ := exists_zip hr f hf
    intro he
    rw [List.map_eq_nil_iff, List.filter_eq_nil_iff] at he
    exact he _ hx hs
  · intro c hc
    obtain ⟨⟨f, x⟩, hx, rfl⟩ := List.mem_map.1 hc
    obtain ⟨hx, hs⟩ := List.mem_filter.1 hx
    obtain ⟨hf, hb⟩ := forall₂_zip hr _ hx
    dsimp only at hf hb hs ⊢
    obtain ⟨m, hm⟩ := Option.isSome_iff_exists.1 hs
    exact cosine_parallel (hok f hf).area (hok f hf).unit (hd f hf hs x hb) (between_orth (hok f hf) hm hb)

theorem exterior_zero {d : Nat} {circum : CenterFn d} {mesh : List (Facet d)} (hok : ∀ f ∈ mesh, f.Ok)
    (hc : ∀ f ∈ mesh, CentersAt circum IsCircumcenter f) (h2 : ∀ f ∈ mesh, f.vertices.length = 2)
    (hd : ∀ f ∈ mesh, f.minus.isNone → ∀ x, Between IsCircumcenter f x → x ≠ 0) (hi : ∃ f ∈ mesh, f.minus.isNone) :
    isDelaunayExterior circum mesh = .ok (some 0) := by
  obtain ⟨nu, h, hr⟩ := center_vector_partial (fun f hf => (hok f hf).area) hc
  unfold isDelaunayExterior circumVector
  rw [h]
  refine deviation_zero ?_ ?_
  · obtain ⟨f, hf, hs⟩ := hi
    obtain ⟨x, hx⟩ := exists_zip hr f hf
    intro he
    rw [List.map_eq_nil_iff, List.filter_eq_nil_iff] at he
    exact he _ hx hs
  · intro c hc
    obtain ⟨⟨f, x⟩, hx, rfl⟩ := List.mem_map.1 hc
    obtain ⟨hx, hs⟩ := List.mem_filter.1 hx
    obtain ⟨hf, hb⟩ := forall₂_zip hr _ hx
    dsimp only at hf hb hs ⊢
    obtain ⟨p, q, hv⟩ := List.length_eq_two.1 (h2 f hf)
    exact cosine_parallel (hok f hf).area (hok f hf).unit (hd f hf hs x hb)
      (between_orth_exterior (hok f hf) (by simpa using hs) hv hb)

/-- C62.  In the plane `is_delaunay` returns zeros for every mesh, Delaunay or not, as long as no vector between centers
    vanishes. -/
theorem delaunay_plane_always {circum : CenterFn 2} {mesh : List (Facet 2)} (hok : ∀ f ∈ mesh, f.Ok)
    (hc : ∀ f ∈ mesh, CentersAt circum IsCircumcenter f) (h2 : ∀ f ∈ mesh, f.vertices.length = 2)
    (hd : ∀ f ∈ mesh, ∀ x, Between IsCircumcenter f x → x ≠ 0) (hi : ∃ f ∈ mesh, f.minus.isSome) (he : ∃ f ∈ mesh, f.minus.isNone) :
    isDelaunay circum mesh = .ok (some 0, some 0) := by
  unfold isDelaunay
  rw [interior_zero hok hc (fun f hf _ => hd f hf) hi, exterior_zero hok hc h2 (fun f hf _ => hd f hf) he]
  rfl

/-- C62.  In any dimension the values at interior facets do not depend on the mesh either. -/
theorem delaunay_interior_always {d : Nat} {circum : CenterFn d} {mesh : List (Facet d)} (hok : ∀ f ∈ mesh, f.Ok)
    (hc : ∀ f ∈ mesh, CentersAt circum IsCircumcenter f)
    (hd : ∀ f ∈ mesh, f.minus.isSome → ∀ x, Between IsCircumcenter f x → x ≠ 0) (hi : ∃ f ∈ mesh, f.minus.isSome) :
    isDelaunayInterior circum mesh = .ok (some 0) := interior_zero hok hc hd hi

/-- C62.  Cells at one facet with the same circumcentre (right triangles on both sides of their longest edge) give
    not-a-number. -/
theorem delaunay_not_a_number {d : Nat} {circum : CenterFn d} {mesh : List (Facet d)} (ha : ∀ f ∈ mesh, f.area ≠ 0)
    (hc : ∀ f ∈ mesh, CentersAt circum IsCircumcenter f)
    (h0 : ∃ f ∈ mesh, ∃ m c, f.minus = some m ∧ IsCircumcenter f.plus c ∧ IsCircumcenter m c) :
    isDelaunayInterior circum mesh = .ok none := by
  obtain ⟨nu, h, hr⟩ := center_vector_partial ha hc
  unfold isDelaunayInterior circumVector
  rw [h]
  obtain ⟨f, hf, m, c, hm, hp, hq⟩ := h0
  obtain ⟨x, hx⟩ := exists_zip hr f hf
  have hb := (forall₂_zip hr _ hx).2
  have hx0 : x = 0 := by
    dsimp only at hb
    unfold Between at hb
    rw [hm] at hb
    obtain ⟨cp, cm, h1, h2, rfl⟩ := hb
    rw [circumcenter_unique h1 hp, circumcenter_unique h2 hq, sub_self]
  have hmem : none ∈ ((mesh.zip nu).filter (fun x => x.1.minus.isSome)).map (fun x => cosine x.1 x.2) := by
    refine List.mem_map.2 ⟨(f, x), List.mem_filter.2 ⟨hx, by simp [hm]⟩, ?_⟩
    unfold cosine
    dsimp only
    rw [if_pos (magnitude_zero.2 hx0)]
  unfold deviation
  dsimp only [bind, Except.bind]
  rw [if_neg, worst_none hmem]
  intro he
  rw [List.isEmpty_iff] at he
  rw [he] at hmem
  simp at hmem

/-- C62.  `CircumDistance2` refuses meshes where all circumcentres are the origin. -/
theorem distance2_origin {d : Nat} {circum : CenterFn d} {mesh : List (Facet d)}
    (h : ∀ f ∈ mesh, circum f.plus = .ok 0 ∧ f.minus = none) : circumDistance2 circum mesh = .error .assertion := by
  unfold circumDistance2 centerVectors
  have e : pyMap (centerVectorsAt circum) mesh = .ok (mesh.map (fun _ => (0, 0))) := by
    refine pyMap_ok (fun f hf => ?_)
    unfold centerVectorsAt
    rw [(h f hf).2]
    dsimp only
    rw [(h f hf).1]
    simp [assembled]
  rw [e]
  simp

/-! ## Examples -/

section Kite

/-- Corners of a kite cut along its longer diagonal. -/
def ka : Fin 2 → ℝ := ![-4, 0]
@[inherit_doc ka] def kb : Fin 2 → ℝ := ![4, 0]
@[inherit_doc ka] def kc : Fin 2 → ℝ := ![0, 3]
@[inherit_doc ka] def kd : Fin 2 → ℝ := ![0, -3]

/-- The kite as a mesh of two triangles. -/
noncomputable def kite : List (Facet 2) :=
  [⟨8, ![0, -1], [ka, kb], [ka, kb, kc], some [ka, kb, kd]⟩,
   ⟨5, ![-3 / 5, 4 / 5], [ka, kc], [ka, kb, kc], none⟩,
   ⟨5, ![3 / 5, 4 / 5], [kb, kc], [ka, kb, kc], none⟩,
   ⟨5, ![-3 / 5, -4 / 5], [ka, kd], [ka, kb, kd], none⟩,
   ⟨5, ![3 / 5, -4 / 5], [kb, kd], [ka, kb, kd], none⟩]

theorem kite_ok : ∀ f ∈ kite, f.Ok := by
  intro f hf
  simp only [kite, List.mem_cons, List.not_mem_nil, or_false] at hf
  rcases hf with rfl | rfl | rfl | rfl | rfl
  · refine ok_plane (p := ka) (q := kb) (by norm_num) rfl (by simp) (by simp) ?_ ?_ ?_ ?_
    · intro m hm; injection hm with hm; subst hm; simp
    · norm_num [dotProduct, Fin.sum_univ_two]
    · norm_num [dotProduct, Fin.sum_univ_two, ka, kb]
    · intro h; have := congrFun h 0; norm_num [ka, kb] at this
  · refine ok_plane (p := ka) (q := kc) (by norm_num) rfl (by simp) (by simp) (by simp) ?_ ?_ ?_
    · norm_num [dotProduct, Fin.sum_univ_two]
    · norm_num [dotProduct, Fin.sum_univ_two, ka, kc]
    · intro h; have := congrFun h 0; norm_num [ka, kc] at this
  · refine ok_plane (p := kb) (q := kc) (by norm_num) rfl (by simp) (by simp) (by simp) ?_ ?_ ?_
    · norm_num [dotProduct, Fin.sum_univ_two]
    · norm_num [dotProduct, Fin.sum_univ_two, kb, kc]
    · intro h; have := congrFun h 0; norm_num [kb, kc] at this
  · refine ok_plane (p := ka) (q := kd) (by norm_num) rfl (by simp) (by simp) (by simp) ?_ ?_ ?_
    · norm_num [dotProduct, Fin.sum_univ_two]
    · norm_num [dotProduct, Fin.sum_univ_two, ka, kd]
    · intro h; have := congrFun h 0; norm_num [ka, kd] at this
  · refine ok_plane (p := kb) (q := kd) (by norm_num) rfl (by simp) (by simp) (by simp) ?_ ?_ ?_
    · norm_num [dotProduct, Fin.sum_univ_two]
    · norm_num [dotProduct, Fin.sum_univ_two, kb, kd]
    · intro h; have := congrFun h 0; norm_num [kb, kd] at this

theorem kite_center1 : IsCircumcenter [ka, kb, kc] ![0, -7 / 6] := by
  refine ⟨⟨[25 / 36, 25 / 36, -7 / 18], rfl, by norm_num, ?_⟩, ?_⟩
  · funext i
    fin_cases i <;> norm_num [Refine.comb, ka, kb, kc]
  · intro p hp q hq
    simp only [List.mem_cons, List.not_mem_nil, or_false] at hp hq
    rcases hp with rfl | rfl | rfl <;> rcases hq with rfl | rfl | rfl <;>
      norm_num [dist2, Fin.sum_univ_two, ka, kb, kc]

theorem kite_center2 : IsCircumcenter [ka, kb, kd] ![0, 7 / 6] := by
  refine ⟨⟨[25 / 36, 25 / 36, -7 / 18], rfl, by norm_num, ?_⟩, ?_⟩
  · funext i
    fin_cases i <;> norm_num [Refine.comb, ka, kb, kd]
  · intro p hp q hq
    simp only [List.mem_cons, List.not_mem_nil, or_false] at hp hq
    rcases hp with rfl | rfl | rfl <;> rcases hq with rfl | rfl | rfl <;>
      norm_num [dist2, Fin.sum_univ_two, ka, kb, kd]

/-- The kite is not Delaunay. -/
theorem kite_not_delaunay : ¬ Delaunay kite := by
  intro h
  have := h [ka, kb, kc] (by simp [cells, kite]) _ kite_center1 [ka, kb, kd] (by simp [cells, kite]) kd (by simp) ka (by simp)
  norm_num [dist2, Fin.sum_univ_two, ka, kd] at this

theorem kite_distinct : ∀ f ∈ kite, ∀ x, Between IsCircumcenter f x → x ≠ 0 := by
  intro f hf x hx
  simp only [kite, List.mem_cons, List.not_mem_nil, or_false] at hf
  rcases hf with rfl | rfl | rfl | rfl | rfl
  · obtain ⟨a, b, h1, h2, rfl⟩ := hx
    rw [circumcenter_unique h1 kite_center1, circumcenter_unique h2 kite_center2]
    intro h; have := congrFun h 1; norm_num at this
  · obtain ⟨a, h1, rfl⟩ := hx
    rw [circumcenter_unique h1 kite_center1]
    intro h; have := congrFun h 0; norm_num [barycenter, ka, kc] at this
  · obtain ⟨a, h1, rfl⟩ := hx
    rw [circumcenter_unique h1 kite_center1]
    intro h; have := congrFun h 0; norm_num [barycenter, kb, kc] at this
  · obtain ⟨a, h1, rfl⟩ := hx
    rw [circumcenter_unique h1 kite_center2]
    intro h; have := congrFun h 0; norm_num [barycenter, ka, kd] at this
  · obtain ⟨a, h1, rfl⟩ := hx
    rw [circumcenter_unique h1 kite_center2]
    intro h; have := congrFun h 0; norm_num [barycenter, kb, kd] at this

/-- The centers which the codes compute. -/
theorem kite_centers {solve2 : Solver ℝ 2} {solve3 : Solver ℝ 3} (h2 : Solves solve2) (h3 : Solves solve3) :
    ∀ f ∈ kite, CentersAt (cellCircumcenter solve2 solve3 2 2) IsCircumcenter f := by
  have key : ∀ l : List (Fin 2 → ℝ), (l = [ka, kb, kc] ∨ l = [ka, kb, kd]) → ∃ c,
      cellCircumcenter solve2 solve3 2 2 l = .ok c ∧ IsCircumcenter l c := by
    intro l hl
    obtain ⟨c, hc⟩ := circumcenter_total_partial solve2 solve3 (tdim := 2) (gdim := 2) l (by rcases hl with rfl | rfl <;> rfl) (by simp)
    refine ⟨c, hc, circumcenter_correct h2 h3 ?_ hc⟩
    rcases hl with rfl | rfl
    · exact independent_plane (by norm_num [ka, kb, kc])
    · exact independent_plane (by norm_num [ka, kb, kd])
  intro f hf l hl
  refine key l ?_
  simp only [kite, List.mem_cons, List.not_mem_nil, or_false] at hf
  rcases hf with rfl | rfl | rfl | rfl | rfl <;> rcases hl with rfl | hl <;> simp_all

/-- C62 is false of `is_delaunay`: a mesh which is not Delaunay is reported to be exactly Delaunay. -/
theorem not_delaunay_accepted {solve2 : Solver ℝ 2} {solve3 : Solver ℝ 3} (h2 : Solves solve2) (h3 : Solves solve3) :
    isDelaunay (cellCircumcenter solve2 solve3 2 2) kite = .ok (some 0, some 0) ∧ ¬ Delaunay kite := by
  refine ⟨delaunay_plane_always kite_ok (kite_centers h2 h3) ?_ kite_distinct ⟨_, by simp [kite]; exact .inl rfl, rfl⟩
    ⟨_, by simp [kite]; exact .inr (.inl rfl), rfl⟩, kite_not_delaunay⟩
  intro f hf
  simp only [kite, List.mem_cons, List.not_mem_nil, or_false] at hf
  rcases hf with rfl | rfl | rfl | rfl | rfl <;> rfl

/-- C62 is false of `CentroidDistance2`. -/
theorem centroid_distance2_wrong : ∃ r, centroidDistance2 kite = .ok r ∧
    ¬ List.Forall₂ (Through (fun l c => c = barycenter l)) kite r := by
  have h : ∃ cc, pyMap (centerVectorsAt cellCentroid) kite = .ok cc ∧ List.Forall₂ (fun f x =>
      x.1 = barycenter f.plus ∧ x.2 = barycenter (f.minus.getD f.plus)) kite cc := by
    refine pyMap_exists (fun f hf => ?_)
    have ha := (kite_ok f hf).area
    unfold centerVectorsAt cellCentroid
    rcases hm : f.minus with _ | m
    · refine ⟨_, rfl, ?_⟩
      rw [assembled_eq ha, mean_eq]
      exact ⟨rfl, rfl⟩
    · refine ⟨_, rfl, ?_⟩
      rw [assembled_eq ha, assembled_eq ha, mean_eq, mean_eq]
      exact ⟨rfl, rfl⟩
  obtain ⟨cc, h, hr⟩ := h
  rcases cc with _ | ⟨x, cc⟩
  · simp [kite] at hr
  have hx : x.1 = ![0, 1] ∧ x.2 = ![0, -1] := by
    have := List.forall₂_cons.1 hr
    obtain ⟨⟨h1, h2⟩, _⟩ := this
    rw [h1, h2]
    constructor
    · funext i; fin_cases i <;> norm_num [barycenter, ka, kb, kc]
    · funext i; fin_cases i <;> norm_num [barycenter, ka, kb, kd]
  have n1 : x.1 ≠ 0 := by rw [hx.1]; intro h; have := congrFun h 1; norm_num at this
  have n2 : x.2 ≠ 0 := by rw [hx.2]; intro h; have := congrFun h 1; norm_num at this
  refine ⟨centerDistance kite ((x :: cc).map components), ?_, ?_⟩
  · unfold centroidDistance2 centerVectors
    rw [h]
    simp [n1, n2]
  · intro hf
    unfold kite centerDistance at hf
    rw [List.map_cons, List.zipWith_cons_cons] at hf
    obtain ⟨⟨cp, cm, rfl, rfl, e⟩, _⟩ := List.forall₂_cons.1 hf
    dsimp only at e
    rw [assembled_eq (by norm_num)] at e
    have e1 : magnitude (components x) = Real.sqrt 2 := by
      unfold magnitude components
      rw [hx.1, hx.2]
      congr 1
      norm_num [dotProduct, Fin.sum_univ_two]
    have e2 : len (barycenter [ka, kb, kc] - barycenter [ka, kb]) = 1 := by
      have : barycenter [ka, kb, kc] - barycenter [ka, kb] = ![0, 1] := by
        funext i; fin_cases i <;> norm_num [barycenter, ka, kb, kc]
      rw [this]
      norm_num [len, Fin.sum_univ_two]
    have e3 : len (barycenter [ka, kb, kd] - barycenter [ka, kb]) = 1 := by
      have : barycenter [ka, kb, kd] - barycenter [ka, kb] = ![0, -1] := by
        funext i; fin_cases i <;> norm_num [barycenter, ka, kb, kd]
      rw [this]
      norm_num [len, Fin.sum_univ_two]
    rw [e1, e2, e3] at e
    have := Real.sq_sqrt (show (0 : ℝ) ≤ 2 by norm_num)
    rw [e] at this
    norm_num at this

/-- The hypotheses of `circum_distance2` hold of the kite. -/
example {solve2 : Solver ℝ 2} {solve3 : Solver ℝ 3} (h2 : Solves solve2) (h3 : Solves solve3) :
    ∃ r, circumDistance2 (cellCircumcenter solve2 solve3 2 2) kite = .ok r ∧ List.Forall₂ (Through IsCircumcenter) kite r := by
  have hc := kite_centers h2 h3
  have key : ∀ l : List (Fin 2 → ℝ), ∀ c : Fin 2 → ℝ, c ≠ 0 → IsCircumcenter l c →
      (∃ y, cellCircumcenter solve2 solve3 2 2 l = .ok y ∧ IsCircumcenter l y) →
      cellCircumcenter solve2 solve3 2 2 l ≠ .ok 0 := by
    rintro l c h0 hlc ⟨y, hy, hly⟩ h
    rw [hy] at h
    injection h with h
    rw [circumcenter_unique hly hlc] at h
    exact h0 h
  have hm : (⟨8, ![0, -1], [ka, kb], [ka, kb, kc], some [ka, kb, kd]⟩ : Facet 2) ∈ kite := by simp [kite]
  refine circum_distance2 (fun f hf => (kite_ok f hf).area) hc ⟨_, hm, ?_⟩ ⟨_, hm, ?_⟩
  · exact key _ _ (fun h => by have := congrFun h 1; norm_num at this) kite_center1 (hc _ hm _ (.inl rfl))
  · exact key _ _ (fun h => by have := congrFun h 1; norm_num at this) kite_center2 (hc _ hm _ (.inr rfl))

/-- Two right triangles which share their longest edge have one circumcentre. -/
example : ∃ c, IsCircumcenter [![(0 : ℝ), 0], ![1, 1], ![1, 0]] c ∧ IsCircumcenter [![(0 : ℝ), 0], ![1, 1], ![0, 1]] c := by
  refine ⟨![1 / 2, 1 / 2], ⟨⟨[1 / 2, 1 / 2, 0], rfl, by norm_num, ?_⟩, ?_⟩, ⟨⟨[1 / 2, 1 / 2, 0], rfl, by norm_num, ?_⟩, ?_⟩⟩
  · funext i; fin_cases i <;> norm_num [Refine.comb]
  · intro p hp q hq
    simp only [List.mem_cons, List.not_mem_nil, or_false] at hp hq
    rcases hp with rfl | rfl | rfl <;> rcases hq with rfl | rfl | rfl <;> norm_num [dist2, Fin.sum_univ_two]
  · funext i; fin_cases i <;> norm_num [Refine.comb]
  · intro p hp q hq
    simp only [List.mem_cons, List.not_mem_nil, or_false] at hp hq
    rcases hp with rfl | rfl | rfl <;> rcases hq with rfl | rfl | rfl <;> norm_num [dist2, Fin.sum_univ_two]

end Kite

section Tetrahedron

/-- Corners of a tetrahedron. -/
def tw : Fin 3 → ℝ := ![0, 0, 0]
@[inherit_doc tw] def tx : Fin 3 → ℝ := ![2, 0, 0]
@[inherit_doc tw] def ty : Fin 3 → ℝ := ![0, 1, 0]
@[inherit_doc tw] def tz : Fin 3 → ℝ := ![0, 0, 1]

/-- A mesh of one tetrahedron. -/
noncomputable def tetra : List (Facet 3) :=
  [⟨1, ![0, 0, -1], [tw, tx, ty], [tw, tx, ty, tz], none⟩,
   ⟨1, ![0, -1, 0], [tw, tx, tz], [tw, tx, ty, tz], none⟩,
   ⟨1 / 2, ![-1, 0, 0], [tw, ty, tz], [tw, tx, ty, tz], none⟩,
   ⟨3 / 2, ![1 / 3, 2 / 3, 2 / 3], [tx, ty, tz], [tw, tx, ty, tz], none⟩]

theorem tetra_center : IsCircumcenter [tw, tx, ty, tz] ![1, 1 / 2, 1 / 2] := by
  refine ⟨⟨[-1 / 2, 1 / 2, 1 / 2, 1 / 2], rfl, by norm_num, ?_⟩, ?_⟩
  · funext i
    fin_cases i <;> norm_num [Refine.comb, tw, tx, ty, tz]
  · intro p hp q hq
    simp only [List.mem_cons, List.not_mem_nil, or_false] at hp hq
    rcases hp with rfl | rfl | rfl | rfl <;> rcases hq with rfl | rfl | rfl | rfl <;>
      simp [dist2, Fin.sum_univ_three, tw, tx, ty, tz] <;> norm_num

theorem tetra_independent : Refine.AffInd ℝ [tw, tx, ty, tz] := by
  intro w hw hs hc
  rcases w with _ | ⟨a, _ | ⟨b, _ | ⟨c, _ | ⟨d, _ | ⟨e, l⟩⟩⟩⟩⟩ <;> simp at hw
  simp [Refine.comb, tw, tx, ty, tz] at hs hc
  obtain ⟨h1, h2, h3⟩ := hc
  have h4 : a = 0 := by rw [h1, h2, h3] at hs; linarith
  intro x hx
  simp at hx
  rcases hx with rfl | rfl | rfl | rfl <;> assumption

/-- One cell is a Delaunay mesh. -/
theorem tetra_delaunay : Delaunay tetra := by
  have hc : ∀ l ∈ cells tetra, l = [tw, tx, ty, tz] := by
    intro l hl
    simp [cells, tetra] at hl
    exact hl
  intro l hl c h m hm v hv w hw
  rw [hc l hl] at h hw
  rw [hc m hm] at hv
  exact le_of_eq (h.2 w hw v hv)

theorem tetra_centers {solve2 : Solver ℝ 2} {solve3 : Solver ℝ 3} (h2 : Solves solve2) (h3 : Solves solve3) :
    ∀ f ∈ tetra, CentersAt (cellCircumcenter solve2 solve3 3 3) IsCircumcenter f := by
  intro f hf l hl
  have hl : l = [tw, tx, ty, tz] := by
    simp only [tetra, List.mem_cons, List.not_mem_nil, or_false] at hf
    rcases hf with rfl | rfl | rfl | rfl <;> rcases hl with rfl | hl <;> simp_all
  obtain ⟨c, hc⟩ := circumcenter_total_partial solve2 solve3 (tdim := 3) (gdim := 3) l (by rw [hl]; rfl) (by simp)
  refine ⟨c, hc, circumcenter_correct h2 h3 ?_ hc⟩
  rw [hl]
  exact tetra_independent

/-- C62 is false of `is_delaunay_exterior` for tetrahedra: the only cell of a mesh is Delaunay, but the value is not zero. -/
theorem delaunay_refused {solve2 : Solver ℝ 2} {solve3 : Solver ℝ 3} (h2 : Solves solve2) (h3 : Solves solve3) :
    (∃ r, isDelaunayExterior (cellCircumcenter solve2 solve3 3 3) tetra = .ok (some r) ∧ 0 < r) ∧ Delaunay tetra := by
  refine ⟨?_, tetra_delaunay⟩
  have ha : ∀ f ∈ tetra, f.area ≠ 0 := by
    intro f hf
    simp only [tetra, List.mem_cons, List.not_mem_nil, or_false] at hf
    rcases hf with rfl | rfl | rfl | rfl <;> norm_num
  obtain ⟨nu, h, hr⟩ := center_vector_partial ha (tetra_centers h2 h3)
  have hx : ∀ f x, (f, x) ∈ tetra.zip nu → x = ![1, 1 / 2, 1 / 2] - barycenter f.vertices := by
    intro f x hfx
    obtain ⟨hf, hb⟩ := forall₂_zip hr _ hfx
    dsimp only at hf hb
    simp only [tetra, List.mem_cons, List.not_mem_nil, or_false] at hf
    rcases hf with rfl | rfl | rfl | rfl <;>
    · obtain ⟨c, hc, rfl⟩ := hb
      rw [circumcenter_unique hc tetra_center]
  have hne : ∀ f x, (f, x) ∈ tetra.zip nu → x ≠ 0 := by
    intro f x hfx
    have hf := (forall₂_zip hr _ hfx).1
    rw [hx f x hfx]
    dsimp only at hf
    simp only [tetra, List.mem_cons, List.not_mem_nil, or_false] at hf
    rcases hf with rfl | rfl | rfl | rfl <;>
    · intro h
      have := congrFun h 0
      norm_num [barycenter, tw, tx, ty, tz] at this
  have hsome : ∀ c ∈ ((tetra.zip nu).filter (fun x => x.1.minus.isNone)).map (fun x => cosine x.1 x.2), ∃ x : ℝ, c = some x := by
    intro c hc
    obtain ⟨⟨f, x⟩, hfx, rfl⟩ := List.mem_map.1 hc
    have hfx := (List.mem_filter.1 hfx).1
    unfold cosine
    dsimp only
    rw [if_neg (fun h => hne f x hfx (magnitude_zero.1 h))]
    exact ⟨_, rfl⟩
  obtain ⟨r, hr'⟩ := worst_some hsome
  -- the facet in the plane z = 0
  have hf0 : (⟨1, ![0, 0, -1], [tw, tx, ty], [tw, tx, ty, tz], none⟩ : Facet 3) ∈ tetra := by simp [tetra]
  obtain ⟨x, hfx⟩ := exists_zip hr _ hf0
  have hv := hx _ _ hfx
  have hv' : x = ![1 / 3, 1 / 6, 1 / 2] := by
    rw [hv]
    funext i
    fin_cases i <;> norm_num [barycenter, tw, tx, ty, tz]
  have hmem : some (-(1 / 2) / Real.sqrt (7 / 18)) ∈
      ((tetra.zip nu).filter (fun x => x.1.minus.isNone)).map (fun x => cosine x.1 x.2) := by
    refine List.mem_map.2 ⟨_, List.mem_filter.2 ⟨hfx, rfl⟩, ?_⟩
    unfold cosine
    dsimp only
    rw [if_neg (fun h => hne _ x hfx (magnitude_zero.1 h)), assembled_eq one_ne_zero]
    have hm : magnitude x = Real.sqrt (7 / 18) := by
      unfold magnitude
      rw [hv']
      congr 1
      simp [dotProduct, Fin.sum_univ_three]
      norm_num
    rw [hm, hv', dotProduct_smul]
    congr 1
    generalize Real.sqrt (7 / 18) = t
    simp [dotProduct, Fin.sum_univ_three]
    ring
  refine ⟨r, ?_, ?_⟩
  · unfold isDelaunayExterior circumVector
    rw [h]
    dsimp only [bind, Except.bind]
    unfold deviation
    rw [if_neg, hr']
    intro he
    rw [List.isEmpty_iff] at he
    rw [he] at hmem
    simp at hmem
  · refine lt_of_lt_of_le ?_ (worst_ge hr' _ hmem)
    rw [abs_pos, sub_ne_zero]
    intro he
    have hs : (0 : ℝ) < Real.sqrt (7 / 18) := Real.sqrt_pos.2 (by norm_num)
    rw [abs_div, abs_of_pos hs, div_eq_one_iff_eq hs.ne'] at he
    have hq := Real.sq_sqrt (show (0 : ℝ) ≤ 7 / 18 by norm_num)
    rw [← he] at hq
    norm_num at hq

end Tetrahedron

end Verif.CenterVec
