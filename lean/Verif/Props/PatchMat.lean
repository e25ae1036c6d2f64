import Verif.Props.Patch
/-!
# C39: the whole of `patch_avg_mat`, with patches, coloured patches and without patches
-/
namespace Verif.Patch
open Verif Verif.BlockOps Verif.Trace
variable {K G : Type} [Field K] [LinearOrder K] [IsStrictOrderedRing K] [DecidableEq G]

/-- With patches and without colouring: rows of dofs with a colour `p ≠ 0` are the means over the patch `p`, rows of dofs with the
    colour 0 are zero. -/
theorem patch_mat {V : Space K} (hV : V.WF) {pf : Nat → Nat} {ids : List Nat}
    (hne : ∀ p ∈ ids, p ≠ 0 → patch V pf p ≠ []) (dists : Nat → List K) (toUint : K → Nat) :
    ∃ M, patchAvgMat (G := G) V ids.length true dists (ids.map (fun p : Nat => (p : K))) toUint (some pf) none = .ok M ∧
      M.rows = ids.length ∧ M.cols = V.dim ∧
      ∀ (d p : Nat), ids[d]? = some p → ∀ u : Nat → K, M.act u d = if p = 0 then 0 else patchMean V pf u p :=
  patch_average hV rfl hne

omit [IsStrictOrderedRing K] in
/-- A colour without cells (in particular one which is not an integer) is an error. -/
theorem patch_mat_empty {V : Space K} {pf : Nat → Nat} {colorIds : List K} {m d : Nat} {x : K} (hd : d < m)
    (hx : colorIds[d]? = some x) (hx0 : 1 / 10 ^ 10 ≤ |x|) (he : ∀ c, c < V.numCells → (pf c : K) ≠ x) (dists : Nat → List K)
    (toUint : K → Nat) : ∃ e, patchAvgMat (G := G) V m true dists colorIds toUint (some pf) none = .error e :=
  patch_average_empty hd hx hx0 he

/-- With a colouring of the patches: if patches of the same colour share no dofs and no two rows have the same patch, the rows
    are the means over the patches; rows whose patch has no colour are zero. -/
theorem patch_mat_coloring_partial {V : Space K} (hV : V.WF) {pf : Nat → Nat} {ids : List Nat}
    {coloring : List (Nat × G)} {toUint : K → Nat} (hu : ∀ n : Nat, toUint (n : K) = n)
    (hne : ∀ p ∈ ids, coloring.lookup p ≠ none → patch V pf p ≠ [])
    (hdist : ∀ k k' : Nat, ids[k]? = ids[k']? → (∃ x, ids[k]? = some x ∧ coloring.lookup x ≠ none) → k = k')
    (hs : Separated V pf coloring ids) (dists : Nat → List K) :
    ∃ M, patchAvgMat V ids.length true dists (ids.map (fun p : Nat => (p : K))) toUint (some pf) (some coloring) = .ok M ∧
      M.rows = ids.length ∧ M.cols = V.dim ∧ ∀ (d p : Nat), ids[d]? = some p → ∀ u : Nat → K,
        M.act u d = if coloring.lookup p = none then 0 else patchMean V pf u p :=
  patch_average_coloring_partial hV rfl hu hne hdist hs

omit [IsStrictOrderedRing K] [DecidableEq G] in
/-- A row without a close dof. -/
theorem diracLoop_far {dists : Nat → List K} {d : Nat} (h : ∀ x ∈ dists d, 1 / 10 ^ 10 ≤ x) :
    ∀ (rows : List Nat) (acc : Triples K), d ∈ rows → ∃ e, diracLoop dists rows acc = .error e := by
  intro rows
  induction rows with
  | nil => intro _ hd; simp at hd
  | cons r rows ih =>
      intro acc hd
      rw [diracLoop]
      cases ha : argmin (dists r) with
      | error e => exact ⟨e, by simp⟩
      | ok i =>
          rw [py_bind_ok]
          cases hg : pyGet (dists r) i with
          | error e => exact ⟨e, by simp⟩
          | ok v =>
              rw [py_bind_ok]
              by_cases hv : v < 1 / 10 ^ 10
              · rw [decide_eq_true hv, pyAssert_true, py_bind_ok]
                refine ih _ ?_
                rcases List.mem_cons.1 hd with rfl | hd
                · exact absurd hv (not_lt.2 (h v (List.mem_of_getElem? (pyGet_eq_ok.1 hg))))
                · exact hd
              · exact ⟨.assertion, by rw [decide_eq_false hv, pyAssert_false]; rfl⟩

omit [IsStrictOrderedRing K] in
/-- Without patches a matrix is returned just if every row has a dof of `V` closer than `1e-10`; it takes the value at a
    closest dof. -/
theorem patch_mat_points {V : Space K} {m : Nat} {dists : Nat → List K} (hn : ∀ d, d < m → (dists d).length = V.dim)
    (colorIds : List K) (toUint : K → Nat) (coloring : Option (List (Nat × G))) :
    ((∃ M, patchAvgMat V m true dists colorIds toUint none coloring = .ok M) ↔ ∀ d, d < m → ∃ x ∈ dists d, x < 1 / 10 ^ 10) ∧
    ∀ M, patchAvgMat V m true dists colorIds toUint none coloring = .ok M → M.rows = m ∧ M.cols = V.dim ∧
      ∀ d, d < m → ∃ j x, (dists d)[j]? = some x ∧ (∀ y ∈ dists d, x ≤ y) ∧ ∀ u : Nat → K, M.act u d = u j := by
  have fwd : (∃ M, patchAvgMat V m true dists colorIds toUint none coloring = .ok M) → ∀ d, d < m → ∃ x ∈ dists d, x < 1 / 10 ^ 10 := by
    rintro ⟨M, hM⟩ d hd
    by_contra hc
    push Not at hc
    obtain ⟨e, he⟩ := diracLoop_far hc (List.range m) ([], [], []) (by simpa using hd)
    have : diracAvg V.dim m true dists = .error e := by rw [diracAvg, pyAssert_true, py_bind_ok, he]; rfl
    have h2 : diracAvg V.dim m true dists = .ok M := hM
    rw [this] at h2
    cases h2
  have bwd : (∀ d, d < m → ∃ x ∈ dists d, x < 1 / 10 ^ 10) →
      ∃ M, patchAvgMat V m true dists colorIds toUint none coloring = .ok M ∧ M.rows = m ∧ M.cols = V.dim ∧
      ∀ d, d < m → ∃ j x, (dists d)[j]? = some x ∧ (∀ y ∈ dists d, x ≤ y) ∧ ∀ u : Nat → K, M.act u d = u j := by
    intro hc
    have hcol : ∀ d, ∃ c, d < m → argmin (dists d) = .ok c ∧ ∃ w, (dists d)[c]? = some w ∧ ∀ y ∈ dists d, w ≤ y := by
      intro d
      by_cases hd : d < m
      · obtain ⟨i, w, h1, h2, h3⟩ := argmin_ok (l := dists d) (by
          intro h0; obtain ⟨x, hx, -⟩ := hc d hd; rw [h0] at hx; simp at hx)
        exact ⟨i, fun _ => ⟨h1, w, h2, fun y hy => by
          obtain ⟨k, hk⟩ := List.mem_iff_getElem?.1 hy
          exact (h3 k y hk).1⟩⟩
      · exact ⟨0, fun h => absurd h hd⟩
    choose col hcol using hcol
    by_cases hpos : 0 < V.dim
    · obtain ⟨M, e, r, c, h⟩ := dirac_average hn (fun d hd => (hcol d hd).1) (fun d hd x hx => by
        obtain ⟨-, w, hw, hmin⟩ := hcol d hd
        rw [hw] at hx
        obtain rfl := Option.some.inj hx
        obtain ⟨y, hy, hyc⟩ := hc d hd
        exact lt_of_le_of_lt (hmin y hy) hyc) hpos
      refine ⟨M, e, r, c, fun d hd => ?_⟩
      obtain ⟨-, w, hw, hmin⟩ := hcol d hd
      exact ⟨col d, w, hw, hmin, h d hd⟩
    · have hm : m = 0 := by
        by_contra h0
        obtain ⟨x, hx, -⟩ := hc 0 (by omega)
        have := hn 0 (by omega)
        rw [show V.dim = 0 by omega, List.length_eq_zero_iff] at this
        rw [this] at hx
        simp at hx
      subst hm
      obtain ⟨M, eM, hr, hc', -⟩ := (Acc.nil (K := K) 0 V.dim).csr
      refine ⟨M, ?_, hr, hc', fun d hd => absurd hd (by omega)⟩
      show diracAvg V.dim 0 true dists = .ok M
      rw [diracAvg, pyAssert_true, py_bind_ok]
      exact eM
  refine ⟨⟨fwd, fun h => ?_⟩, fun M hM => ?_⟩
  · obtain ⟨M, hM, -⟩ := bwd h
    exact ⟨M, hM⟩
  · obtain ⟨M', hM', h⟩ := bwd (fwd ⟨M, hM⟩)
    rw [hM] at hM'
    cases hM'
    exact h

omit [IsStrictOrderedRing K] in
/-- Spaces which fail the checks (not scalar, on other meshes) are refused, whatever the patches. -/
theorem patch_mat_refused (V : Space K) (m : Nat) (dists : Nat → List K) (colorIds : List K) (toUint : K → Nat)
    (pf : Option (Nat → Nat)) (coloring : Option (List (Nat × G))) :
    patchAvgMat V m false dists colorIds toUint pf coloring = .error .assertion := by
  cases pf <;> [skip; cases coloring] <;> rfl

/-- Two rows, at the last and at the first dof of the line. -/
example : ∃ M, patchAvgMat (G := Unit) line3 2 true (fun d => if d = 0 then [3, 2, 1, 0] else [0, 1, 2, 3]) [] (fun _ => 0) none none = .ok M ∧
    ∀ u : Nat → ℚ, M.act u 0 = u 3 ∧ M.act u 1 = u 0 := by
  have h := patch_mat_points (K := ℚ) (G := Unit) (V := line3) (m := 2) (dists := fun d => if d = 0 then [3, 2, 1, 0] else [0, 1, 2, 3])
    (fun d _ => by by_cases h : d = 0 <;> simp [h, line3]) [] (fun _ => 0) none
  obtain ⟨M, hM⟩ := h.1.2 (fun d _ => ⟨0, by by_cases h : d = 0 <;> simp [h], by norm_num⟩)
  refine ⟨M, hM, fun u => ?_⟩
  obtain ⟨-, -, hr⟩ := h.2 M hM
  obtain ⟨j, x, h1, h2, h3⟩ := hr 0 (by omega)
  obtain ⟨k, y, g1, g2, g3⟩ := hr 1 (by omega)
  have hx := h2 0 (by simp)
  have hy := g2 0 (by simp)
  rw [h3, g3]
  match j, k, h1, g1 with
  | 3, 0, _, _ => exact ⟨rfl, rfl⟩
  | 0, _, h1, _ => simp at h1; subst h1; norm_num at hx
  | 1, _, h1, _ => simp at h1; subst h1; norm_num at hx
  | 2, _, h1, _ => simp at h1; subst h1; norm_num at hx
  | j + 4, _, h1, _ => simp at h1
  | _, 1, _, h1 => simp at h1; subst h1; norm_num at hy
  | _, 2, _, h1 => simp at h1; subst h1; norm_num at hy
  | _, 3, _, h1 => simp at h1; subst h1; norm_num at hy
  | _, k + 4, _, h1 => simp at h1

/-- Patches 1 and 2 of one and two cells. -/
example : ∃ M, patchAvgMat (G := Unit) line3 3 true (fun _ => []) ([2, 0, 1].map (fun p : Nat => (p : ℚ))) (fun _ => 0)
      (some (fun c => if c = 0 then 1 else 2)) none = .ok M ∧ M.act (fun j => (j : ℚ)) 0 = 2 := by
  obtain ⟨M, e, -, -, h⟩ := patch_mat (K := ℚ) (G := Unit) line3_wf (pf := fun c => if c = 0 then 1 else 2) (ids := [2, 0, 1]) (by decide)
    (fun _ => []) (fun _ => 0)
  exact ⟨M, e, by rw [h 0 2 rfl]; decide +kernel⟩

end Verif.Patch
