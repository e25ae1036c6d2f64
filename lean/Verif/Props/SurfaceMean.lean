import Verif.Lemmas.SurfaceMean
/-!
# C75: means over surfaces
-/
namespace Verif.SurfaceMean
open Verif Verif.DofMat Verif.Trace Finset
variable {K X : Type} [Field K]

/-- The matrix returned by `surface_mean_mat` has one row, which gives the mean over the surface of the trace of
    any function.  The trace on a cell of the surface is taken from the first cell connected to it; it does not
    matter which one if the function is continuous on the facets.  The trace space must have the same integrals. -/
theorem surface_mean_is_mean [DecidableEq K] {g : Nat} {V TV : Space K X} (hV : V.WF) (hT : TV.WF)
    (hL : TV.LinearDofs) {D : Data K X g} (h1 : D.map1 = .ok ()) (h2 : D.map2 = .ok ()) (hh : D.hdivTrace = none)
    (hm : D.marks.length = TV.numCells) (hdg : TV.isDG = true → Discontinuous TV) {facet cell : Nat → Nat}
    (hmap : ∀ t, t < TV.numCells → D.mapping.lookup t = some (facet t) ∧
      (D.f2c (facet t)).head? = some (cell t) ∧ cell t < V.numCells)
    {int : Nat → (X → K) → K} (hI : LinearIntegral int) {vol : Nat → K} (hvol : area TV.numCells vol ≠ 0)
    (tiny : Collapse.Tiny K) (fuel : Nat) :
    ∃ R, surfaceMeanMat tiny (fuel + 2) V TV D int vol true true true = .ok (.mat R) ∧ R.rows = 1 ∧
      R.cols = V.dim ∧
      ∀ u : Nat → K,
        (∀ t t', t < TV.numCells → t' < TV.numCells → ∀ l l' d, (TV.cellDofs t)[l]? = some d →
          (TV.cellDofs t')[l']? = some d →
            TV.dofs t l (fnOn V u (cell t)) = TV.dofs t' l' (fnOn V u (cell t'))) →
        (∀ t, t < TV.numCells → Reproduces TV int t (fnOn V u (cell t))) →
        R.act u 0 = mean TV.numCells int vol (fun t => fnOn V u (cell t)) := by
  have hlt : ∀ t ∈ traceCells D.marks D.marks.dedup, t < TV.numCells := by
    intro t ht
    obtain ⟨tag, _, htag⟩ := mem_traceCells.1 ht
    rw [← hm]
    by_contra hcon
    rw [List.getElem?_eq_none (by omega)] at htag
    exact absurd htag (by simp)
  obtain ⟨M, hM, hE⟩ := no_restrict_evaluates_dofs (D := allTags D) hV hT hL h1 h2 hh hm
    (by simpa [allTags] using List.nodup_dedup D.marks) hdg (facet := facet) (cell := cell)
    (fun t ht => hmap t (hlt t ht))
  have ha := areaSum TV.numCells vol
  have hc : (meanRow TV int (1 / area TV.numCells vol)).cols = M.rows := hE.rows.symm
  refine ⟨(meanRow TV int (1 / area TV.numCells vol)).mul M, ?_, rfl, hE.cols, ?_⟩
  · rw [surfaceMeanMat, pyAssert_true, py_bind_ok, py_bind_ok, py_bind_ok, surfaceMeanMatrix, hM, py_bind_ok]
    simp only [ha, if_neg hvol]
    rw [Collapse.collapse, Collapse.collapseMul, Collapse.matMul, if_pos hc]
  · intro u hu hr
    have hu' : Unambiguous V TV (traceCells D.marks D.marks.dedup) cell u :=
      fun t ht t' ht' => hu t t' (hlt t ht) (hlt t' ht')
    rw [Mat.mul_act _ _ hc, meanRow_act hT hI, mean, one_div, mul_comm _⁻¹, ← div_eq_mul_inv]
    congr 1
    refine sum_congr rfl (fun t ht => ?_)
    have ht' : t < TV.numCells := by simpa using ht
    rw [← hr t ht', hI.sum]
    refine sum_congr rfl (fun l hl => ?_)
    have hl' : l < (TV.cellDofs t).length := by rw [hT.len t ht']; simpa using hl
    have hg : (TV.cellDofs t).getD l 0 = (TV.cellDofs t)[l] := by
      rw [List.getD_eq_getElem?_getD, List.getElem?_eq_getElem hl']; rfl
    rw [hg, hI.smul, hE.all hu' (t := t) (l := l)
      (mem_allCells (marks := D.marks) (by omega)) (List.getElem?_eq_getElem hl')]

/-- The mean of a constant is the constant. -/
theorem mean_of_constant {n : Nat} {int : Nat → (X → K) → K} (hI : LinearIntegral int) {vol : Nat → K}
    (hv : ∀ t, t < n → int t (fun _ => 1) = vol t) (hvol : area n vol ≠ 0) (k : K) (f : Nat → X → K)
    (hf : ∀ t, t < n → ∀ x, f t x = k) : mean n int vol f = k := by
  have : ∑ t ∈ range n, int t (f t) = k * area n vol := by
    rw [area, mul_sum]
    refine sum_congr rfl (fun t ht => ?_)
    have ht' : t < n := by simpa using ht
    rw [← hv t ht', ← hI.smul]
    congr 1
    funext x
    rw [hf t ht' x, mul_one]
  rw [mean, this, mul_div_assoc, div_self hvol, mul_one]

/-- A surface of zero area (in particular one without cells) is refused. -/
theorem surface_mean_no_area [DecidableEq K] {g : Nat} {V TV : Space K X} {D : Data K X g} {M : Mat K}
    (hM : noRestrict V TV (allTags D) = .ok M) {int : Nat → (X → K) → K} {vol : Nat → K}
    (hvol : area TV.numCells vol = 0) (tiny : Collapse.Tiny K) (fuel : Nat) :
    surfaceMeanMat tiny fuel V TV D int vol true true true = .error .zeroDivision := by
  have ha := areaSum TV.numCells vol
  rw [surfaceMeanMat, pyAssert_true, py_bind_ok, py_bind_ok, py_bind_ok, surfaceMeanMatrix, hM, py_bind_ok]
  simp only [ha, if_pos hvol]

/-- The target must be the space of reals on the surface mesh, of the shape of the space. -/
theorem surface_mean_checks [DecidableEq K] {g : Nat} (V TV : Space K X) (D : Data K X g)
    (int : Nat → (X → K) → K) (vol : Nat → K) (tiny : Collapse.Tiny K) (fuel : Nat) (a b c : Bool)
    (h : ¬ (a = true ∧ b = true ∧ c = true)) :
    surfaceMeanMat tiny fuel V TV D int vol a b c = .error .assertion := by
  cases a <;> cases b <;> cases c <;> first | rfl | exact absurd ⟨rfl, rfl, rfl⟩ h

/-! A triangle and its bottom edge. -/

/-- Linear functions on the triangle with vertices (0, 0), (1, 0), (0, 1). -/
def triangleP1 : Space ℚ (ℚ × ℚ) where
  dim := 3
  numCells := 1
  spaceDim := 3
  cellDofs _ := [0, 1, 2]
  basis _ l x := if l = 0 then 1 - x.1 - x.2 else if l = 1 then x.1 else x.2
  dofs _ l f := if l = 0 then f (0, 0) else if l = 1 then f (1, 0) else f (0, 1)

/-- Linear functions on the edge from (0, 0) to (1, 0). -/
def edgeP1 : Space ℚ (ℚ × ℚ) where
  dim := 2
  numCells := 1
  spaceDim := 2
  cellDofs _ := [0, 1]
  basis _ l x := if l = 0 then 1 - x.1 else x.1
  dofs _ l f := if l = 0 then f (0, 0) else f (1, 0)

/-- Simpson's rule on the edge. -/
def simpson (_ : Nat) (f : ℚ × ℚ → ℚ) : ℚ := (f (0, 0) + 4 * f (1 / 2, 0) + f (1, 0)) / 6

/-- The edge is facet 2 of the triangle. -/
def edgeData : Data ℚ (ℚ × ℚ) 2 :=
  ⟨.ok (), .ok (), [(0, 2)], fun _ => [0], [7], [], [], none, [], [], fun _ _ => 0, fun _ _ => 0⟩

/-- The mean of `2 + 4 x - y` over the edge is 4. -/
example : ∃ R, surfaceMeanMat (fun _ => false) 2 triangleP1 edgeP1 edgeData simpson (fun _ => 1) true true true
      = .ok (.mat R) ∧ R.rows = 1 ∧ R.cols = 3 ∧ R.act (fun i => if i = 0 then 2 else if i = 1 then 6 else 1) 0 = 4 := by
  obtain ⟨R, h, hr, hc, hu⟩ := surface_mean_is_mean (V := triangleP1) (TV := edgeP1) (D := edgeData)
    (facet := fun _ => 2) (cell := fun _ => 0) (int := simpson) (vol := fun _ => 1)
    ⟨fun _ _ => rfl, fun _ _ => by simp [triangleP1], fun _ _ => by simp [triangleP1]⟩
    ⟨fun _ _ => rfl, fun _ _ => by simp [edgeP1], fun _ _ => by simp [edgeP1]⟩
    ⟨fun _ l f g => by simp only [edgeP1]; split <;> rfl, fun _ l a f => by simp only [edgeP1]; split <;> rfl⟩
    rfl rfl rfl rfl (fun h => absurd h (by decide))
    (fun t ht => by
      have : t = 0 := by simpa [edgeP1] using ht
      subst this
      exact ⟨rfl, rfl, by decide⟩)
    ⟨fun t f g => by simp only [simpson]; ring, fun t a f => by simp only [simpson]; ring⟩
    (by simp [area, edgeP1]) (fun _ => false) 0
  refine ⟨R, h, hr, hc, ?_⟩
  rw [hu]
  · simp [mean, area, edgeP1, simpson, fnOn, triangleP1, sum_range_succ]
    norm_num
  · intro t t' ht ht' l l' d hl hl'
    have h1 : t = 0 := by simpa [edgeP1] using ht
    have h2 : t' = 0 := by simpa [edgeP1] using ht'
    subst h1 h2
    have hn : (edgeP1.cellDofs 0).Nodup := by simp [edgeP1]
    have : l = l' := by
      obtain ⟨h1, e1⟩ := List.getElem?_eq_some_iff.1 hl
      obtain ⟨h2, e2⟩ := List.getElem?_eq_some_iff.1 hl'
      exact (List.Nodup.getElem_inj_iff hn).1 (e1.trans e2.symm)
    rw [this]
  · intro t _
    simp [Reproduces, edgeP1, simpson, fnOn, triangleP1, sum_range_succ]

end Verif.SurfaceMean
