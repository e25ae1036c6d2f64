import Verif.Lemmas.Trace2
import Verif.Props.DofMat
import Mathlib.Tactic.FinCases
/-!
# C33, C34: trace matrices

C33: rows of the trace matrices are degrees of freedom evaluated on a cell connected to the facet.
C34: the sides of one- and two-sided traces.  'avg' and 'jump' cannot be reached through `Trace`, and
the '+' side of one-sided traces is the '-' side of the two-sided ones.
-/
namespace Verif.Trace
open Verif Verif.BlockOps Verif.DofMat Finset
variable {K X : Type}

/-! ## Conforming traces -/

section ring
variable [CommRing K] {g : Nat}

/-- Unrestricted trace: for every dof of a marked cell the row evaluates the dof on the first cell
    connected to the facet, other rows are zero. -/
theorem no_restrict_evaluates_dofs {V TV : Space K X} (hV : V.WF) (hT : TV.WF) (hL : TV.LinearDofs)
    {D : Data K X g} (h1 : D.map1 = .ok ()) (h2 : D.map2 = .ok ()) (hh : D.hdivTrace = none)
    (hm : D.marks.length = TV.numCells) (ht : D.tags.Nodup) (hdg : TV.isDG = true → Discontinuous TV)
    {facet cell : Nat → Nat}
    (hmap : ∀ t ∈ traceCells D.marks D.tags, D.mapping.lookup t = some (facet t) ∧
      (D.f2c (facet t)).head? = some (cell t) ∧ cell t < V.numCells) :
    ∃ M, noRestrict V TV D = .ok M ∧
      EvaluatesDofs V TV (traceCells D.marks D.tags) (fun t _ => some (cell t)) M := by
  obtain ⟨M, h, hM⟩ := traceRows_ok (pick := firstCell D.mapping D.f2c) (choice := cell)
    (cells := traceCells D.marks D.tags) hV hT hL (fun t htm => by
      obtain ⟨ha, hb, hc⟩ := hmap t htm
      refine ⟨?_, ?_, hc⟩
      · obtain ⟨tag, _, htag⟩ := mem_traceCells.1 htm
        rw [← hm]
        by_contra hcon
        rw [List.getElem?_eq_none (by omega)] at htag
        exact absurd htag (by simp)
      · rw [firstCell, dictGet, ha]
        simp only [py_bind_ok]
        rw [pyGet_eq_ok, ← List.head?_eq_getElem?, hb])
    (fun hd => ⟨traceCells_nodup ht, hdg hd⟩)
  exact ⟨M, by rw [noRestrict, h1, py_bind_ok, withMap, h2, hh]; exact h, hM⟩

/-- The fallback to the non-conforming trace is not reached when the first attempt to compute the
    embedding map fails: the exception is not caught. -/
theorem no_restrict_map_error {V TV : Space K X} {D : Data K X g} {e : PyErr} (h : D.map1 = .error e) :
    noRestrict V TV D = .error e := by
  rw [noRestrict, h]; rfl

/-- One-sided trace: the same with the cell found by `pick_cell`. -/
theorem one_restrict_evaluates_dofs {V TV : Space K X} (hV : V.WF) (hT : TV.WF) (hL : TV.LinearDofs)
    {D : Data K X g} (h2 : D.map2 = .ok ()) (hh : D.hdivTrace = none)
    (hm : D.marks.length = TV.numCells) (ht : D.tags.Nodup) (hdg : TV.isDG = true → Discontinuous TV)
    {side : Side} {normal : Nat → Fin g → ℝ} {cell : Nat → Nat}
    (hmap : ∀ t ∈ traceCells D.marks D.tags,
      sideCell side D.mapping D.f2c normal D.tmid D.mid t = .ok (cell t) ∧ cell t < V.numCells) :
    ∃ M, oneRestrict V TV D side true normal = .ok M ∧
      EvaluatesDofs V TV (traceCells D.marks D.tags) (fun t _ => some (cell t)) M := by
  obtain ⟨M, h, hM⟩ := traceRows_ok (pick := sideCell side D.mapping D.f2c normal D.tmid D.mid)
    (choice := cell) (cells := traceCells D.marks D.tags) hV hT hL (fun t htm => by
      obtain ⟨ha, hc⟩ := hmap t htm
      refine ⟨?_, ha, hc⟩
      obtain ⟨tag, _, htag⟩ := mem_traceCells.1 htm
      rw [← hm]
      by_contra hcon
      rw [List.getElem?_eq_none (by omega)] at htag
      exact absurd htag (by simp))
    (fun hd => ⟨traceCells_nodup ht, hdg hd⟩)
  refine ⟨M, ?_, hM⟩
  rw [oneRestrict, pyAssert_true, py_bind_ok, withMap, h2, hh]
  exact h

/-- In the one-sided traces a failure to compute the map (`AssertionError`, `IndexError`) leads to the
    non-conforming trace, whatever the side. -/
theorem one_restrict_fallback {V TV : Space K X} {D : Data K X g} {side : Side} {normal : Nat → Fin g → ℝ}
    (h : D.map2 = .error .assertion ∨ D.map2 = .error .indexError) :
    oneRestrict V TV D side true normal = nonconformingTraceMat V TV true D.collisions := by
  rcases h with h | h <;> rw [oneRestrict, pyAssert_true, py_bind_ok, withMap, h]

/-- Facet spaces: the row of the dof of a marked cell picks the coefficient of the facet. -/
theorem dlt_injects {m n : Nat} {mapping : List (Nat × Nat)} {cells : List Nat}
    {tdofs : List (Nat → List Nat)} {facetDofs : List (List Nat)}
    {fs : List ((Nat → Nat) × (Nat → Nat))} (hl : tdofs.length = facetDofs.length)
    (hl' : tdofs.length = fs.length)
    (h : ∀ p ∈ (tdofs.zip facetDofs).zip fs, ∀ t ∈ cells, p.1.1 t = [p.2.1 t] ∧ p.2.1 t < m ∧ p.2.2 t < n ∧
      ∃ f, mapping.lookup t = some f ∧ p.1.2[f]? = some (p.2.2 t))
    (huniq : ∀ p ∈ fs, ∀ t ∈ cells, ∀ p' ∈ fs, ∀ t' ∈ cells, p.1 t = p'.1 t' → p.2 t = p'.2 t') :
    ∃ M : Mat K, dltTraceMat m n mapping cells tdofs facetDofs = .ok M ∧ M.rows = m ∧ M.cols = n ∧
      (∀ u, ∀ p ∈ fs, ∀ t ∈ cells, M.act u (p.1 t) = u (p.2 t)) ∧
      ∀ u d, (∀ p ∈ fs, ∀ t ∈ cells, p.1 t ≠ d) → M.act u d = 0 := by
  obtain ⟨M, hM, e⟩ := dltComps_ok (m := m) (n := n) (mapping := mapping) (cells := cells)
    (tdofs.zip facetDofs) fs (fun _ _ => (0 : K)) (by simp [hl, ← hl']) h
  have hmem : ∀ i j, (i, j) ∈ fs.flatMap (fun q => cells.map (fun t => (q.1 t, q.2 t))) ↔
      ∃ p ∈ fs, ∃ t ∈ cells, p.1 t = i ∧ p.2 t = j := by
    intro i j
    simp only [List.mem_flatMap, List.mem_map, Prod.mk.injEq]
  refine ⟨Mat.of m n M, ?_, rfl, rfl, fun u p hp t ht => ?_, fun u d hd => ?_⟩
  · rw [dltTraceMat, show decide (tdofs.length = facetDofs.length) = true by simp [hl], pyAssert_true,
      py_bind_ok, hM]
    rfl
  · have hz : ∃ q ∈ (tdofs.zip facetDofs).zip fs, q.2 = p := by
      obtain ⟨i, hi, rfl⟩ := List.getElem_of_mem hp
      refine ⟨((tdofs.zip facetDofs).zip fs)[i]'(by simp [← hl, hl', hi]), List.getElem_mem _, by simp⟩
    obtain ⟨q, hq, rfl⟩ := hz
    obtain ⟨_, h2, h3, _⟩ := h q hq t ht
    rw [Mat.of_act, if_pos h2, Finset.sum_eq_single (q.2.2 t)]
    · rw [e, if_pos ((hmem _ _).2 ⟨q.2, hp, t, ht, rfl, rfl⟩), one_mul]
    · intro j _ hj
      rw [e, if_neg, zero_mul]
      intro hc
      obtain ⟨p', hp', t', ht', h1', h2'⟩ := (hmem _ _).1 hc
      exact hj (h2' ▸ (huniq _ hp' t' ht' _ hp t ht h1'))
    · intro hc; exact absurd (Finset.mem_range.2 h3) hc
  · rw [Mat.of_act]
    split
    · refine Finset.sum_eq_zero (fun j _ => ?_)
      rw [e, if_neg, zero_mul]
      intro hc
      obtain ⟨p', hp', t', ht', h1', _⟩ := (hmem _ _).1 hc
      exact hd p' hp' t' ht' h1'
    · rfl

/-! ## Which trace is used -/

/-- `Trace` with 'avg' or 'jump' always raises: there is no way to get a two-sided trace matrix. -/
theorem trace_mat_two_sided_raises (V TV : Space K X) (D : Data K X g) (compatible : Bool) (r : Two)
    (isDG0 : Bool) (normal : Option (Nat → Fin g → ℝ)) :
    ∃ e, traceMat V TV D compatible (.two r) isDG0 normal = .error e ∧
      (compatible = true → normal.isSome → e = .typeError) := by
  cases compatible <;> cases normal <;> simp [traceMat]

theorem trace_mat_selects (V TV : Space K X) (D : Data K X g) (isDG0 : Bool) (n : Nat → Fin g → ℝ)
    (s : Side) :
    traceMat V TV D true .none isDG0 (some n) = noRestrict V TV D ∧
      traceMat V TV D true .none isDG0 none = noRestrict V TV D ∧
      traceMat V TV D true (.one s) isDG0 (some n) = oneRestrict V TV D s isDG0 n ∧
      traceMat V TV D true (.one s) isDG0 none = .error .assertion := ⟨rfl, rfl, rfl, rfl⟩

end ring

/-! ## Sides of one-sided traces -/

section sides
variable {g : Nat}

theorem indexOf_head (s : Side) (l : List Side) : indexOf (s :: l) s = .ok 0 := by
  simp [indexOf, List.findIdx_cons]

theorem indexOf_second {s s' : Side} (h : s' ≠ s) : indexOf [s', s] s = .ok 1 := by
  simp [indexOf, List.findIdx_cons, h]

/-- On an interior facet with a cell on each side of the normal, '+' and '-' use the two different cells
    — but '+' uses the cell on the *minus* side of the documentation, and '-' the one on the plus side. -/
theorem one_restrict_sides {n tmp : Fin g → ℝ} {mid : Nat → Fin g → ℝ} {fc : List Nat} {p m : Nat}
    (h : (Facet.interior p m).Describes n tmp mid fc) :
    pickCell .plus fc n tmp mid = .ok m ∧ pickCell .minus fc n tmp mid = .ok p := by
  obtain ⟨hfc, hp, hm⟩ := h
  have h1 := pickSign_of_onPlus hp
  have h2 := pickSign_of_onMinus hm
  rcases hfc with rfl | rfl
  · constructor
    · simp only [pickCell, List.map_cons, List.map_nil, h1, h2]
      rw [indexOf_second (by decide)]; rfl
    · simp only [pickCell, List.map_cons, List.map_nil, h1, h2]
      rw [indexOf_head]; rfl
  · constructor
    · simp only [pickCell, List.map_cons, List.map_nil, h1, h2]
      rw [indexOf_head]; rfl
    · simp only [pickCell, List.map_cons, List.map_nil, h1, h2]
      rw [indexOf_second (by decide)]; rfl

/-- The two cells are different. -/
theorem one_restrict_sides_differ {n tmp : Fin g → ℝ} {mid : Nat → Fin g → ℝ} {fc : List Nat} {p m : Nat}
    (h : (Facet.interior p m).Describes n tmp mid fc) :
    pickCell .plus fc n tmp mid ≠ pickCell .minus fc n tmp mid := by
  obtain ⟨h1, h2⟩ := one_restrict_sides h
  rw [h1, h2]
  intro hc
  have : m = p := by simpa using hc
  obtain ⟨_, hp, hm⟩ := h
  subst this
  unfold OnPlusSide at hp
  unfold OnMinusSide at hm
  linarith

/-- On a boundary facet with the normal pointing out, '+' uses the only cell and '-' raises. -/
theorem one_restrict_boundary {n tmp : Fin g → ℝ} {mid : Nat → Fin g → ℝ} {c : Nat}
    (h : OnMinusSide n tmp (mid c)) :
    pickCell .plus [c] n tmp mid = .ok c ∧ pickCell .minus [c] n tmp mid = .error .valueError := by
  have h1 := pickSign_of_onMinus h
  constructor
  · simp only [pickCell, List.map_cons, List.map_nil, h1]
    rw [indexOf_head]; rfl
  · simp [pickCell, h1, indexOf]

end sides

/-! ## Two-sided traces -/

section field
variable [Field K] {g : Nat}

/-- The rows of `trace_mat_two_restrict` (when called directly): 'jump' is plus minus minus and 'avg'
    the mean, with the sides of the documentation; on boundary facets the only value is used. -/
theorem two_restrict_evaluates_partial {V TV : Space K X} (hV : V.WF) (hT : TV.WF) (hL : TV.LinearDofs)
    (r : Two) {mapping : List (Nat × Nat)} {f2c : Nat → List Nat} {normal tmid mid : Nat → Fin g → ℝ}
    {facet : Nat → Facet}
    (hmap : ∀ t, t < TV.numCells → ∃ f, mapping.lookup t = some f ∧
      (facet t).Describes (normal t) (tmid t) mid (f2c f) ∧ (facet t).Cells (· < V.numCells)) :
    ∃ M, twoRestrict V TV r mapping f2c normal tmid mid = .ok M ∧ M.rows = TV.dim ∧ M.cols = V.dim ∧
      (∀ (u : Nat → K) (t l d : Nat), FirstAt TV (List.range TV.numCells) t l d →
        M.act u d = (facet t).combine r (fun c => TV.dofs t l (fnOn V u c))) ∧
      ∀ (u : Nat → K) (d : Nat), (∀ t, t < TV.numCells → d ∉ TV.cellDofs t) → M.act u d = 0 := by
  let ps : Nat → List ((K → K) × Nat) := fun t => match facet t with
    | .interior p m => (pieces r).zip [p, m]
    | .boundary c => [(fun x => x, c)]
  let ord := fun t => do
    let f ← dictGet mapping t
    ordered (K := K) r (f2c f) (normal t) (tmid t) mid
  have hord : ∀ t, t < TV.numCells → ord t = .ok (ps t) := by
    intro t ht
    obtain ⟨f, hf, hd, _⟩ := hmap t ht
    simp only [ord, ps, dictGet, hf, py_bind_ok]
    cases hfac : facet t with
    | boundary c =>
      rw [hfac] at hd
      simp only [Facet.Describes] at hd
      rw [hd]
      rfl
    | interior p m =>
      rw [hfac] at hd
      obtain ⟨hfc, hp, hm⟩ := hd
      unfold OnPlusSide at hp
      unfold OnMinusSide at hm
      rcases hfc with h | h
      · rw [h]
        simp only [ordered]
        rw [if_pos hp]
      · rw [h]
        simp only [ordered]
        rw [if_neg (by linarith)]
  have hlt : ∀ t, t < TV.numCells → ∀ p ∈ ps t, p.2 < V.numCells := by
    intro t ht p hp
    obtain ⟨f, hf, hd, hc⟩ := hmap t ht
    simp only [ps] at hp
    cases hfac : facet t with
    | boundary c =>
      rw [hfac] at hp hc
      simp only [List.mem_singleton] at hp
      subst hp
      exact hc
    | interior p' m =>
      rw [hfac] at hp hc
      have := (List.of_mem_zip hp).2
      simp only [List.mem_cons, List.not_mem_nil, or_false] at this
      rcases this with h | h <;> rw [h]
      · exact hc.1
      · exact hc.2
  let ROW : Nat → Nat → Nat → Nat → K := fun t l _ j =>
    ((ps t).map (fun p => rowVal V TV p.1 t l p.2 j)).sum
  obtain ⟨s, h, hI⟩ := cellLoop_ok (V := V) (TV := TV) hT
    (put := fun d t s => do
      let ps ← ord t
      sweeps V TV d .insert ps s)
    (prep := fun t s => do
      let _ ← ord t
      .ok (s, fun _ => .ok (some t)))
    (ROW := ROW)
    (fun t s ht _ => by
      refine ⟨s, fun _ => .ok (some t), by rw [hord t ht]; rfl, rfl, rfl, rfl, rfl, ?_⟩
      intro l d s hl htv hb h0
      have hd := hT.lt t ht d (List.mem_of_getElem? hl)
      have hls : l < TV.spaceDim := by
        rw [← hT.len t ht]
        by_contra hc
        rw [List.getElem?_eq_none (by omega)] at hl
        exact absurd hl (by simp)
      obtain ⟨s', h1, h2, h3, h4, h5⟩ := sweeps_ok (TV := TV) hV hd (ps t) .insert s (hlt t ht)
        (by rw [htv]; exact hls) hb (fun _ => h0)
      refine ⟨s', ?_, h2, h3, h4, fun i j => ?_⟩
      · rw [fin]
        simp only [py_bind_ok]
        rw [hord t ht]
        exact h1
      · rw [h5, h0, htv, zero_add])
    (List.range TV.numCells) [] (St.init V TV) (by simp) (inv_init V TV _)
  refine ⟨Mat.of TV.dim V.dim s.mat, ?_, rfl, rfl, fun u t l d hf => ?_, fun u d hd => ?_⟩
  · rw [twoRestrict]
    change (do
      let s ← cellLoop TV
        (fun d t s => do
          let ps ← ord t
          sweeps V TV d .insert ps s)
        (fun t s => do
          let _ ← ord t
          .ok (s, fun _ => .ok (some t)))
        (List.range TV.numCells) (St.init V TV)
      .ok (Mat.of TV.dim V.dim s.mat)) = _
    rw [h]
    rfl
  · obtain ⟨ht, hd⟩ := firstAt_lt hT (by simp) hf
    obtain ⟨f, _, _, hc⟩ := hmap t ht
    have key : ∀ (a : K) c, c < V.numCells →
        ∑ j ∈ range V.dim, rowVal V TV (fun x => a * x) t l c j * u j = a * TV.dofs t l (fnOn V u c) := by
      intro a c hc
      rw [← rowVal_act hV hL hc u, Finset.mul_sum]
      refine Finset.sum_congr rfl (fun j _ => ?_)
      rw [rowVal_smul, mul_assoc]
    rw [Mat.of_act, if_pos hd]
    simp only [hI.mat, rowOf, List.nil_append, first_slots hT (by simp) hf, ROW, ps]
    cases hfac : facet t with
    | boundary c =>
      rw [hfac] at hc
      simp only [List.map_cons, List.map_nil, List.sum_cons, List.sum_nil, add_zero, Facet.combine]
      have := rowVal_act hV hL (t := t) (l := l) hc u
      exact this
    | interior p m =>
      rw [hfac] at hc
      cases r with
      | avg =>
        simp only [pieces_eq, List.zip_cons_cons, List.zip_nil_right, List.map_cons, List.map_nil,
          List.sum_cons, List.sum_nil, add_zero, Facet.combine, add_mul, Finset.sum_add_distrib]
        rw [key _ p hc.1, key _ m hc.2]
        ring
      | jump =>
        simp only [pieces_eq, List.zip_cons_cons, List.zip_nil_right, List.map_cons, List.map_nil,
          List.sum_cons, List.sum_nil, add_zero, Facet.combine, add_mul, Finset.sum_add_distrib]
        rw [key _ p hc.1, key _ m hc.2]
        ring
  · rw [Mat.of_act]
    simp only [hI.mat, rowOf, List.nil_append, first_slots_none (fun t ht => hd t (List.mem_range.1 ht)),
      zero_mul, Finset.sum_const_zero, ite_self]

/-- One- and two-sided traces do not use the same sides: with `plus`, `minus` the results of the '+' and
    '-' traces on interior facets, the matrix of 'jump' gives `minus - plus`, and 'avg' the mean. -/
theorem jump_is_reversed {V TV : Space K X} (hV : V.WF) (hT : TV.WF) (hL : TV.LinearDofs)
    {D : Data K X g} (h2 : D.map2 = .ok ()) (hh : D.hdivTrace = none)
    (hdg : TV.isDG = true → Discontinuous TV) (hm : D.marks = List.replicate TV.numCells 0)
    (ht : D.tags = [0]) {normal : Nat → Fin g → ℝ} {p m : Nat → Nat}
    (hmap : ∀ t, t < TV.numCells → ∃ f, D.mapping.lookup t = some f ∧
      (Facet.interior (p t) (m t)).Describes (normal t) (D.tmid t) D.mid (D.f2c f) ∧
      p t < V.numCells ∧ m t < V.numCells) :
    ∃ plus minus jump avg,
      oneRestrict V TV D .plus true normal = .ok plus ∧
      oneRestrict V TV D .minus true normal = .ok minus ∧
      twoRestrict V TV .jump D.mapping D.f2c normal D.tmid D.mid = .ok jump ∧
      twoRestrict V TV .avg D.mapping D.f2c normal D.tmid D.mid = .ok avg ∧
      ∀ (u : Nat → K) (d : Nat), jump.act u d = minus.act u d - plus.act u d ∧
        avg.act u d = (plus.act u d + minus.act u d) / 2 := by
  have hcells : traceCells D.marks D.tags = List.range TV.numCells := by
    rw [hm, ht, traceCells]
    simp only [List.flatMap_cons, List.flatMap_nil, List.append_nil, List.length_replicate]
    refine List.filter_eq_self.2 (fun a ha => ?_)
    have ha' := List.mem_range.1 ha
    simp [List.getElem?_replicate, ha']
  have hpick : ∀ (side : Side) t, t < TV.numCells →
      sideCell side D.mapping D.f2c normal D.tmid D.mid t =
        .ok (match side with | .plus => m t | .minus => p t) := by
    intro side t htt
    obtain ⟨f, hf, hd, _⟩ := hmap t htt
    rw [sideCell, dictGet, hf]
    simp only [py_bind_ok]
    cases side
    · exact (one_restrict_sides hd).1
    · exact (one_restrict_sides hd).2
  have hone : ∀ (side : Side), ∃ M, oneRestrict V TV D side true normal = .ok M ∧
      EvaluatesDofs V TV (List.range TV.numCells)
        (fun t _ => some (match side with | .plus => m t | .minus => p t)) M := by
    intro side
    rw [← hcells]
    refine one_restrict_evaluates_dofs hV hT hL h2 hh (by simp [hm]) (by simp [ht]) hdg (fun t htm => ?_)
    rw [hcells, List.mem_range] at htm
    refine ⟨hpick side t htm, ?_⟩
    obtain ⟨f, _, _, h1, h2⟩ := hmap t htm
    cases side
    · exact h2
    · exact h1
  obtain ⟨plus, e1, E1⟩ := hone .plus
  obtain ⟨minus, e2, E2⟩ := hone .minus
  have htwo := fun r => two_restrict_evaluates_partial (normal := normal) (tmid := D.tmid) (mid := D.mid)
    (mapping := D.mapping) (f2c := D.f2c) hV hT hL r (facet := fun t => .interior (p t) (m t)) hmap
  obtain ⟨jump, e3, _, _, E3, Z3⟩ := htwo .jump
  obtain ⟨avg, e4, _, _, E4, Z4⟩ := htwo .avg
  refine ⟨plus, minus, jump, avg, e1, e2, e3, e4, fun u d => ?_⟩
  by_cases hd : ∃ t ∈ List.range TV.numCells, d ∈ TV.cellDofs t
  · obtain ⟨t, l, _, hf⟩ := exists_firstAt hd
    rw [E1.row u t l d hf, E2.row u t l d hf, E3 u t l d hf, E4 u t l d hf]
    simp only [Facet.combine]
    exact ⟨trivial, by rw [add_comm]⟩
  · have hd' : ∀ t ∈ List.range TV.numCells, d ∉ TV.cellDofs t := fun t ht h => hd ⟨t, ht, h⟩
    rw [E1.untouched u d hd', E2.untouched u d hd', Z3 u d (fun t ht => hd' t (List.mem_range.2 ht)),
      Z4 u d (fun t ht => hd' t (List.mem_range.2 ht))]
    simp

end field

/-! ## The hypotheses are met: the point `x = 1` between the cells `[0, 1]` and `[1, 2]` -/

/-- Discontinuous P0 functions on `n` cells of a line. -/
def lineP0 (n : Nat) : Space ℚ ℚ where
  dim := n
  numCells := n
  spaceDim := 1
  cellDofs c := [c]
  basis _ _ _ := 1
  dofs _ _ f := f 0
  isDG := true

theorem lineP0_wf (n : Nat) : (lineP0 n).WF :=
  ⟨fun c _ => rfl, fun c _ => by simp [lineP0], fun c hc d hd => by
    simp only [lineP0, List.mem_cons, List.not_mem_nil, or_false] at hc hd ⊢
    omega⟩

theorem lineP0_linear (n : Nat) : (lineP0 n).LinearDofs := ⟨fun _ _ _ _ => rfl, fun _ _ _ _ => rfl⟩

theorem lineP0_disc (n : Nat) : Discontinuous (lineP0 n) := by
  intro t t' _ _ h d hd hd'
  simp only [lineP0, List.mem_singleton] at hd hd'
  omega

/-- The data of the trace at the point `1`. -/
noncomputable def lineData : Data ℚ ℚ 1 where
  map1 := .ok ()
  map2 := .ok ()
  mapping := [(0, 1)]
  f2c f := if f = 1 then [0, 1] else []
  marks := [0]
  tags := [0]
  collisions := []
  hdivTrace := none
  tdofs := []
  facetDofs := []
  tmid _ := ![1]
  mid c := ![c + 1 / 2]

/-- With the normal pointing to the right: the documented plus side is the cell `[1, 2]`; the '+' trace
    is the value on `[0, 1]`, the jump is the value on `[1, 2]` minus the value on `[0, 1]`. -/
example : ∃ plus minus jump avg,
    oneRestrict (lineP0 2) (lineP0 1) lineData .plus true (fun _ => ![1]) = .ok plus ∧
    oneRestrict (lineP0 2) (lineP0 1) lineData .minus true (fun _ => ![1]) = .ok minus ∧
    twoRestrict (lineP0 2) (lineP0 1) .jump lineData.mapping lineData.f2c (fun _ => ![1]) lineData.tmid
      lineData.mid = .ok jump ∧
    twoRestrict (lineP0 2) (lineP0 1) .avg lineData.mapping lineData.f2c (fun _ => ![1]) lineData.tmid
      lineData.mid = .ok avg ∧
    ∀ (u : Nat → ℚ) (d : Nat), jump.act u d = minus.act u d - plus.act u d ∧
        avg.act u d = (plus.act u d + minus.act u d) / 2 := by
  refine jump_is_reversed (lineP0_wf 2) (lineP0_wf 1) (lineP0_linear 1) rfl rfl
    (fun _ => lineP0_disc 1) rfl rfl (p := fun _ => 1) (m := fun _ => 0) (fun t ht => ?_)
  have : t = 0 := by simp only [lineP0] at ht; omega
  subst this
  refine ⟨1, rfl, ⟨Or.inr rfl, ?_, ?_⟩, by simp [lineP0], by simp [lineP0]⟩
  · simp [OnPlusSide, lineData, dotProduct]
  · simp [OnMinusSide, lineData, dotProduct]; norm_num

/-- So the property fails: there are data for which the 'jump' matrix is not plus minus minus. -/
theorem jump_not_plus_minus_minus : ∃ plus minus jump : Mat ℚ,
    oneRestrict (lineP0 2) (lineP0 1) lineData .plus true (fun _ => ![1]) = .ok plus ∧
    oneRestrict (lineP0 2) (lineP0 1) lineData .minus true (fun _ => ![1]) = .ok minus ∧
    twoRestrict (lineP0 2) (lineP0 1) .jump lineData.mapping lineData.f2c (fun _ => ![1]) lineData.tmid
      lineData.mid = .ok jump ∧
    ∃ u, jump.act u 0 ≠ plus.act u 0 - minus.act u 0 := by
  have hsides : (Facet.interior 1 0).Describes (![1] : Fin 1 → ℝ) (lineData.tmid 0) lineData.mid
      (lineData.f2c 1) := by
    refine ⟨Or.inr rfl, ?_, ?_⟩
    · simp [OnPlusSide, lineData, dotProduct]
    · simp [OnMinusSide, lineData, dotProduct]; norm_num
  have hone : ∀ side : Side, ∃ M, oneRestrict (lineP0 2) (lineP0 1) lineData side true (fun _ => ![1]) = .ok M ∧
      EvaluatesDofs (lineP0 2) (lineP0 1) (traceCells lineData.marks lineData.tags)
        (fun t _ => some ((fun _ => match side with | .plus => 0 | .minus => 1 : Nat → Nat) t)) M := by
    intro side
    refine one_restrict_evaluates_dofs (lineP0_wf 2) (lineP0_wf 1) (lineP0_linear 1) rfl rfl rfl
      (by simp [lineData]) (fun _ => lineP0_disc 1) (fun t ht => ?_)
    have ht0 : t = 0 := by
      obtain ⟨tag, _, h⟩ := mem_traceCells.1 ht
      by_contra hc
      rw [List.getElem?_eq_none (by simp [lineData]; omega)] at h
      exact absurd h (by simp)
    subst ht0
    cases side
    · exact ⟨(one_restrict_sides hsides).1, by simp [lineP0]⟩
    · exact ⟨(one_restrict_sides hsides).2, by simp [lineP0]⟩
  obtain ⟨plus, e1, E1⟩ := hone .plus
  obtain ⟨minus, e2, E2⟩ := hone .minus
  obtain ⟨jump, e3, _, _, E3, _⟩ := two_restrict_evaluates_partial (lineP0_wf 2) (lineP0_wf 1) (lineP0_linear 1)
    .jump (mapping := lineData.mapping) (f2c := lineData.f2c) (normal := fun _ => ![1])
    (tmid := lineData.tmid) (mid := lineData.mid) (facet := fun _ => .interior 1 0)
    (fun t ht => by
      have : t = 0 := by simp only [lineP0] at ht; omega
      subst this
      exact ⟨1, rfl, hsides, by simp [lineP0], by simp [lineP0]⟩)
  have hf : FirstAt (lineP0 1) (List.range (lineP0 1).numCells) 0 0 0 := ⟨[], [], rfl, by simp, rfl⟩
  have hf' : FirstAt (lineP0 1) (traceCells lineData.marks lineData.tags) 0 0 0 := ⟨[], [], rfl, by simp, rfl⟩
  refine ⟨plus, minus, jump, e1, e2, e3, fun j => (j : ℚ), ?_⟩
  rw [E1.row _ 0 0 0 hf', E2.row _ 0 0 0 hf', E3 _ 0 0 0 hf]
  simp [Facet.combine, fnOn, lineP0]
  norm_num

/-- Unrestricted trace of the same data: the value on the first cell of the facet. -/
example : ∃ M, noRestrict (lineP0 2) (lineP0 1) lineData = .ok M ∧ ∀ u : Nat → ℚ, M.act u 0 = u 0 := by
  obtain ⟨M, h, hM⟩ := no_restrict_evaluates_dofs (lineP0_wf 2) (lineP0_wf 1) (lineP0_linear 1)
    (D := lineData) rfl rfl rfl rfl (by simp [lineData]) (fun _ => lineP0_disc 1)
    (facet := fun _ => 1) (cell := fun _ => 0) (fun t ht => by
      have ht0 : t = 0 := by
        obtain ⟨tag, _, h⟩ := mem_traceCells.1 ht
        by_contra hc
        rw [List.getElem?_eq_none (by simp [lineData]; omega)] at h
        exact absurd h (by simp)
      subst ht0
      exact ⟨rfl, rfl, by simp [lineP0]⟩)
  refine ⟨M, h, fun u => ?_⟩
  rw [hM.row u 0 0 0 ⟨[], [], rfl, by simp, rfl⟩]
  simp [fnOn, lineP0]

/-- A facet space with two components on a mesh with three facets and two marked cells. -/
example : ∃ M : Mat ℚ, dltTraceMat 4 6 [(0, 2), (1, 0)] [0, 1] [fun t => [t], fun t => [t + 2]]
    [[0, 1, 2], [3, 4, 5]] = .ok M ∧ ∀ u, M.act u 0 = u 2 ∧ M.act u 3 = u 3 := by
  obtain ⟨M, h, _, _, h1, _⟩ := dlt_injects (K := ℚ) (m := 4) (n := 6) (mapping := [(0, 2), (1, 0)])
    (cells := [0, 1]) (tdofs := [fun t => [t], fun t => [t + 2]]) (facetDofs := [[0, 1, 2], [3, 4, 5]])
    (fs := [(fun t => t, fun t => if t = 0 then 2 else 0), (fun t => t + 2, fun t => if t = 0 then 5 else 3)])
    rfl rfl
    (by
      intro p hp t ht
      simp only [List.zip_cons_cons, List.zip_nil_right, List.mem_cons, List.not_mem_nil, or_false] at hp ht
      rcases hp with rfl | rfl <;> rcases ht with rfl | rfl <;> simp <;> exact ⟨_, rfl, rfl⟩)
    (by
      intro p hp t ht p' hp' t' ht'
      simp only [List.mem_cons, List.not_mem_nil, or_false] at hp ht hp' ht'
      rcases hp with rfl | rfl <;> rcases hp' with rfl | rfl <;> rcases ht with rfl | rfl <;>
        rcases ht' with rfl | rfl <;> simp)
  refine ⟨M, h, fun u => ⟨?_, ?_⟩⟩
  · exact h1 u (fun t => t, fun t => if t = 0 then 2 else 0) (by simp) 0 (by simp)
  · exact h1 u (fun t => t + 2, fun t => if t = 0 then 5 else 3) (by simp) 1 (by simp)

end Verif.Trace
